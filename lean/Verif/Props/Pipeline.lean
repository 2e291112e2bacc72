import Verif.Props.VecSearch
import Verif.Props.VecDeque
import Verif.Props.LinkedIter
import Verif.Props.HashSet
/-
Property C156: chains of iterator adapters compute the list pipeline, stage by stage.
-/
namespace Gost
open Spec
variable {σ α : Type}

/-- One adapter of a chain. -/
inductive Spec.Stage (σ α : Type) where
  | map (f : α → Eff σ α)
  | filter (q : α → Eff σ Bool)
  | rev

/-- What a chain means: the function of a stage is called on all elements that the stages before it gave, in order, before the
next stage begins. -/
def Spec.pipeline : List (Spec.Stage σ α) → List α → Eff σ (List α)
  | [], xs => pure xs
  | .map f :: ss, xs => do
    let ys ← mapE f xs
    pipeline ss ys
  | .filter q :: ss, xs => do
    let bs ← mapE q xs
    pipeline ss (select xs bs)
  | .rev :: ss, xs => pipeline ss xs.reverse

/-- A chain that calls functions without effects. -/
inductive Spec.PureStage (α : Type) where
  | map (f : α → α)
  | filter (q : α → Bool)
  | rev

/-- The adapter of a pure stage. -/
def Spec.PureStage.toStage : Spec.PureStage α → Spec.Stage σ α
  | .map f => .map fun a => pure (f a)
  | .filter q => .filter fun a => pure (q a)
  | .rev => .rev

/-- The list function of a pure stage. -/
def Spec.PureStage.on : Spec.PureStage α → List α → List α
  | .map f, xs => xs.map f
  | .filter q, xs => xs.filter q
  | .rev, xs => xs.reverse

/-- The program `it.Map(f).Filter(q).Rev()...` on a Vec, HashMap, HashSet, BTreeMap or BTreeSet iterator (see the comments at
`HMap.intoIter` and `BMap.intoIter` for the map and set iterators, whose adapters have the same text). -/
def VecIter.chain [Inhabited α] (g : Growth) : List (Spec.Stage σ α) → VecIter α → Eff σ (Option (VecIter α))
  | [], it => pure (some it)
  | s :: ss, it => do
    let r ← match s with
      | .map f => it.map g f
      | .filter q => it.filter g q
      | .rev => Eff.lift it.rev
    match r with
    | none => pure none
    | some it => chain g ss it

/-- The same program on a VecDeque iterator, for a chain without Rev (`rounds` bounds the loop of Rev). -/
def DequeIter.chain [Inhabited α] (rounds : Nat) : List (Spec.Stage σ α) → DequeIter α → Eff σ (Option (DequeIter α))
  | [], it => pure (some it)
  | s :: ss, it => do
    let r ← match s with
      | .map f => do let it ← it.map f; pure (some it)
      | .filter q => do let it ← it.filter q; pure (some it)
      | .rev => Eff.lift (it.rev rounds)
    match r with
    | none => pure none
    | some it => chain rounds ss it

/-- The same program on a LinkedList iterator. -/
def LIter.chain : List (Spec.Stage σ α) → LHeap α → Option Nat → Eff σ (Option (LHeap α × Option Nat))
  | [], h, it => pure (some (h, it))
  | s :: ss, h, it => do
    let r ← match s with
      | .map f => LIter.map h it f
      | .filter q => LIter.filter h it q
      | .rev => Eff.lift (LIter.rev h it)
    match r with
    | none => pure none
    | some (h, it) => chain ss h it

theorem select_le (xs : List α) (bs : List Bool) : (select xs bs).length ≤ xs.length := by
  unfold select
  rw [List.length_map]
  refine Nat.le_trans (List.length_filter_le _ _) ?_
  rw [List.length_zip]
  omega

/-- C156 for the iterators of Vec, HashMap, HashSet, BTreeMap and BTreeSet, from which any number of elements may have been
taken when the chain does not begin with Rev: the chain ends exactly as the list pipeline on the remaining elements, with the
same effects, and its iterator then gives the elements of the pipeline. -/
theorem C156_vec_chain [Inhabited α] (g : Growth) (ss : List (Stage σ α)) (v : Vec α) (p : Nat) (hp : p ≤ v.len)
    (hlen : v.len < 2 ^ 63) (h0 : p = 0 ∨ ss.head? ≠ some .rev) (s : σ) :
    match pipeline ss (v.data.drop p) s with
    | (.ok ys, s') => ∃ it, VecIter.chain g ss ⟨v, p⟩ s = (.ok (some it), s') ∧
        (∀ n, it.nexts n = .ok ((List.range n).map fun i => ys[i]?)) ∧
        (∀ z op, it.fold (σ := σ) z op = foldE op z ys >>= fun r => pure (some r)) ∧
        ∃ c, it.collectToVec g = .ok (some ⟨ys, c⟩)
    | (.error e, s') => VecIter.chain g ss ⟨v, p⟩ s = (.error e, s') := by
  have nexts : ∀ (v : Vec α) (p n : Nat), VecIter.nexts n ⟨v, p⟩ = .ok ((List.range n).map fun i => (v.data.drop p)[i]?) := by
    intro v p n
    induction n generalizing p with
    | zero => rfl
    | succ n ih =>
      simp only [VecIter.nexts, List.range_succ_eq_map, List.map_cons, List.map_map]
      by_cases h : p < v.len
      · simp only [VecIter.next_ok v p h, Go.bind_ok, ih, Opt.some]
        have e0 : (v.data.drop p)[0]? = some (v.data[p]'h) := by
          rw [List.getElem?_drop]
          exact List.getElem?_eq_getElem h
        rw [e0]
        congr 2
        apply List.map_congr_left
        intro i _
        simp only [Function.comp, List.getElem?_drop]
        congr 1
        omega
      · have h' : v.len ≤ p := by omega
        have e0 : v.data.drop p = [] := List.drop_eq_nil_of_le h'
        simp only [VecIter.next_end v p h', Go.bind_ok, ih, e0, Opt.none]
        rfl
  induction ss generalizing v p s with
  | nil =>
    obtain ⟨_, _, h3, h4⟩ := C53_vec_iter_adapters (σ := σ) g v p (fun a => pure a) (fun _ => pure true) default (fun a _ => pure a)
    refine ⟨⟨v, p⟩, rfl, nexts v p, fun z op => ?_, h4⟩
    exact (C53_vec_iter_adapters (σ := σ) g v p (fun a => pure a) (fun _ => pure true) z op).2.2.1
  | cons st ss ih =>
    cases st with
    | map f =>
      obtain ⟨⟨c, e1⟩, _⟩ := C53_vec_iter_adapters g v p f (fun _ => pure true) default (fun a _ => pure a)
      simp only [pipeline, VecIter.chain, e1, Eff.bind_run]
      rcases hm : mapE f (v.data.drop p) s with ⟨e | ys, s'⟩
      · rfl
      · have hl := mapE_length _ _ _ _ _ hm
        have := ih ⟨ys, c ys⟩ 0 (Nat.zero_le _) (by simp [Vec.len] at hlen hl ⊢; omega) (.inl rfl) s'
        exact this
    | filter q =>
      obtain ⟨_, ⟨c, e1⟩, _⟩ := C53_vec_iter_adapters g v p (fun a => pure a) q default (fun a _ => pure a)
      simp only [pipeline, VecIter.chain, e1, Eff.bind_run]
      rcases hm : mapE q (v.data.drop p) s with ⟨e | bs, s'⟩
      · rfl
      · have hl := select_le (v.data.drop p) bs
        have := ih ⟨select (v.data.drop p) bs, c bs⟩ 0 (Nat.zero_le _) (by simp [Vec.len] at hlen hl ⊢; omega) (.inl rfl) s'
        exact this
    | rev =>
      have hp0 : p = 0 := by rcases h0 with h | h; exact h; exact absurd rfl h
      subst hp0
      have e1 := VecIter.rev_eq v 0 hp hlen
      simp only [pipeline, VecIter.chain, e1, Eff.bind_run]
      have := ih ⟨v.data.reverse, v.len⟩ 0 (Nat.zero_le _) (by simpa [Vec.len] using hlen) (.inl rfl) s
      exact this

/-- C156 for the iterators of a VecDeque, and chains without Rev (Rev of a VecDeque iterator never returns, C61). -/
theorem C156_deque_chain [Inhabited α] (g : Growth) (k : Nat) (ss : List (Stage σ α)) (hss : .rev ∉ ss) (d : VecDeque α)
    (hd : d.Inv) (s : σ) :
    match pipeline ss d.toList s with
    | (.ok ys, s') => ∃ it, DequeIter.chain k ss d.intoIter s = (.ok (some it), s') ∧
        (∀ n, it.nexts n = .ok ((List.range n).map fun i => ys[i]?)) ∧
        (∀ z op, it.fold (σ := σ) z op = foldE op z ys) ∧ ∃ c, it.collectToVec g = .ok ⟨ys, c⟩
    | (.error e, s') => DequeIter.chain k ss d.intoIter s = (.error e, s') := by
  induction ss generalizing d s with
  | nil =>
    refine ⟨d.intoIter, rfl, C61_deque_iter_next d hd, fun z op => ?_, ?_⟩
    · exact (DequeIter.adapters_eq (σ := σ) d hd 0 (fun a => pure a) (fun _ => pure true) z op g).2.2.1
    · exact (DequeIter.adapters_eq (σ := σ) d hd 0 (fun a => pure a) (fun _ => pure true) default (fun a _ => pure a) g).2.2.2
  | cons st ss ih =>
    have hss' : .rev ∉ ss := fun h => hss (List.mem_cons_of_mem _ h)
    cases st with
    | map f =>
      obtain ⟨⟨D, e1, e2⟩, _⟩ := DequeIter.adapters_eq d hd 0 f (fun _ => pure true) default (fun a _ => pure a) g
      have e1' : d.intoIter.map f = (mapE f d.toList >>= fun ys => pure (D ys).intoIter) := e1
      simp only [pipeline, DequeIter.chain, e1', Eff.bind_run]
      rcases hm : mapE f d.toList s with ⟨e | ys, s'⟩
      · rfl
      · obtain ⟨i1, i2⟩ := e2 ys (mapE_length _ _ _ _ _ hm)
        have := ih hss' (D ys) i1 s'
        rw [i2] at this
        exact this
    | filter q =>
      obtain ⟨_, ⟨D, e1, e2⟩, _⟩ := DequeIter.adapters_eq d hd 0 (fun a => pure a) q default (fun a _ => pure a) g
      have e1' : d.intoIter.filter q = (mapE q d.toList >>= fun bs => pure (D (select d.toList bs)).intoIter) := e1
      simp only [pipeline, DequeIter.chain, e1', Eff.bind_run]
      rcases hm : mapE q d.toList s with ⟨e | bs, s'⟩
      · rfl
      · obtain ⟨i1, i2⟩ := e2 (select d.toList bs) (select_le _ _)
        have := ih hss' _ i1 s'
        rw [i2] at this
        exact this
    | rev => exact absurd (List.mem_cons_self ..) hss

theorem LIter.pushAll_grows (vs : List α) (h : LHeap α) (l : LList) (ids : List Nat) (xs : List α) (r : Rep h l ids xs)
    (hs : h.length + vs.length < 2 ^ 64) {h' : LHeap α} {l' : LList} (e : pushAll h l vs = .ok (h', l')) :
    h'.length = h.length + vs.length := by
  induction vs generalizing h l ids xs with
  | nil => cases e; rfl
  | cons v vs ih =>
    simp only [List.length_cons] at hs
    obtain ⟨h1, l1, e1, e2, e3, e4⟩ := LList.pushBack_eq r (by have := r.length_le; omega) v
    simp only [pushAll, e1, Go.bind_ok] at e
    have := ih h1 l1 _ _ e2 (by omega) e
    simp only [List.length_cons]
    omega

theorem LIter.drainPush_grows (c : α → Eff σ (Option α)) (h : LHeap α) (it : Option Nat) (xs : List α)
    (r : Reads h it xs) (hs : h.length + xs.length < 2 ^ 64) {s s' : σ} {os : List (Option α)} (hm : mapE c xs s = (.ok os, s'))
    {h' : LHeap α} {l' : LList} (e : LIter.drainPush c (rounds h) h it LList.new s = (.ok (some (h', l')), s')) :
    h'.length ≤ h.length + xs.length := by
  have hle := r.length_le
  obtain ⟨js, h1, h2, h3⟩ := r
  rw [drainPush_eq c (rounds h) h it js xs h1 h2 h3 LList.new [] [] (LList.rep_new h) (by simp)
    (by unfold rounds; omega) hs, Eff.bind_run, hm] at e
  have hlen := mapE_length c xs s s' os hm
  have hfl : (os.filterMap id).length ≤ os.length := List.length_filterMap_le _ _
  simp only [Eff.bind_run, Eff.lift_run] at e
  cases hp : pushAll h LList.new (os.filterMap id) with
  | error x => rw [hp] at e; cases e
  | ok y =>
    rw [hp] at e
    cases e
    have := pushAll_grows _ h LList.new [] [] (LList.rep_new h) (by omega) hp
    omega

theorem LIter.drainPush_run_grows (c : α → Eff σ (Option α)) (h : LHeap α) (it : Option Nat) (xs : List α)
    (r : Reads h it xs) (hs : h.length + xs.length < 2 ^ 64) (s : σ) :
    match mapE c xs s with
    | (.ok os, s') => ∃ h' l', LIter.drainPush c (rounds h) h it LList.new s = (.ok (some (h', l')), s') ∧
        Rep h' l' (List.range' h.length (os.filterMap id).length) (os.filterMap id) ∧ Extends h h' ∧
        h'.length ≤ h.length + xs.length
    | (.error e, s') => LIter.drainPush c (rounds h) h it LList.new s = (.error e, s') := by
  have key := LIter.drainPush_run c h it xs r hs s
  rcases hm : mapE c xs s with ⟨e | os, s'⟩ <;> rw [hm] at key
  · exact key
  · obtain ⟨h', l', e1, e2, e3⟩ := key
    exact ⟨h', l', e1, e2, e3, LIter.drainPush_grows c h it xs r hs hm e1⟩

theorem Extends.trans {h h1 h2 : LHeap α} (a : Extends h h1) (b : Extends h1 h2) : Extends h h2 := by
  intro i hi
  have e := a i hi
  have hi1 : i < h1.length := by
    rw [List.getElem?_eq_getElem hi] at e
    exact (List.getElem?_eq_some_iff.1 e).1
  rw [b i hi1, e]

/-- C156 for the iterators of a LinkedList from which any number of elements have been taken, and chains without Rev (Rev of a
LinkedList iterator does not reverse, C65).  The nodes that existed stay as they are. -/
theorem C156_list_chain (g : Growth) (ss : List (Stage σ α)) (hss : .rev ∉ ss) (h : LHeap α) (it : Option Nat) (xs : List α)
    (r : LIter.Reads h it xs) (hs : h.length + ss.length * xs.length < 2 ^ 64) (s : σ) :
    match pipeline ss xs s with
    | (.ok ys, s') => ∃ h' it', LIter.chain ss h it s = (.ok (some (h', it')), s') ∧ Extends h h' ∧
        (∀ n, LIter.nexts h' n it' = .ok ((List.range n).map fun i => ys[i]?)) ∧
        (∀ z op, LIter.fold (σ := σ) h' it' z op = foldE op z ys >>= fun b => pure (some b)) ∧
        ∃ v, LIter.collectToVec g h' it' = .ok (some v) ∧ v.data = ys
    | (.error e, s') => LIter.chain ss h it s = (.error e, s') := by
  induction ss generalizing h it xs s with
  | nil =>
    exact ⟨h, it, rfl, fun _ _ => rfl, C65_list_iter_nexts h it xs r, fun z op => C65_list_fold h it xs r z op,
      C65_list_collect_vec g h it xs r⟩
  | cons st ss ih =>
    have hss' : .rev ∉ ss := fun h => hss (List.mem_cons_of_mem _ h)
    have hmul : (ss.length + 1) * xs.length = ss.length * xs.length + xs.length := Nat.succ_mul _ _
    rw [List.length_cons, hmul] at hs
    have hs1 : h.length + xs.length < 2 ^ 64 := by omega
    have glue : ∀ (h1 : LHeap α) (it1 : Option Nat) (ys : List α) (s1 : σ), Extends h h1 →
        h1.length ≤ h.length + xs.length → ys.length ≤ xs.length → LIter.Reads h1 it1 ys →
        match pipeline ss ys s1 with
        | (.ok zs, s') => ∃ h' it', LIter.chain ss h1 it1 s1 = (.ok (some (h', it')), s') ∧ Extends h h' ∧
            (∀ n, LIter.nexts h' n it' = .ok ((List.range n).map fun i => zs[i]?)) ∧
            (∀ z op, LIter.fold (σ := σ) h' it' z op = foldE op z zs >>= fun b => pure (some b)) ∧
            ∃ v, LIter.collectToVec g h' it' = .ok (some v) ∧ v.data = zs
        | (.error e, s') => LIter.chain ss h1 it1 s1 = (.error e, s') := by
      intro h1 it1 ys s1 he hl hy hr
      have hm := Nat.mul_le_mul_left ss.length hy
      have := ih hss' h1 it1 ys hr (by omega) s1
      rcases hp : pipeline ss ys s1 with ⟨e | zs, s'⟩ <;> rw [hp] at this
      · exact this
      · obtain ⟨h', it', a1, a2, a3⟩ := this
        exact ⟨h', it', a1, he.trans a2, a3⟩
    cases st with
    | map f =>
      have key := LIter.drainPush_run_grows (fun v => do let y ← f v; pure (some y)) h it xs r hs1 s
      simp only [mapE_some, Eff.bind_run] at key
      simp only [pipeline, LIter.chain, LIter.map, Eff.bind_run]
      rcases hm : mapE f xs s with ⟨e | ys, s'⟩ <;> rw [hm] at key
      · simp only at key
        rw [key]
      · simp only [Eff.pure_run, filterMap_some] at key
        obtain ⟨h', l', e1, e2, e3, e4⟩ := key
        rw [e1]
        exact glue h' l'.intoIter ys s' e3 e4 (Nat.le_of_eq (mapE_length _ _ _ _ _ hm)) e2.reads
    | filter q =>
      have key := LIter.drainPush_run_grows (fun v => do let b ← q v; pure (if b then some v else none)) h it xs r hs1 s
      simp only [mapE_keep, Eff.bind_run] at key
      simp only [pipeline, LIter.chain, LIter.filter, Eff.bind_run]
      rcases hm : mapE q xs s with ⟨e | bs, s'⟩ <;> rw [hm] at key
      · simp only at key
        rw [key]
      · simp only [Eff.pure_run, filterMap_keep] at key
        obtain ⟨h', l', e1, e2, e3, e4⟩ := key
        rw [e1]
        exact glue h' l'.intoIter _ s' e3 e4 (select_le xs bs) e2.reads
    | rev => exact absurd (List.mem_cons_self ..) hss

/-- C156 for functions without effects: a chain is the composition of the list functions of its adapters, so for instance two
Maps in a row are the Map of the composition, and a Rev may be moved across a Map or a Filter. -/
theorem C156_pure_chain (ps : List (PureStage α)) (xs : List α) (s : σ) :
    pipeline (ps.map PureStage.toStage) xs s = (.ok (ps.foldl (fun l p => p.on l) xs), s) := by
  induction ps generalizing xs with
  | nil => rfl
  | cons p ps ih =>
    cases p with
    | map f => simp only [List.map_cons, PureStage.toStage, pipeline, mapE_pure, Eff.pure_bind, ih]; rfl
    | filter q => simp only [List.map_cons, PureStage.toStage, pipeline, mapE_pure, Eff.pure_bind, select_map, ih]; rfl
    | rev => simp only [List.map_cons, PureStage.toStage, pipeline, ih]; rfl

/-- C156 for the keys of a HashMap, whatever order `ord` its range loop takes. -/
theorem C156_hash_keys_chain {κ ν : Type} [Inhabited κ] (g : Growth) (ord : List (κ × ν)) (hlen : ord.length < 2 ^ 63)
    (ss : List (Stage σ κ)) (s : σ) :
    match pipeline ss (ord.map (·.1)) s with
    | (.ok ys, s') => ∃ it, VecIter.chain g ss (HMap.keys g ord) s = (.ok (some it), s') ∧
        (∀ n, it.nexts n = .ok ((List.range n).map fun i => ys[i]?)) ∧
        (∀ z op, it.fold (σ := σ) z op = foldE op z ys >>= fun r => pure (some r)) ∧
        ∃ c, it.collectToVec g = .ok (some ⟨ys, c⟩)
    | (.error e, s') => VecIter.chain g ss (HMap.keys g ord) s = (.error e, s') := by
  have hd : (HMap.keys g ord).vec.data = ord.map (·.1) := by
    have := pushAll_data g (fun e : κ × ν => e.1) ord Vec.new
    rw [HMap.keys]; simpa [Vec.new] using this
  have := C156_vec_chain g ss (HMap.keys g ord).vec 0 (Nat.zero_le _) (by simpa [Vec.len, hd] using hlen) (.inl rfl) s
  rw [hd, List.drop_zero] at this
  exact this

/-- A chain of a Map that logs, a Filter that logs, and Rev: the calls of the Map come first. -/
example : (VecIter.chain doubling [.map fun a => fun log => (.ok (a + 1), log ++ [a]),
      .filter fun a => fun log => (.ok (a % 2 == 0), log ++ [100 + a]), .rev] (Vec.intoIter ⟨[1, 2, 3], 3⟩) ([] : List Nat)).2 =
      [1, 2, 3, 102, 103, 104] ∧
    (pipeline [.map fun a => fun log => (.ok (a + 1), log ++ [a]),
      .filter fun a => fun log => (.ok (a % 2 == 0), log ++ [100 + a]), .rev] [1, 2, 3] ([] : List Nat)).1.toOption =
      some [4, 2] := by decide
/-- A stage that panics ends the chain. -/
example : VecIter.chain doubling [.map fun a => fun log => (if a = 2 then .error .explicit else .ok a, log ++ [a]), .rev]
    (Vec.intoIter ⟨[1, 2, 3], 3⟩) ([] : List Nat) = (.error .explicit, [1, 2]) := by decide
example : ([.map (· + 1), .filter (· % 2 == 0), .rev] : List (PureStage Nat)).foldl (fun l p => p.on l) [1, 2, 3] = [4, 2] := by
  decide
example : exDeque.Inv ∧ (DequeIter.chain (σ := Unit) 0 [.map fun a => pure (a * 2), .filter fun a => pure (a != 4)] exDeque.intoIter ()).1.toOption.bind
    (fun it => it.bind fun it => (it.collectToVec doubling).toOption.map (·.data)) = some [2, 6] :=
  ⟨⟨by decide, by decide, by decide, by decide⟩, by decide⟩
example : LIter.Reads ([⟨5, some 1, none⟩, ⟨7, none, some 0⟩] : LHeap Nat) (some 0) [5, 7] :=
  ⟨[0, 1], ⟨⟨none, rfl⟩, ⟨some 0, rfl⟩, trivial⟩, by decide, rfl⟩
end Gost
