import Verif.Props.LinkedList
/-
Properties C64 and C65: appending, iterating, copying and comparing linked lists.
-/
set_option linter.unusedSectionVars false
namespace Gost
open Spec

variable {σ α : Type}

/-! ### C64 -/

/-- C64: in every program state, `a.Append(&b)` leaves `a` with its elements followed by those of `b`, and
`b` empty; every later history (`ops`) on `a`, on `b` and on all other lists gives the results of
independent lists. -/
theorem C64_append (s : LProg α) (xss : List (List α)) (hs : s.Holds xss) (a b : Nat) (hab : a ≠ b)
    (xs ys : List α) (ha : xss[a]? = some xs) (hb : xss[b]? = some ys) (ops : List (LOp α))
    (hsmall : s.heap.length + (ops.length + 1) < 2 ^ 64) :
    ∃ s', LProg.step (.append a b) s = .ok (s', .unit) ∧
      s'.Holds ((xss.set a (xs ++ ys)).set b []) ∧
      ∀ rs xss', Spec.runOps Spec.listStep ops ((xss.set a (xs ++ ys)).set b []) = (rs, some xss') →
        ∃ s'', Spec.runOps (fun o s => Go.toOption (LProg.step o s)) ops s' = (rs, some s'') ∧ s''.Holds xss' := by
  obtain ⟨s', e1, e2, e3⟩ := LProg.step_refines (.append a b) s xss hs (by omega)
    ((xss.set a (xs ++ ys)).set b []) .unit (by simp [Spec.listStep, hab, ha, hb])
  exact ⟨s', e1, e2, fun rs xss' hr => C63_list_history ops s' _ e2 (by omega) rs xss' hr⟩

/-! ### C65: iteration -/

/-- `ids` are the addresses of nodes holding `xs`, each pointing forward to the next, the last to nil. -/
def Fwd (h : LHeap α) : List Nat → List α → Prop
  | [], [] => True
  | i :: is, x :: xs => (∃ prev, h[i]? = some ⟨x, is.head?, prev⟩) ∧ Fwd h is xs
  | _, _ => False

theorem Fwd.length {h : LHeap α} {ids : List Nat} {xs : List α} (s : Fwd h ids xs) : ids.length = xs.length := by
  induction ids generalizing xs with
  | nil => cases xs <;> simp_all [Fwd]
  | cons i is ih =>
    cases xs with
    | nil => simp [Fwd] at s
    | cons x xs => simp [ih s.2]

theorem Fwd.lt {h : LHeap α} {ids : List Nat} {xs : List α} (s : Fwd h ids xs) : ∀ i ∈ ids, i < h.length := by
  induction ids generalizing xs with
  | nil => simp
  | cons i is ih =>
    cases xs with
    | nil => simp [Fwd] at s
    | cons x xs =>
      intro j hj
      rcases List.mem_cons.1 hj with rfl | hj
      · obtain ⟨p, hp⟩ := s.1
        exact (List.getElem?_eq_some_iff.1 hp).1
      · exact ih s.2 j hj

theorem Fwd.frame {h h' : LHeap α} {ids : List Nat} {xs : List α} (s : Fwd h ids xs)
    (hf : ∀ i ∈ ids, h'[i]? = h[i]?) : Fwd h' ids xs := by
  induction ids generalizing xs with
  | nil => cases xs <;> simp_all [Fwd]
  | cons i is ih =>
    cases xs with
    | nil => simp [Fwd] at s
    | cons x xs =>
      refine ⟨?_, ih s.2 fun j hj => hf j (List.mem_cons_of_mem _ hj)⟩
      rw [hf i (by simp)]
      exact s.1

theorem Seg.fwd {h : LHeap α} {p : Option Nat} {ids : List Nat} {xs : List α} (s : Seg h p none ids xs) :
    Fwd h ids xs := by
  induction ids generalizing p xs with
  | nil => cases xs <;> simp_all [Seg, Fwd]
  | cons i is ih =>
    cases xs with
    | nil => simp [Seg] at s
    | cons x xs => exact ⟨⟨p, by rw [s.1]; simp⟩, ih s.2⟩

theorem Fwd.setPrev {h h' : LHeap α} {ids : List Nat} {xs : List α} (s : Fwd h ids xs) (p q : Option Nat)
    (hp : h.setPrev p q = .ok h') : Fwd h' ids xs := by
  cases p with
  | none => simp [LHeap.setPrev, deref] at hp
  | some i =>
    by_cases hi : i < h.length
    · simp only [LHeap.setPrev, deref, index_lt hi, Go.bind_ok, Except.ok.injEq] at hp
      subst hp
      induction ids generalizing xs with
      | nil => cases xs <;> simp_all [Fwd]
      | cons j is ih =>
        cases xs with
        | nil => simp [Fwd] at s
        | cons x xs =>
          refine ⟨?_, ih s.2⟩
          obtain ⟨p, hp⟩ := s.1
          by_cases e : i = j
          · subst e
            refine ⟨q, ?_⟩
            have := (List.getElem?_eq_some_iff.1 hp).2
            rw [List.getElem?_set_self hi, this]
          · exact ⟨p, by rw [List.getElem?_set_ne e]; exact hp⟩
    · simp only [LHeap.setPrev, deref, Go.bind_ok, index, List.getElem?_eq_none (Nat.le_of_not_lt hi)] at hp
      simp at hp

/-- The iterator `it` will give exactly `xs`: it is at a chain of nodes holding `xs`. -/
def LIter.Reads (h : LHeap α) (it : Option Nat) (xs : List α) : Prop :=
  ∃ ids, Fwd h ids xs ∧ ids.Nodup ∧ it = ids.head?

/-- Later allocation does not change old nodes. -/
def Extends (h h' : LHeap α) : Prop := ∀ i, i < h.length → h'[i]? = h[i]?

theorem LIter.Reads.extends {h h' : LHeap α} {it : Option Nat} {xs : List α} (r : Reads h it xs)
    (he : Extends h h') : Reads h' it xs := by
  obtain ⟨ids, h1, h2, h3⟩ := r
  exact ⟨ids, h1.frame fun i hi => he i (h1.lt i hi), h2, h3⟩

theorem LIter.Reads.length_le {h : LHeap α} {it : Option Nat} {xs : List α} (r : Reads h it xs) :
    xs.length ≤ h.length := by
  obtain ⟨ids, h1, h2, h3⟩ := r
  rw [← h1.length]
  exact nodup_bounded _ _ h2 h1.lt

/-- C65: IntoIter of a list in a program starts at all its elements. -/
theorem C65_list_iter_start (s : LProg α) (xss : List (List α)) (hs : s.Holds xss) (k : Nat) (l : LList)
    (xs : List α) (hl : s.vars[k]? = some l) (hx : xss[k]? = some xs) :
    LIter.Reads s.heap l.intoIter xs := by
  obtain ⟨_, ids, hr, _⟩ := hs
  have r := hr k l xs hl hx
  exact ⟨ids k, r.seg.fwd, r.nodup, r.head⟩

/-- C65: Next gives the first remaining element and leaves the others; None at the end. -/
theorem C65_list_iter_next (h : LHeap α) (it : Option Nat) (xs : List α) (r : LIter.Reads h it xs) :
    ∃ it', LIter.next h it = .ok (it', ⟨xs.head?⟩) ∧ LIter.Reads h it' xs.tail := by
  obtain ⟨ids, h1, h2, h3⟩ := r
  cases ids with
  | nil =>
    have hx : xs = [] := by have := h1.length; cases xs <;> simp_all
    subst hx
    subst h3
    exact ⟨none, rfl, [], h1, h2, rfl⟩
  | cons i is =>
    cases xs with
    | nil => simp [Fwd] at h1
    | cons x xs =>
      subst h3
      refine ⟨is.head?, ?_, is, h1.2, (List.nodup_cons.1 h2).2, rfl⟩
      obtain ⟨p, hp⟩ := h1.1
      have hi : i < h.length := (List.getElem?_eq_some_iff.1 hp).1
      have hv : h[i] = ⟨x, is.head?, p⟩ := (List.getElem?_eq_some_iff.1 hp).2
      simp [LIter.next, LHeap.load, deref, index_lt hi, hv, Opt.some]

/-- Call Next `n` times and collect the results. -/
def LIter.nexts (h : LHeap α) : Nat → Option Nat → Go (List (Option α))
  | 0, _ => .ok []
  | n + 1, it => do
    let (it, r) ← LIter.next h it
    let rs ← nexts h n it
    .ok (r.value :: rs)

/-- C65: calling Next again and again gives the elements in order, then None for ever. -/
theorem C65_list_iter_nexts (h : LHeap α) (it : Option Nat) (xs : List α) (r : LIter.Reads h it xs) (n : Nat) :
    LIter.nexts h n it = .ok ((List.range n).map fun i => xs[i]?) := by
  induction n generalizing it xs with
  | zero => rfl
  | succ n ih =>
    obtain ⟨it', e1, e2⟩ := C65_list_iter_next h it xs r
    simp only [LIter.nexts, e1, Go.bind_ok, ih it' xs.tail e2, List.range_succ_eq_map, List.map_cons,
      List.map_map]
    congr 2
    · cases xs <;> rfl
    · apply List.map_congr_left
      intro i _
      cases xs <;> simp

theorem LIter.drain_eq {β : Type} (h : LHeap α) (step : β → α → Eff σ β) (fuel : Nat) (it : Option Nat)
    (xs : List α) (r : Reads h it xs) (hf : xs.length < fuel) (acc : β) :
    LIter.drain h step fuel it acc = foldE step acc xs >>= fun b => pure (some b) := by
  induction fuel generalizing it xs acc with
  | zero => omega
  | succ fuel ih =>
    obtain ⟨it', e1, e2⟩ := C65_list_iter_next h it xs r
    simp only [LIter.drain, e1, Eff.lift_ok, Eff.pure_bind]
    cases xs with
    | nil => simp [Opt.isNone, foldE]
    | cons x xs =>
      simp only [List.head?_cons, Opt.isNone, Opt.unwrap, deref, Bool.false_eq_true, if_false,
        Eff.lift_ok, Eff.pure_bind, foldE, LawfulMonad.bind_assoc]
      congr 1
      funext acc'
      exact ih it' xs e2 (by simpa using hf) acc'

/-- Specification of a list built by pushing values. -/
def pushAll : LHeap α → LList → List α → Go (LHeap α × LList)
  | h, l, [] => .ok (h, l)
  | h, l, v :: vs => do
    let (h, l) ← l.pushBack h v
    pushAll h l vs

theorem pushAll_eq (vs : List α) (h : LHeap α) (l : LList) (ids : List Nat) (xs : List α) (r : Rep h l ids xs)
    (hs : h.length + vs.length < 2 ^ 64) :
    ∃ h' l', pushAll h l vs = .ok (h', l') ∧ Rep h' l' (ids ++ List.range' h.length vs.length) (xs ++ vs) ∧
      ∀ i, i < h.length → i ∉ ids → h'[i]? = h[i]? := by
  induction vs generalizing h l ids xs with
  | nil => exact ⟨h, l, rfl, by simpa using r, fun _ _ _ => rfl⟩
  | cons v vs ih =>
    simp only [List.length_cons] at hs
    obtain ⟨h1, l1, e1, e2, e3, e4⟩ := LList.pushBack_eq r (by have := r.length_le; omega) v
    obtain ⟨h2, l2, f1, f2, f3⟩ := ih h1 l1 _ _ e2 (by omega)
    refine ⟨h2, l2, by simp only [pushAll, e1, Go.bind_ok, f1], ?_, ?_⟩
    · rw [e3] at f2
      simpa [List.range'_succ] using f2
    · intro i hi hn
      rw [f3 i (by omega) (by simp [hn]; omega), e4 i hi hn]

theorem LIter.drainPush_eq (c : α → Eff σ (Option α)) (fuel : Nat) (h : LHeap α) (it : Option Nat)
    (js : List Nat) (xs : List α) (sg : Fwd h js xs) (hn : js.Nodup) (hit : it = js.head?)
    (l : LList) (ids : List Nat) (ys : List α) (r : Rep h l ids ys) (hdis : ∀ i ∈ js, i ∉ ids)
    (hf : xs.length < fuel) (hs : h.length + xs.length < 2 ^ 64) :
    LIter.drainPush c fuel h it l =
      mapE c xs >>= fun os => Eff.lift (pushAll h l (os.filterMap id)) >>= fun r => pure (some r) := by
  induction fuel generalizing h it js xs l ids ys with
  | zero => omega
  | succ fuel ih =>
    obtain ⟨it', e1, e2⟩ := C65_list_iter_next h it xs ⟨js, sg, hn, hit⟩
    simp only [LIter.drainPush, e1, Eff.lift_ok, Eff.pure_bind]
    cases xs with
    | nil => simp [Opt.isNone, mapE, pushAll]
    | cons x xs =>
      simp only [List.head?_cons, Opt.isNone, Opt.unwrap, deref, Bool.false_eq_true, if_false,
        Eff.lift_ok, Eff.pure_bind, mapE, LawfulMonad.bind_assoc]
      congr 1
      funext y
      cases js with
      | nil => simp [Fwd] at sg
      | cons j js =>
        have hit' : it' = js.head? := by
          subst hit
          obtain ⟨p, hp⟩ := sg.1
          have hi : j < h.length := (List.getElem?_eq_some_iff.1 hp).1
          have hv : h[j] = ⟨x, js.head?, p⟩ := (List.getElem?_eq_some_iff.1 hp).2
          simp [LIter.next, LHeap.load, deref, index_lt hi, hv, Opt.some] at e1
          exact e1.symm
        have hnj := List.nodup_cons.1 hn
        simp only [List.length_cons] at hf hs
        cases y with
        | none =>
          simp only [List.filterMap_cons, id]
          exact ih h it' js xs sg.2 hnj.2 hit' l ids ys r
            (fun i hi => hdis i (List.mem_cons_of_mem _ hi)) (by omega) (by omega)
        | some y =>
          obtain ⟨h1, l1, f1, f2, f3, f4⟩ := LList.pushBack_eq r (by have := r.length_le; omega) y
          simp only [f1, Eff.lift_ok, Eff.pure_bind, List.filterMap_cons, id, pushAll, Go.bind_ok]
          have hjlt := sg.2.lt
          refine ih h1 it' js xs (sg.2.frame fun i hi => f4 i (hjlt i hi)
            (hdis i (List.mem_cons_of_mem _ hi))) hnj.2 hit' l1 _ _ f2 ?_ (by omega) (by omega)
          intro i hi
          have := hjlt i hi
          have := hdis i (List.mem_cons_of_mem _ hi)
          simp [this]; omega

theorem mapE_length {β : Type} (f : α → Eff σ β) (xs : List α) (s s' : σ) (ys : List β)
    (h : mapE f xs s = (.ok ys, s')) : ys.length = xs.length := by
  induction xs generalizing s ys with
  | nil => simp [mapE] at h; simp [← h.1]
  | cons x xs ih =>
    simp only [mapE, Eff.bind_run] at h
    cases hf : f x s with
    | mk r s1 =>
      rw [hf] at h
      cases r with
      | error e => simp at h
      | ok y =>
        simp only at h
        cases hm : mapE f xs s1 with
        | mk r2 s2 =>
          rw [hm] at h
          cases r2 with
          | error e => simp at h
          | ok ys' =>
            simp only [Eff.pure_run, Prod.mk.injEq, Except.ok.injEq] at h
            obtain ⟨rfl, rfl⟩ := h
            simp [ih s1 ys' hm]

theorem mapE_some (f : α → Eff σ α) (xs : List α) :
    mapE (fun v => do let y ← f v; pure (some y)) xs = mapE f xs >>= fun ys => pure (ys.map some) := by
  induction xs with
  | nil => rfl
  | cons x xs ih =>
    simp only [mapE, ih, LawfulMonad.bind_assoc, Eff.pure_bind, List.map_cons]

theorem mapE_keep (q : α → Eff σ Bool) (xs : List α) :
    mapE (fun v => do let b ← q v; pure (if b then some v else none)) xs =
      mapE q xs >>= fun bs => pure ((xs.zip bs).map fun p => if p.2 then some p.1 else none) := by
  induction xs with
  | nil => rfl
  | cons x xs ih =>
    simp only [mapE, ih, LawfulMonad.bind_assoc, Eff.pure_bind, List.zip_cons_cons, List.map_cons]

theorem filterMap_some (ys : List α) : (ys.map some).filterMap id = ys := by
  induction ys with
  | nil => rfl
  | cons y ys ih => simp

theorem filterMap_keep (xs : List α) (bs : List Bool) :
    ((xs.zip bs).map fun p => if p.2 then some p.1 else none).filterMap id = select xs bs := by
  induction xs generalizing bs with
  | nil => rfl
  | cons x xs ih =>
    cases bs with
    | nil => rfl
    | cons b bs =>
      simp only [List.zip_cons_cons, List.map_cons, List.filterMap_cons, select_cons, ih]
      cases b <;> simp

/-- What the loops that build a new list do. -/
theorem LIter.drainPush_run (c : α → Eff σ (Option α)) (h : LHeap α) (it : Option Nat) (xs : List α)
    (r : Reads h it xs) (hs : h.length + xs.length < 2 ^ 64) (s : σ) :
    match mapE c xs s with
    | (.ok os, s') => ∃ h' l', LIter.drainPush c (rounds h) h it LList.new s = (.ok (some (h', l')), s') ∧
        Rep h' l' (List.range' h.length (os.filterMap id).length) (os.filterMap id) ∧ Extends h h'
    | (.error e, s') => LIter.drainPush c (rounds h) h it LList.new s = (.error e, s') := by
  have hle := r.length_le
  obtain ⟨js, h1, h2, h3⟩ := r
  rw [drainPush_eq c (rounds h) h it js xs h1 h2 h3 LList.new [] [] (LList.rep_new h) (by simp)
    (by unfold rounds; omega) hs]
  cases hm : mapE c xs s with
  | mk o s' =>
    cases o with
    | error e => simp [Eff.bind_run, hm]
    | ok os =>
      have hlen := mapE_length c xs s s' os hm
      have hfl : (os.filterMap id).length ≤ os.length := List.length_filterMap_le _ _
      obtain ⟨h', l', e1, e2, e3⟩ := pushAll_eq (os.filterMap id) h LList.new [] [] (LList.rep_new h) (by omega)
      refine ⟨h', l', ?_, by simpa using e2, fun i hi => e3 i hi (by simp)⟩
      simp only [Eff.bind_run, hm, e1, Eff.lift_run, Eff.pure_run]

theorem Rep.reads {h : LHeap α} {l : LList} {ids : List Nat} {xs : List α} (r : Rep h l ids xs) :
    LIter.Reads h l.intoIter xs := ⟨ids, r.seg.fwd, r.nodup, r.head⟩

/-- C65: Map on an iterator at any position: the callback runs once on each remaining element in order; the
result iterates over its results (a panic of the callback is passed on); no list of the program changes. -/
theorem C65_list_map (h : LHeap α) (it : Option Nat) (xs : List α) (r : LIter.Reads h it xs)
    (hs : h.length + xs.length < 2 ^ 64) (f : α → Eff σ α) (s : σ) :
    match mapE f xs s with
    | (.ok ys, s') => ∃ h' it', LIter.map h it f s = (.ok (some (h', it')), s') ∧ LIter.Reads h' it' ys ∧
        Extends h h'
    | (.error e, s') => LIter.map h it f s = (.error e, s') := by
  have key := LIter.drainPush_run (fun v => do let y ← f v; pure (some y)) h it xs r hs s
  simp only [mapE_some, Eff.bind_run] at key
  unfold LIter.map
  simp only [Eff.bind_run]
  cases hm : mapE f xs s with
  | mk o s' =>
    rw [hm] at key
    cases o with
    | error e =>
      simp only at key ⊢
      rw [key]
    | ok ys =>
      simp only [Eff.pure_run, filterMap_some] at key ⊢
      obtain ⟨h', l', e1, e2, e3⟩ := key
      exact ⟨h', l'.intoIter, by rw [e1]; rfl, e2.reads, e3⟩

/-- C65: Filter on an iterator at any position: the predicate runs once on each remaining element in order;
the result iterates over the selected ones. -/
theorem C65_list_filter (h : LHeap α) (it : Option Nat) (xs : List α) (r : LIter.Reads h it xs)
    (hs : h.length + xs.length < 2 ^ 64) (q : α → Eff σ Bool) (s : σ) :
    match mapE q xs s with
    | (.ok bs, s') => ∃ h' it', LIter.filter h it q s = (.ok (some (h', it')), s') ∧
        LIter.Reads h' it' (select xs bs) ∧ Extends h h'
    | (.error e, s') => LIter.filter h it q s = (.error e, s') := by
  have key := LIter.drainPush_run (fun v => do let b ← q v; pure (if b then some v else none)) h it xs r hs s
  simp only [mapE_keep, Eff.bind_run] at key
  unfold LIter.filter
  simp only [Eff.bind_run]
  cases hm : mapE q xs s with
  | mk o s' =>
    rw [hm] at key
    cases o with
    | error e =>
      simp only at key ⊢
      rw [key]
    | ok bs =>
      simp only [Eff.pure_run, filterMap_keep] at key ⊢
      obtain ⟨h', l', e1, e2, e3⟩ := key
      exact ⟨h', l'.intoIter, by rw [e1]; rfl, e2.reads, e3⟩

/-- C65: Fold runs once on each remaining element, in order. -/
theorem C65_list_fold (h : LHeap α) (it : Option Nat) (xs : List α) (r : LIter.Reads h it xs)
    (z : α) (op : α → α → Eff σ α) :
    LIter.fold h it z op = foldE op z xs >>= fun b => pure (some b) :=
  LIter.drain_eq h op _ it xs r (by have := r.length_le; unfold LIter.rounds; omega) z

/-- C65: CollectToVec gives the remaining elements, in order. -/
theorem C65_list_collect_vec (g : Growth) (h : LHeap α) (it : Option Nat) (xs : List α)
    (r : LIter.Reads h it xs) : ∃ v, LIter.collectToVec g h it = .ok (some v) ∧ v.data = xs := by
  unfold LIter.collectToVec
  rw [LIter.drain_eq h _ _ it xs r (by have := r.length_le; unfold LIter.rounds; omega)]
  have hf : ∀ (xs : List α) (v : Vec α), (xs.foldl (fun v x => v.push g x) v).data = v.data ++ xs := by
    intro xs
    induction xs with
    | nil => simp
    | cons x xs ih =>
      intro v
      rw [List.foldl_cons, ih]
      simp [Vec.push, Vec.goAppend]
  rw [foldE_pure (fun (v : Vec α) x => v.push g x)]
  refine ⟨xs.foldl (fun v x => v.push g x) ⟨[], 0⟩, rfl, by simp [hf]⟩

theorem mapE_pure_some (xs : List α) : mapE (σ := Unit) (fun v : α => pure (some v)) xs () =
    (.ok (xs.map some), ()) := by
  rw [mapE_pure some]; rfl

/-- Adding a list variable made of new nodes. -/
theorem LProg.Holds.add {s : LProg α} {xss : List (List α)} (hs : s.Holds xss) (h' : LHeap α) (l' : LList)
    (n : Nat) (ys : List α) (r' : Rep h' l' (List.range' s.heap.length n) ys) (he : Extends s.heap h') :
    LProg.Holds ⟨h', s.vars ++ [l']⟩ (xss ++ [ys]) := by
  obtain ⟨hl, ids, hr, hd⟩ := hs
  have hlt : ∀ m, m < s.vars.length → ∀ i ∈ ids m, i < s.heap.length := by
    intro m hm i hi
    have hm' : m < xss.length := by omega
    exact (hr m _ _ (List.getElem?_eq_getElem hm) (List.getElem?_eq_getElem hm')).seg.lt i hi
  refine ⟨by simp [hl], fun k => if k = s.vars.length then List.range' s.heap.length n else ids k, ?_, ?_⟩
  · intro k l xs hk hx
    by_cases e : k = s.vars.length
    · subst e
      rw [hl] at hx
      simp at hk hx
      subst hk; subst hx
      simp only [if_pos]
      exact r'
    · have hk' : k < s.vars.length := by
        have := (List.getElem?_eq_some_iff.1 hk).1
        simp at this; omega
      rw [List.getElem?_append_left hk'] at hk
      rw [List.getElem?_append_left (by omega)] at hx
      simp only [if_neg e]
      have r := hr k l xs hk hx
      exact r.frame fun i hi => he i (r.seg.lt i hi)
  · intro a b hab ha hb i hi
    simp only [List.length_append, List.length_singleton] at ha hb
    simp only at hi ⊢
    by_cases ea : a = s.vars.length
    · rw [if_pos ea] at hi
      rw [if_neg (by omega)]
      intro hm
      have := hlt b (by omega) i hm
      have := List.mem_range'_1.1 hi
      omega
    · rw [if_neg ea] at hi
      by_cases eb : b = s.vars.length
      · rw [if_pos eb]
        intro hm
        have := hlt a (by omega) i hi
        have := List.mem_range'_1.1 hm
        omega
      · rw [if_neg eb]
        exact hd a b hab (by omega) (by omega) i hi

/-- C65: CollectToLinkedList gives a new list of the remaining elements, independent of all lists of the
program (in the sense of `C63_list_history`). -/
theorem C65_list_collect_list (s : LProg α) (xss : List (List α)) (hs : s.Holds xss) (it : Option Nat)
    (xs : List α) (r : LIter.Reads s.heap it xs) (hsm : s.heap.length + xs.length < 2 ^ 64) :
    ∃ h' l', LIter.collectToLinkedList s.heap it = .ok (some (h', l')) ∧
      LProg.Holds ⟨h', s.vars ++ [l']⟩ (xss ++ [xs]) := by
  have key := LIter.drainPush_run (σ := Unit) (fun v => pure (some v)) s.heap it xs r hsm ()
  rw [mapE_pure_some] at key
  simp only [filterMap_some] at key
  obtain ⟨h', l', e1, e2, e3⟩ := key
  exact ⟨h', l', by unfold LIter.collectToLinkedList; rw [e1], hs.add h' l' _ _ e2 e3⟩

/-- C65, the Rev part, full property: Rev iterates over the remaining elements backwards.
Proved: Rev never panics and iterates over the remaining elements in the same order; so it is right
exactly when they read the same backwards.  Missing: reversal, see `C65_list_rev_fails`. -/
theorem C65_list_rev_partial (h : LHeap α) (it : Option Nat) (xs : List α) (r : LIter.Reads h it xs)
    (hs : h.length + xs.length < 2 ^ 64) (n : Nat) (hn : xs.length ≤ n) :
    ∃ h' it', LIter.rev h it = .ok (some (h', it')) ∧ Extends h h' ∧
      (LIter.nexts h' n it' = .ok ((List.range n).map fun i => xs.reverse[i]?) ↔ xs = xs.reverse) := by
  have key := LIter.drainPush_run (σ := Unit) (fun v => pure (some v)) h it xs r hs ()
  rw [mapE_pure_some] at key
  simp only [filterMap_some] at key
  obtain ⟨h', l', e1, e2, e3⟩ := key
  refine ⟨h', l'.intoIter, by unfold LIter.rev; rw [e1]; rfl, e3, ?_⟩
  rw [C65_list_iter_nexts h' _ xs e2.reads n]
  constructor
  · intro he
    simp only [Except.ok.injEq] at he
    apply List.ext_getElem?
    intro i
    by_cases hi : i < n
    · have := List.map_inj_left.1 he i (by simpa using hi)
      exact this
    · rw [List.getElem?_eq_none (by omega), List.getElem?_eq_none (by simp; omega)]
  · intro he
    rw [← he]

/-- C65 is violated by Rev on every iterator whose remaining elements are not a palindrome: the first element
that comes out and every other one are those of the unreversed sequence. -/
theorem C65_list_rev_fails (h : LHeap α) (it : Option Nat) (xs : List α) (r : LIter.Reads h it xs)
    (hs : h.length + xs.length < 2 ^ 64) (hne : xs ≠ xs.reverse) :
    ∃ h' it', LIter.rev h it = .ok (some (h', it')) ∧
      LIter.nexts h' xs.length it' = .ok (xs.map some) ∧ xs.map some ≠ xs.reverse.map some := by
  have key := LIter.drainPush_run (σ := Unit) (fun v => pure (some v)) h it xs r hs ()
  rw [mapE_pure_some] at key
  simp only [filterMap_some] at key
  obtain ⟨h', l', e1, e2, e3⟩ := key
  refine ⟨h', l'.intoIter, by unfold LIter.rev; rw [e1]; rfl, ?_, ?_⟩
  · rw [C65_list_iter_nexts h' _ xs e2.reads]
    congr 1
    apply List.ext_getElem?
    intro i
    by_cases hi : i < xs.length
    · simp [hi]
    · simp [hi]
  · intro he
    refine hne ?_
    have := congrArg (List.filterMap id) he
    rwa [filterMap_some, filterMap_some] at this

/-- C65: Clone calls the element's Clone once per element, in order, and gives a new list of the results,
independent of all lists of the program. -/
theorem C65_list_clone (s : LProg α) (xss : List (List α)) (hs : s.Holds xss) (k : Nat) (l : LList)
    (xs : List α) (hl : s.vars[k]? = some l) (hx : xss[k]? = some xs)
    (hsm : s.heap.length + xs.length < 2 ^ 64) (c : α → Eff σ α) (st : σ) :
    match mapE c xs st with
    | (.ok ys, st') => ∃ h' l', l.clone (some c) s.heap st = (.ok (some (h', l')), st') ∧
        LProg.Holds ⟨h', s.vars ++ [l']⟩ (xss ++ [ys])
    | (.error e, st') => l.clone (some c) s.heap st = (.error e, st') := by
  have r := C65_list_iter_start s xss hs k l xs hl hx
  have key := LIter.drainPush_run (fun v => do let y ← c v; pure (some y)) s.heap l.intoIter xs r hsm st
  simp only [mapE_some, Eff.bind_run] at key
  unfold LList.clone
  simp only
  cases hm : mapE c xs st with
  | mk o s' =>
    rw [hm] at key
    cases o with
    | error e => exact key
    | ok ys =>
      simp only [Eff.pure_run, filterMap_some] at key
      obtain ⟨h', l', e1, e2, e3⟩ := key
      exact ⟨h', l', e1, hs.add h' l' _ _ e2 e3⟩

/-- C65: without a Clone method of the elements, Clone of a nonempty list panics; an empty list is cloned. -/
theorem C65_list_clone_no_method (s : LProg α) (xss : List (List α)) (hs : s.Holds xss) (k : Nat) (l : LList)
    (xs : List α) (hl : s.vars[k]? = some l) (hx : xss[k]? = some xs) (st : σ) :
    l.clone none s.heap st =
      (if xs = [] then .ok (some (s.heap, LList.new)) else .error .explicit, st) := by
  have r := C65_list_iter_start s xss hs k l xs hl hx
  obtain ⟨it', e1, e2⟩ := C65_list_iter_next s.heap _ xs r
  unfold LList.clone LIter.drainPush
  simp only [e1, Eff.lift_ok, Eff.pure_bind]
  cases xs with
  | nil => simp [Opt.isNone]
  | cons x xs => simp [Opt.isNone, Opt.unwrap, deref]

theorem LList.eqLoop_eq (e : α → α → Bool) (h : LHeap α) (fuel : Nat) (it1 it2 : Option Nat) (xs ys : List α)
    (r1 : LIter.Reads h it1 xs) (r2 : LIter.Reads h it2 ys) (hl : xs.length = ys.length)
    (hf : xs.length < fuel) :
    LList.eqLoop (some e) h fuel it1 it2 = .ok (some (listEq e xs ys)) := by
  induction fuel generalizing it1 it2 xs ys with
  | zero => omega
  | succ fuel ih =>
    obtain ⟨it1', e1, e2⟩ := C65_list_iter_next h it1 xs r1
    obtain ⟨it2', f1, f2⟩ := C65_list_iter_next h it2 ys r2
    simp only [LList.eqLoop, e1, f1, Go.bind_ok]
    cases xs with
    | nil =>
      cases ys with
      | nil => rfl
      | cons => simp at hl
    | cons x xs =>
      cases ys with
      | nil => simp at hl
      | cons y ys =>
        simp only [List.head?_cons, Opt.isNone, Opt.unwrap, deref, Bool.false_eq_true, if_false, Go.bind_ok,
          listEq]
        cases hxy : e x y with
        | false => simp
        | true => simpa using ih it1' it2' xs ys e2 f2 (by simpa using hl) (by simpa using hf)

/-- C65: Eq of two lists of a program (also of a list with itself) says whether they have the same elements
in the same order, for every equality of the elements. -/
theorem C65_list_eq (s : LProg α) (xss : List (List α)) (hs : s.Holds xss) (i j : Nat) (l m : LList)
    (xs ys : List α) (hl : s.vars[i]? = some l) (hm : s.vars[j]? = some m) (hx : xss[i]? = some xs)
    (hy : xss[j]? = some ys) (e : α → α → Bool) :
    LList.eq (some e) s.heap l m = .ok (some (listEq e xs ys)) := by
  have r1 := C65_list_iter_start s xss hs i l xs hl hx
  have r2 := C65_list_iter_start s xss hs j m ys hm hy
  obtain ⟨_, ids, hr, _⟩ := hs
  have h1 := (hr i l xs hl hx).len
  have h2 := (hr j m ys hm hy).len
  unfold LList.eq
  by_cases he : xs.length = ys.length
  · rw [if_neg (by omega)]
    exact LList.eqLoop_eq e s.heap _ _ _ xs ys r1 r2 he (by have := r1.length_le; unfold LIter.rounds; omega)
  · rw [if_pos (by omega)]
    cases hq : listEq e xs ys with
    | false => rfl
    | true => exact absurd (listEq_length e xs ys hq) he

/-- C65: VecIter.CollectToLinkedList and VecDequeIter.CollectToLinkedList give new, independent lists: of the
remaining elements of the Vec, of all elements of the VecDeque. -/
theorem C65_collect_from_vec (s : LProg α) (xss : List (List α)) (hs : s.Holds xss) (v : Vec α) (p : Nat)
    (hsm : s.heap.length + v.data.length < 2 ^ 64) :
    ∃ h' l', (⟨v, p⟩ : VecIter α).collectToLinkedList s.heap = .ok (some (h', l')) ∧
      LProg.Holds ⟨h', s.vars ++ [l']⟩ (xss ++ [v.data.drop p]) := by
  have hlen : (v.data.drop p).length ≤ v.data.length := by simp
  obtain ⟨h', l', e1, e2, e3⟩ := pushAll_eq (v.data.drop p) s.heap LList.new [] [] (LList.rep_new _) (by omega)
  refine ⟨h', l', ?_, hs.add h' l' _ _ (by simpa using e2) (fun i hi => e3 i hi (by simp))⟩
  unfold VecIter.collectToLinkedList
  rw [VecIter.drain_eq _ v _ p _ (by simp [VecIter.rounds]; omega) (by simp [VecIter.rounds])]
  have hp : ∀ (xs : List α) (st : LHeap α × LList),
      foldE (σ := Unit) (fun st v => Eff.lift (st.2.pushBack st.1 v)) st xs = Eff.lift (pushAll st.1 st.2 xs) := by
    intro xs
    induction xs with
    | nil => intro st; rfl
    | cons x xs ih =>
      intro st
      simp only [foldE, pushAll, ih]
      cases st.2.pushBack st.1 x with
      | error e => rfl
      | ok r => rfl
  rw [hp]
  simp only [e1, Eff.lift_ok, Eff.pure_bind]
  rfl
theorem C65_collect_from_deque [Inhabited α] (s : LProg α) (xss : List (List α)) (hs : s.Holds xss)
    (d : VecDeque α) (hd : d.Inv) (p : Nat) (hsm : s.heap.length + d.toList.length < 2 ^ 64) :
    ∃ h' l', (⟨d, p⟩ : DequeIter α).collectToLinkedList s.heap = .ok (h', l') ∧
      LProg.Holds ⟨h', s.vars ++ [l']⟩ (xss ++ [d.toList]) := by
  obtain ⟨h', l', e1, e2, e3⟩ := pushAll_eq d.toList s.heap LList.new [] [] (LList.rep_new _) hsm
  refine ⟨h', l', ?_, hs.add h' l' _ _ (by simpa using e2) (fun i hi => e3 i hi (by simp))⟩
  have key : ∀ n i st, i + n = d.toList.length →
      DequeIter.toLinkedListLoop d n i st = pushAll st.1 st.2 (d.toList.drop i) := by
    intro n
    induction n with
    | zero =>
      intro i st hi
      rw [List.drop_eq_nil_of_le (by omega)]; rfl
    | succ n ih =>
      intro i st hi
      rw [List.drop_eq_getElem_cons (by omega)]
      simp only [DequeIter.toLinkedListLoop, VecDeque.get_eq hd, Go.bind_ok, pushAll,
        List.getElem?_eq_getElem (show i < d.toList.length by omega), Opt.unwrap, deref]
      cases st.2.pushBack st.1 d.toList[i] with
      | error e => rfl
      | ok r => simp only [Go.bind_ok]; exact ih (i + 1) r (by omega)
  unfold DequeIter.collectToLinkedList
  rw [key d.len 0 _ (by have := VecDeque.toList_length hd; omega)]
  exact e1

/-! ### C92: a list appended to itself -/

/-- C92, full property: Append loses no element, also when a list is appended to itself.  Proved: exactly
what happens then - the list ends up empty; so the elements survive exactly when there were none.
Missing: every nonempty list, see `C92_append_self_fails`. -/
theorem C92_append_self_partial (h : LHeap α) (l : LList) (ids : List Nat) (xs : List α) (r : Rep h l ids xs) :
    ∃ h' l', l.appendSelf h = .ok (h', l') ∧ Rep h' l' [] [] ∧
      ((∀ x ∈ xs, x ∈ walkNext h' h'.length l'.head) ↔ xs = []) := by
  unfold LList.appendSelf
  rw [r.head, r.tail]
  have hlen := r.seg.length
  cases xs with
  | nil =>
    have hi := LList.rep_nil r
    subst hi
    exact ⟨h, l, rfl, r, by simp⟩
  | cons x xs =>
    obtain ⟨i, is, rfl⟩ := LList.ids_ne r
    obtain ⟨t, ht⟩ : ∃ t, (i :: is).getLast? = some t := ⟨_, List.getLast?_eq_some_getLast (by simp)⟩
    obtain ⟨h1, e1, e2, e3, e4⟩ := Seg.setLast (q := some i) r.seg r.nodup ht
    obtain ⟨h2, f1, f2, f3, f4⟩ := Seg.setFirst (t := i) (q := some t) e2 r.nodup rfl
    refine ⟨h2, LList.new, ?_, LList.rep_new h2, ?_⟩
    · simp only [List.head?_cons, Option.isNone_some, Bool.false_eq_true, if_false, ht, e1, f1, Go.bind_ok,
        LList.clear, LList.new]
    · constructor
      · intro hh
        have := hh x (by simp)
        cases hk : h2.length <;> simp [hk, walkNext, LList.new] at this
      · intro hh; cases hh

/-- C92 is violated by every nonempty list: appended to itself, it loses all its elements. -/
theorem C92_append_self_fails (h : LHeap α) (l : LList) (ids : List Nat) (xs : List α) (r : Rep h l ids xs)
    (hne : xs ≠ []) :
    ∃ h', l.appendSelf h = .ok (h', LList.new) ∧ LIter.nexts h' 1 LList.new.intoIter = .ok [none] ∧ l.len ≠ 0 := by
  obtain ⟨h', l', e1, e2, _⟩ := C92_append_self_partial h l ids xs r
  refine ⟨h', ?_, rfl, by rw [r.len]; simpa using hne⟩
  rw [e1]
  have h1 := e2.head
  have h2 := e2.tail
  have h3 := e2.len
  cases l'
  simp_all [LList.new]

/-! ### C93: copies of a list variable -/

/-- C93, full property: after `b := a`, operations on `a` do not change what `b` gives.  Proved: PushFront
and PopFront on `a` leave the elements an iteration over `b` gives, and `b.Len()`, unchanged; PushBack
does so only when the list was empty, PopBack only when it had at most one element.
Missing: PushBack and PopBack otherwise, see `C93_copy_fails`. -/
theorem C93_copy_partial (h : LHeap α) (a : LList) (ids : List Nat) (xs : List α) (r : Rep h a ids xs) (v : α)
    (hs : xs.length + 1 < 2 ^ 64) (b : LList) (hb : b = a) :
    (∃ h' a', a.pushFront h v = .ok (h', a') ∧ LIter.Reads h' b.intoIter xs) ∧
    (∃ h' a' o, a.popFront h = .ok (h', a', o) ∧ LIter.Reads h' b.intoIter xs) ∧
    (∃ h' a', a.pushBack h v = .ok (h', a') ∧ LIter.Reads h' b.intoIter (if xs = [] then [] else xs ++ [v])) ∧
    (∃ h' a' o, a.popBack h = .ok (h', a', o) ∧
      LIter.Reads h' b.intoIter (if xs.length ≤ 1 then xs else xs.dropLast)) ∧
    b.len = xs.length := by
  subst hb
  refine ⟨?_, ?_, ?_, ?_, r.len⟩
  · obtain ⟨h', l', e1, e2, e3, e4⟩ := LList.pushFront_eq r hs v
    refine ⟨h', l', e1, ?_⟩
    exact ⟨ids, e2.seg.2.fwd, (List.nodup_cons.1 e2.nodup).2, r.head⟩
  · obtain ⟨h', l', e1, -⟩ := LList.popFront_eq r
    refine ⟨h', l', _, e1, ids, ?_, r.nodup, r.head⟩
    unfold LList.popFront at e1
    split at e1
    · simp only [Except.ok.injEq, Prod.mk.injEq] at e1
      rw [← e1.1]; exact r.seg.fwd
    · cases hload : h.load b.head with
      | error e => rw [hload] at e1; simp at e1
      | ok t =>
        rw [hload] at e1
        simp only [Go.bind_ok] at e1
        split at e1
        · cases hsp : h.setPrev t.next none with
          | error e => rw [hsp] at e1; simp at e1
          | ok h1 =>
            rw [hsp] at e1
            simp only [Go.bind_ok, Except.ok.injEq, Prod.mk.injEq] at e1
            rw [← e1.1]
            exact r.seg.fwd.setPrev _ _ hsp
        · simp only [Except.ok.injEq, Prod.mk.injEq] at e1
          rw [← e1.1]; exact r.seg.fwd
  · obtain ⟨h', l', e1, e2, e3, e4⟩ := LList.pushBack_eq r hs v
    refine ⟨h', l', e1, ?_⟩
    cases xs with
    | nil =>
      have hi := LList.rep_nil r
      subst hi
      exact ⟨[], trivial, List.nodup_nil, r.head⟩
    | cons x xs =>
      obtain ⟨i, is, rfl⟩ := LList.ids_ne r
      exact ⟨_, e2.seg.fwd, e2.nodup, r.head⟩
  · obtain ⟨h', l', e1, e2, -⟩ := LList.popBack_eq r
    refine ⟨h', l', _, e1, ?_⟩
    have hlen := r.seg.length
    match xs, ids, hlen with
    | [], [], _ =>
      exact ⟨[], trivial, List.nodup_nil, r.head⟩
    | [x], [i], _ =>
      have ht : b.tail = some i := r.tail
      have hi : i < h.length := r.seg.lt i (by simp)
      have hv : h[i] = ⟨x, none, none⟩ := (List.getElem?_eq_some_iff.1 r.seg.1).2
      have : h' = h := by
        simp [LList.popBack, LHeap.load, deref, ht, index_lt hi, hv] at e1
        exact e1.1.symm
      subst this
      exact ⟨[i], r.seg.fwd, r.nodup, r.head⟩
    | x :: y :: xs, i :: j :: is, _ =>
      rw [if_neg (by simp)]
      exact ⟨_, e2.seg.fwd, e2.nodup, r.head⟩

/-- C93 is violated by PushBack on every nonempty list (the copy gives one element more than its Len) and by
PopBack on every list of two or more elements (one element less). -/
theorem C93_copy_fails (h : LHeap α) (a : LList) (ids : List Nat) (xs : List α) (r : Rep h a ids xs) (v : α)
    (hs : xs.length + 1 < 2 ^ 64) (hne : xs ≠ []) (b : LList) (hb : b = a) :
    (∃ h' a', a.pushBack h v = .ok (h', a') ∧
      LIter.nexts h' (xs.length + 1) b.intoIter = .ok ((xs ++ [v]).map some) ∧ b.len = xs.length) ∧
    (2 ≤ xs.length → ∃ h' a' o, a.popBack h = .ok (h', a', o) ∧
      LIter.nexts h' xs.length b.intoIter = .ok (xs.dropLast.map some ++ [none]) ∧ b.len = xs.length) := by
  obtain ⟨_, _, ⟨h1, a1, e1, e2⟩, ⟨h2, a2, o, f1, f2⟩, e5⟩ := C93_copy_partial h a ids xs r v hs b hb
  have hmap : ∀ (l : List α), (List.range l.length).map (fun i => l[i]?) = l.map some := by
    intro l
    apply List.ext_getElem?
    intro i
    by_cases hi : i < l.length
    · simp [hi]
    · simp [hi]
  refine ⟨⟨h1, a1, e1, ?_, e5⟩, fun h2le => ⟨h2, a2, o, f1, ?_, e5⟩⟩
  · rw [if_neg hne] at e2
    rw [C65_list_iter_nexts h1 _ _ e2]
    congr 1
    have := hmap (xs ++ [v])
    rwa [List.length_append, List.length_singleton] at this
  · rw [if_neg (by omega)] at f2
    rw [C65_list_iter_nexts h2 _ _ f2]
    congr 1
    have hl : xs.length = xs.dropLast.length + 1 := by simp; omega
    rw [hl, List.range_succ, List.map_append, hmap]
    simp

/-! ### Concrete cases -/

/-- Two lists: 1, 2 and 3, 4 (built with PushBack and PushFront). -/
def twoLists : LProg Nat :=
  ⟨[⟨1, some 1, none⟩, ⟨2, none, some 0⟩, ⟨4, none, some 3⟩, ⟨3, some 2, none⟩],
    [⟨some 0, some 1, 2⟩, ⟨some 3, some 2, 2⟩]⟩
def buildTwo : List (LOp Nat) := [.pushBack 0 1, .pushBack 0 2, .pushBack 1 4, .pushFront 1 3]

example : Spec.runOps (fun o s => Go.toOption (LProg.step o s)) buildTwo ⟨[], List.replicate 2 LList.new⟩ =
    ([.unit, .unit, .unit, .unit], some twoLists) := rfl
theorem twoLists_holds : twoLists.Holds [[1, 2], [3, 4]] := by
  obtain ⟨s', e1, e2⟩ := C63_list_history buildTwo _ _ (C63_list_new (α := Nat) 2) (by decide)
    [.unit, .unit, .unit, .unit] [[1, 2], [3, 4]] rfl
  have : s' = twoLists := by
    have h2 : Spec.runOps (fun o s => Go.toOption (LProg.step o s)) buildTwo ⟨[], List.replicate 2 LList.new⟩ =
      ([.unit, .unit, .unit, .unit], some twoLists) := rfl
    rw [h2] at e1
    simpa using e1.symm
  rwa [this] at e2
/-- `C64_append` on it: the history after the append works on both lists. -/
example : Spec.runOps (fun o s => Go.toOption (LProg.step o s))
      [.append 0 1, .pushBack 1 9, .popBack 0, .setFront 0 7, .front 0, .len 0, .len 1] twoLists =
    ([.unit, .unit, .opt (some 4), .unit, .opt (some 7), .nat 3, .nat 1],
      some ⟨[⟨7, some 1, none⟩, ⟨2, some 3, some 0⟩, ⟨4, none, some 3⟩, ⟨3, none, some 1⟩, ⟨9, none, none⟩],
        [⟨some 0, some 3, 3⟩, ⟨some 4, some 4, 1⟩]⟩) := rfl
/-- An iterator over the second list after one Next. -/
theorem reads_example : LIter.Reads twoLists.heap (some 2) [4] :=
  ⟨[2], ⟨⟨some 3, rfl⟩, trivial⟩, by simp, rfl⟩
example : LIter.nexts twoLists.heap 3 (some 3) = .ok [some 3, some 4, none] := by decide
example : LIter.map (σ := List Nat) twoLists.heap (some 3) (fun v => fun log => (.ok (v * 10), log ++ [v])) [] =
    (.ok (some (twoLists.heap ++ [⟨30, some 5, none⟩, ⟨40, none, some 4⟩], some 4)), [3, 4]) := rfl
example : LIter.rev twoLists.heap (some 3) =
    .ok (some (twoLists.heap ++ [⟨3, some 5, none⟩, ⟨4, none, some 4⟩], some 4)) := rfl
example : ([3, 4] : List Nat) ≠ [3, 4].reverse := by decide
example : LList.eq (some (· == ·)) twoLists.heap ⟨some 0, some 1, 2⟩ ⟨some 3, some 2, 2⟩ = .ok (some false) := by
  decide
example : LList.clone (σ := Unit) (some pure) twoLists.heap ⟨some 0, some 1, 2⟩ () =
    (.ok (some (twoLists.heap ++ [⟨1, some 5, none⟩, ⟨2, none, some 4⟩], ⟨some 4, some 5, 2⟩)), ()) := rfl
/-- The first list satisfies the hypotheses of C92 and C93. -/
theorem rep_example : Rep twoLists.heap ⟨some 0, some 1, 2⟩ [0, 1] [1, 2] :=
  ⟨⟨rfl, rfl, trivial⟩, by simp, rfl, rfl, rfl, by decide⟩
example : (⟨some 0, some 1, 2⟩ : LList).appendSelf twoLists.heap =
    .ok ([⟨1, some 1, some 1⟩, ⟨2, some 0, some 0⟩, ⟨4, none, some 3⟩, ⟨3, some 2, none⟩], LList.new) := by decide

end Gost
