import Verif.Lemmas.BTreeLost
/-
IntoIter, Keys and Values of BTreeMap on given nodes.
-/
namespace Gost.BTree
open Spec
variable {κ ν β : Type} {cmp : κ → κ → Ordering}

/-- The common form of the three traversals. -/
def walk (g : Growth) (leaf : Bool) (childs : List (Option Nat)) (sub : Nat → Go (Vec β))
    (emit : Nat → Go (Option β)) : Nat → Nat → Vec β → Go (Vec β)
  | 0, _, vec => .ok vec
  | count + 1, i, vec => do
    let vec ← (if !leaf then do
        let c ← index childs i
        match c with
        | some c => do
          let childsVec ← sub c
          .ok (vec.append g childsVec).1
        | none => .ok vec
      else .ok vec)
    let e ← emit i
    match e with
    | some b => walk g leaf childs sub emit count (i + 1) (vec.push g b)
    | none => walk g leaf childs sub emit count (i + 1) vec

def emitPair (ks : List (Option κ)) (vs : List (Option ν)) (i : Nat) : Go (Option (Pair κ ν)) := do
  let k ← index ks i
  match k with
  | some k => do
    let v ← index vs i
    let v ← deref v
    .ok (some ⟨k, v⟩)
  | none => .ok none

theorem bind_congr' {α γ : Type} {x : Go α} {f f' : α → Go γ} (h : ∀ a, f a = f' a) : (x >>= f) = (x >>= f') := by
  have : f = f' := funext h
  rw [this]

theorem toVecLoop_walk (g : Growth) (sub : Nat → Go (Vec (Pair κ ν))) (self : BNode κ ν) (count i : Nat)
    (vec : Vec (Pair κ ν)) : toVecLoop g sub self count i vec =
      walk g self.leaf self.childs sub (emitPair self.keys self.values) count i vec := by
  induction count generalizing i vec with
  | zero => rfl
  | succ count ih =>
    simp only [toVecLoop, walk]
    apply bind_congr'
    intro vec
    simp only [emitPair]
    cases index self.keys i with
    | error e => rfl
    | ok k =>
      cases k with
      | none => simp only [Go.bind_ok, ih]
      | some k =>
        simp only [Go.bind_ok]
        cases index self.values i with
        | error e => rfl
        | ok v =>
          cases v with
          | none => rfl
          | some v => simp only [Go.bind_ok, deref_some, ih]

theorem toKeyVecLoop_walk (g : Growth) (sub : Nat → Go (Vec κ)) (self : BNode κ ν) (count i : Nat)
    (vec : Vec κ) : toKeyVecLoop g sub self count i vec =
      walk g self.leaf self.childs sub (index self.keys) count i vec := by
  induction count generalizing i vec with
  | zero => rfl
  | succ count ih =>
    simp only [toKeyVecLoop, walk]
    apply bind_congr'
    intro vec
    cases index self.keys i with
    | error e => rfl
    | ok k => cases k <;> simp only [Go.bind_ok, ih]

theorem toValueVecLoop_walk (g : Growth) (sub : Nat → Go (Vec ν)) (self : BNode κ ν) (count i : Nat)
    (vec : Vec ν) : toValueVecLoop g sub self count i vec =
      walk g self.leaf self.childs sub (index self.values) count i vec := by
  induction count generalizing i vec with
  | zero => rfl
  | succ count ih =>
    simp only [toValueVecLoop, walk]
    apply bind_congr'
    intro vec
    cases index self.values i with
    | error e => rfl
    | ok k => cases k <;> simp only [Go.bind_ok, ih]

/-- What a traversal collects: before each slot the elements below its child. -/
theorem walk_eq (g : Growth) {leaf : Bool} {childs : List (Option Nat)} {sub : Nat → Go (Vec β)}
    {emit : Nat → Go (Option β)} {out : Nat → Option β} {ds : Nat → List β} (count i : Nat) (vec : Vec β)
    (hemit : ∀ j, i ≤ j → j < i + count → emit j = .ok (out j))
    (hds : ∀ j, i ≤ j → j < i + count → if leaf then ds j = [] else
      (childs[j]? = some none ∧ ds j = []) ∨ ∃ c w, childs[j]? = some (some c) ∧ sub c = .ok w ∧ w.data = ds j) :
    ∃ w, walk g leaf childs sub emit count i vec = .ok w ∧
      w.data = vec.data ++ (List.range' i count).flatMap fun j => ds j ++ (out j).toList := by
  induction count generalizing i vec with
  | zero => exact ⟨vec, rfl, by simp⟩
  | succ count ih =>
    have ih := fun vec => ih (i + 1) vec (fun j h1 h2 => hemit j (by omega) (by omega))
      (fun j h1 h2 => hds j (by omega) (by omega))
    have h1 : ∃ w, (if !leaf then do
        let c ← index childs i
        match c with
        | some c => do
          let childsVec ← sub c
          .ok (vec.append g childsVec).1
        | none => .ok vec
      else .ok vec) = .ok w ∧ w.data = vec.data ++ ds i := by
      have := hds i (Nat.le_refl _) (by omega)
      cases leaf with
      | true =>
        simp only [if_true] at this
        exact ⟨vec, rfl, by simp [this]⟩
      | false =>
        simp only [Bool.false_eq_true, if_false] at this
        rcases this with ⟨h1, h2⟩ | ⟨c, w, h1, h2, h3⟩
        · exact ⟨vec, by simp [index, h1], by simp [h2]⟩
        · exact ⟨(vec.append g w).1, by simp [index, h1, h2], by simp [Vec.append, Vec.goAppend, h3]⟩
    obtain ⟨w1, e1, d1⟩ := h1
    simp only [walk, e1, Go.bind_ok, hemit i (Nat.le_refl _) (by omega)]
    rw [List.range'_succ, List.flatMap_cons]
    cases ho : out i with
    | none =>
      obtain ⟨w, e2, d2⟩ := ih w1
      exact ⟨w, e2, by rw [d2, d1]; simp⟩
    | some b =>
      obtain ⟨w, e2, d2⟩ := ih (w1.push g b)
      exact ⟨w, e2, by rw [d2]; simp [Vec.push, Vec.goAppend, d1]⟩

theorem range_flatMap (l : List β) (n i : Nat) :
    ((List.range' i n).flatMap fun j => (l[j]?).toList) = (l.drop i).take n := by
  induction n generalizing i with
  | zero => simp
  | succ n ih =>
    rw [List.range'_succ, List.flatMap_cons, ih]
    by_cases h : i < l.length
    · rw [List.drop_eq_getElem_cons h, List.getElem?_eq_getElem h, List.take_succ_cons]; rfl
    · rw [List.getElem?_eq_none (by omega), List.drop_eq_nil_of_le (by omega), List.drop_eq_nil_of_le (by omega)]
      simp

theorem range_flatMap_first (l Y : List β) (n : Nat) :
    ((List.range' 0 (n + 1)).flatMap fun j => (if j = 0 then Y else []) ++ (l[j]?).toList) =
      Y ++ l.take (n + 1) := by
  have h := range_flatMap l n 1
  rw [List.range'_succ, List.flatMap_cons]
  have : ((List.range' (0 + 1) n).flatMap fun j => (if j = 0 then Y else []) ++ (l[j]?).toList) =
      (List.range' 1 n).flatMap fun j => (l[j]?).toList := by
    simp only [List.flatMap_def]
    congr 1
    apply List.map_congr_left
    intro j hj
    simp only [List.mem_range'_1] at hj
    rw [if_neg (by omega)]; rfl
  rw [this, h]
  cases l <;> simp

/-! Slots `kS l` and then nil. -/

theorem index_kS (l : List (κ × ν)) (c j : Nat) (h : j < l.length + c) :
    index (kS l ++ List.replicate c none) j = .ok ((l.map (·.1))[j]?) := by
  unfold index
  by_cases hj : j < l.length
  · rw [List.getElem?_append_left (by simpa using hj)]
    simp [kS, hj]
  · rw [List.getElem?_append_right (by simpa using hj), List.getElem?_replicate, if_pos (by simp; omega),
      List.getElem?_eq_none (by simp; omega)]

theorem index_vS (l : List (κ × ν)) (c j : Nat) (h : j < l.length + c) :
    index (vS l ++ List.replicate c none) j = .ok ((l.map (·.2))[j]?) := by
  unfold index
  by_cases hj : j < l.length
  · rw [List.getElem?_append_left (by simpa using hj)]
    simp [vS, hj]
  · rw [List.getElem?_append_right (by simpa using hj), List.getElem?_replicate, if_pos (by simp; omega),
      List.getElem?_eq_none (by simp; omega)]

/-- An entry as a `Pair`. -/
def toPair (e : κ × ν) : Pair κ ν := ⟨e.1, e.2⟩

theorem emitPair_slots (l : List (κ × ν)) (c j : Nat) (h : j < l.length + c) :
    emitPair (kS l ++ List.replicate c none) (vS l ++ List.replicate c none) j = .ok ((l.map toPair)[j]?) := by
  unfold emitPair
  rw [index_kS l c j h, index_vS l c j h]
  by_cases hj : j < l.length
  · simp [hj, toPair]
  · simp [List.getElem?_eq_none (Nat.le_of_not_lt hj)]

/-- A traversal of a single leaf. -/
theorem walk_leaf (g : Growth) {childs : List (Option Nat)} {sub : Nat → Go (Vec β)}
    {emit : Nat → Go (Option β)} {out : List β} (count : Nat)
    (hemit : ∀ j, j < count → emit j = .ok out[j]?) :
    ∃ w, walk g true childs sub emit count 0 Vec.new = .ok w ∧ w.data = out.take count := by
  obtain ⟨w, h1, h2⟩ := walk_eq g (leaf := true) (childs := childs) (sub := sub) (emit := emit)
    (out := fun j => out[j]?) (ds := fun _ => []) count 0 Vec.new (fun j _ h => hemit j (by omega)) (by simp)
  refine ⟨w, h1, ?_⟩
  rw [h2]
  simpa [Vec.new] using range_flatMap out count 0

/-- A traversal of a root whose first child has `Y` and whose other children have nothing. -/
theorem walk_root (g : Growth) {y : Nat} {cs : List (Option Nat)} {sub : Nat → Go (Vec β)}
    {emit : Nat → Go (Option β)} {out Y : List β} (count : Nat)
    (hemit : ∀ j, j < count + 1 → emit j = .ok out[j]?) (hcs : count ≤ cs.length)
    (hy : ∃ w, sub y = .ok w ∧ w.data = Y) (hz : ∀ z, some z ∈ cs → ∃ w, sub z = .ok w ∧ w.data = []) :
    ∃ w, walk g false (some y :: cs) sub emit (count + 1) 0 Vec.new = .ok w ∧
      w.data = Y ++ out.take (count + 1) := by
  obtain ⟨w, h1, h2⟩ := walk_eq g (leaf := false) (childs := some y :: cs) (sub := sub) (emit := emit)
    (out := fun j => out[j]?) (ds := fun j => if j = 0 then Y else []) (count + 1) 0 Vec.new
    (fun j _ h => hemit j (by omega))
    (by
      intro j _ hj
      simp only [Bool.false_eq_true, if_false]
      cases j with
      | zero => obtain ⟨w, h1, h2⟩ := hy; exact .inr ⟨y, w, rfl, h1, by simpa using h2⟩
      | succ j =>
        have hj' : j < cs.length := by omega
        have he : (some y :: cs)[j + 1]? = some cs[j] := by simp [hj']
        rw [he]
        cases hc : cs[j] with
        | none => exact .inl ⟨rfl, by simp⟩
        | some z =>
          obtain ⟨w, h1, h2⟩ := hz z (hc ▸ List.getElem_mem hj')
          exact .inr ⟨z, w, rfl, h1, by simpa using h2⟩)
  refine ⟨w, h1, ?_⟩
  rw [h2, range_flatMap_first]
  simp [Vec.new]

/-! ### The three traversals of a good tree -/

theorem LeafAt.toVec {h : BStore κ ν} {a : Nat} {l : List (κ × ν)} (hl : LeafAt h a l) (g : Growth) (d : Nat) :
    ∃ w, toVec g h (d + 1) a = .ok w ∧ w.data = l.map toPair := by
  obtain ⟨hle, cs, hn⟩ := hl
  have hkl : (kS l ++ List.replicate (11 - l.length) (none : Option κ)).length = 11 := by simp; omega
  obtain ⟨w, h1, h2⟩ := walk_leaf g (childs := cs) (sub := BTree.toVec g h d) 11
    (fun j hj => emitPair_slots l (11 - l.length) j (by omega))
  refine ⟨w, ?_, ?_⟩
  · simp only [BTree.toVec, load_of hn, Go.bind_ok, toVecLoop_walk, hkl]; exact h1
  · rw [h2, List.take_of_length_le (by simpa using hle)]

theorem LeafAt.toKeyVec {h : BStore κ ν} {a : Nat} {l : List (κ × ν)} (hl : LeafAt h a l) (g : Growth) (d : Nat) :
    ∃ w, toKeyVec g h (d + 1) a = .ok w ∧ w.data = l.map (·.1) := by
  obtain ⟨hle, cs, hn⟩ := hl
  have hkl : (kS l ++ List.replicate (11 - l.length) (none : Option κ)).length = 11 := by simp; omega
  obtain ⟨w, h1, h2⟩ := walk_leaf g (childs := cs) (sub := BTree.toKeyVec g h d) l.length
    (fun j hj => index_kS l (11 - l.length) j (by omega))
  refine ⟨w, ?_, ?_⟩
  · simp only [BTree.toKeyVec, load_of hn, Go.bind_ok, toKeyVecLoop_walk, hkl]
    rw [if_neg (by omega), Int.toNat_natCast, Nat.min_eq_right hle]; exact h1
  · rw [h2, List.take_of_length_le (by simp)]

theorem LeafAt.toValueVec {h : BStore κ ν} {a : Nat} {l : List (κ × ν)} (hl : LeafAt h a l) (g : Growth) (d : Nat) :
    ∃ w, toValueVec g h (d + 1) a = .ok w ∧ w.data = l.map (·.2) := by
  obtain ⟨hle, cs, hn⟩ := hl
  have hkl : (kS l ++ List.replicate (11 - l.length) (none : Option κ)).length = 11 := by simp; omega
  obtain ⟨w, h1, h2⟩ := walk_leaf g (childs := cs) (sub := BTree.toValueVec g h d) 11
    (fun j hj => index_vS l (11 - l.length) j (by omega))
  refine ⟨w, ?_, ?_⟩
  · simp only [BTree.toValueVec, load_of hn, Go.bind_ok, toValueVecLoop_walk, hkl]; exact h1
  · rw [h2, List.take_of_length_le (by simpa using hle)]

theorem EmptyAt.toVec {h : BStore κ ν} {a : Nat} (hl : EmptyAt h a) (g : Growth) (d : Nat) :
    ∃ w, toVec g h (d + 1) a = .ok w ∧ w.data = [] := by
  obtain ⟨cs, hn⟩ := hl
  obtain ⟨w, h1, h2⟩ := walk_leaf g (childs := cs) (sub := BTree.toVec g h d) (out := []) 11
    (fun j hj => emitPair_slots ([] : List (κ × ν)) 11 j (by simpa using hj))
  refine ⟨w, ?_, by simpa using h2⟩
  simp only [BTree.toVec, load_of hn, Go.bind_ok, toVecLoop_walk, List.length_replicate]; exact h1

theorem EmptyAt.toKeyVec {h : BStore κ ν} {a : Nat} (hl : EmptyAt h a) (g : Growth) (d : Nat) :
    ∃ w, toKeyVec g h (d + 1) a = .ok w ∧ w.data = [] := by
  obtain ⟨cs, hn⟩ := hl
  obtain ⟨w, h1, h2⟩ := walk_leaf g (childs := cs) (sub := BTree.toKeyVec g h d) (out := []) 10
    (fun j hj => index_kS ([] : List (κ × ν)) 11 j (by simp; omega))
  refine ⟨w, ?_, by simpa using h2⟩
  simp only [BTree.toKeyVec, load_of hn, Go.bind_ok, toKeyVecLoop_walk, List.length_replicate]; exact h1

theorem EmptyAt.toValueVec {h : BStore κ ν} {a : Nat} (hl : EmptyAt h a) (g : Growth) (d : Nat) :
    ∃ w, toValueVec g h (d + 1) a = .ok w ∧ w.data = [] := by
  obtain ⟨cs, hn⟩ := hl
  obtain ⟨w, h1, h2⟩ := walk_leaf g (childs := cs) (sub := BTree.toValueVec g h d) (out := []) 11
    (fun j hj => index_vS ([] : List (κ × ν)) 11 j (by simpa using hj))
  refine ⟨w, ?_, by simpa using h2⟩
  simp only [BTree.toValueVec, load_of hn, Go.bind_ok, toValueVecLoop_walk, List.length_replicate]; exact h1

theorem Tree.toVecs {h : BStore κ ν} {a : Nat} {l : List (κ × ν)} {fp : List Nat} (ht : Tree h (some a) l fp)
    (g : Growth) :
    (∃ w, toVec g h (h.length + 1) a = .ok w ∧ w.data = l.map toPair) ∧
    (∃ w, toKeyVec g h (h.length + 1) a = .ok w ∧ w.data = l.map (·.1)) ∧
    (∃ w, toValueVec g h (h.length + 1) a = .ok w ∧ w.data = l.map (·.2)) := by
  cases ht with
  | leaf _ hl => exact ⟨hl.toVec g _, hl.toKeyVec g _, hl.toValueVec g _⟩
  | @node _ y zs Y R h1 h2 h3 h4 h5 h6 h7 h8 =>
    have hdl : ∃ d, h.length = d + 1 := ⟨h.length - 1, by have := h4.lt; omega⟩
    obtain ⟨d, hdl⟩ := hdl
    have hpos := List.length_pos_iff.2 h2
    have hkl : (kS R ++ List.replicate (11 - R.length) (none : Option κ)).length = 11 := by simp; omega
    have hcl : ∀ z, some z ∈ zs.map some ++ List.replicate (11 - R.length) none → z ∈ zs := by
      intro z hz
      rcases List.mem_append.1 hz with hz | hz
      · simpa using hz
      · simp at hz
    rw [hdl]
    refine ⟨?_, ?_, ?_⟩
    · obtain ⟨w, e1, e2⟩ := walk_root g (y := y) (cs := zs.map some ++ List.replicate (11 - R.length) none)
        (sub := BTree.toVec g h (d + 1)) 10 (fun j hj => emitPair_slots R (11 - R.length) j (by omega))
        (by simp; omega) (h4.toVec g d) (fun z hz => (h7 z (hcl z hz)).toVec g d)
      refine ⟨w, ?_, ?_⟩
      · rw [BTree.toVec]
        simp only [load_of h5, Go.bind_ok, toVecLoop_walk, hkl]; exact e1
      · rw [e2, List.take_of_length_le (by simp; omega)]; simp
    · obtain ⟨n, hn⟩ : ∃ n, R.length = n + 1 := ⟨R.length - 1, by omega⟩
      obtain ⟨w, e1, e2⟩ := walk_root g (y := y) (cs := zs.map some ++ List.replicate (11 - R.length) none)
        (sub := BTree.toKeyVec g h (d + 1)) n (fun j hj => index_kS R (11 - R.length) j (by omega))
        (by simp; omega) (h4.toKeyVec g d) (fun z hz => (h7 z (hcl z hz)).toKeyVec g d)
      refine ⟨w, ?_, ?_⟩
      · rw [BTree.toKeyVec]
        simp only [load_of h5, Go.bind_ok, toKeyVecLoop_walk, hkl]
        rw [if_neg (by omega), Int.toNat_natCast, Nat.min_eq_right (by omega), hn]
        rw [hn] at e1
        exact e1
      · rw [e2, List.take_of_length_le (by simp; omega)]; simp
    · obtain ⟨w, e1, e2⟩ := walk_root g (y := y) (cs := zs.map some ++ List.replicate (11 - R.length) none)
        (sub := BTree.toValueVec g h (d + 1)) 10 (fun j hj => index_vS R (11 - R.length) j (by omega))
        (by simp; omega) (h4.toValueVec g d) (fun z hz => (h7 z (hcl z hz)).toValueVec g d)
      refine ⟨w, ?_, ?_⟩
      · rw [BTree.toValueVec]
        simp only [load_of h5, Go.bind_ok, toValueVecLoop_walk, hkl]; exact e1
      · rw [e2, List.take_of_length_le (by simp; omega)]; simp

/-- A good map with 21 keys takes no more. -/
theorem Good.insert_full {h : BStore κ ν} {m : BMap} {l : List (κ × ν)} {fp : List Nat}
    (hg : Good cmp h m l fp) (h21 : l.length = 21) {key : κ} (hm : OMap.mem cmp l key = false) (value : ν) :
    ∃ e, BMap.insert cmp h m key value = .error e := by
  obtain ⟨root, len⟩ := m
  obtain ⟨asc, hlen, tree⟩ := hg
  simp only at hlen tree
  cases tree with
  | nil => simp at h21
  | leaf _ hl => have := hl.1; omega
  | @node a y zs Y R h1 h2 h3 h4 h5 h6 h7 h8 =>
    have hw : Wide h a 10 fun k => ∃ e ∈ Y ++ R, e.1 = k := by
      have hr : R.length = 10 := by simp at h21; omega
      refine ⟨_, h5, rfl, rfl, by simp; omega, by simp only; omega, Nat.le_refl _, ?_, ?_⟩
      · intro k hk
        simp only [List.mem_append, kS, List.mem_map, Option.some.injEq, List.mem_replicate] at hk
        rcases hk with ⟨e, he, h⟩ | h
        · exact ⟨e, by simp [he], h⟩
        · simp at h
      · intro c hc
        rcases List.mem_cons.1 hc with hc | hc
        · cases hc
          obtain ⟨hle, cs, hy⟩ := h4
          refine ⟨_, hy, rfl, rfl, by simp; omega, ?_⟩
          intro k hk
          simp only [List.mem_append, kS, List.mem_map, Option.some.injEq, List.mem_replicate] at hk
          rcases hk with ⟨e, he, h⟩ | h
          · exact ⟨e, by simp [he], h⟩
          · simp at h
        · rcases List.mem_append.1 hc with hc | hc
          · simp at hc
            obtain ⟨cs, hz⟩ := h7 c hc
            refine ⟨_, hz, rfl, rfl, by simp, ?_⟩
            intro k hk
            simp at hk
          · simp at hc
    rw [OMap.mem_false] at hm
    cases hi : BMap.insert cmp h ⟨some a, len⟩ key value with
    | error e => exact ⟨e, rfl⟩
    | ok r =>
      obtain ⟨h', m', r⟩ := r
      have := (hw.insert_inv (by rintro k ⟨e, he, rfl⟩; exact hm e he) hi).1
      omega
end Gost.BTree
