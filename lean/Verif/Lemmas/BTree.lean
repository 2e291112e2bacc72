import Verif.Model.BTree
import Verif.Lemmas.OrdMap
/-
How the loops of btree_map.go act on slots, and which ordered list a B-tree in a good shape represents.
-/
namespace Gost.BTree
open Spec
variable {κ ν : Type} {cmp : κ → κ → Ordering}

/-- The key slots and value slots of a list of entries. -/
def kS (l : List (κ × ν)) : List (Option κ) := l.map fun e => some e.1
def vS (l : List (κ × ν)) : List (Option ν) := l.map fun e => some e.2

@[simp] theorem kS_append (l m : List (κ × ν)) : kS (l ++ m) = kS l ++ kS m := List.map_append
@[simp] theorem vS_append (l m : List (κ × ν)) : vS (l ++ m) = vS l ++ vS m := List.map_append
@[simp] theorem kS_cons (e : κ × ν) (l) : kS (e :: l) = some e.1 :: kS l := rfl
@[simp] theorem vS_cons (e : κ × ν) (l) : vS (e :: l) = some e.2 :: vS l := rfl
@[simp] theorem kS_nil : kS ([] : List (κ × ν)) = [] := rfl
@[simp] theorem vS_nil : vS ([] : List (κ × ν)) = [] := rfl
@[simp] theorem kS_length (l : List (κ × ν)) : (kS l).length = l.length := List.length_map ..
@[simp] theorem vS_length (l : List (κ × ν)) : (vS l).length = l.length := List.length_map ..

/-! ### Lists with a cursor -/

theorem index_mid {α : Type} (A : List α) (x : α) (B : List α) : index (A ++ x :: B) A.length = .ok x := by
  simp [index]

theorem setIndex_mid {α : Type} (A : List α) (x y : α) (B : List α) :
    setIndex (A ++ x :: B) A.length y = .ok (A ++ y :: B) := by
  simp [setIndex]

theorem getAt_mid {α : Type} (A : List α) (x : α) (B : List α) (i : Int) (hi : i = A.length) :
    getAt (A ++ x :: B) i = .ok x := by
  subst hi
  unfold getAt
  rw [if_neg (by omega), Int.toNat_natCast, index_mid]

theorem setAt_mid {α : Type} (A : List α) (x y : α) (B : List α) (i : Int) (hi : i = A.length) :
    setAt (A ++ x :: B) i y = .ok (A ++ y :: B) := by
  subst hi
  unfold setAt
  rw [if_neg (by omega), Int.toNat_natCast, setIndex_mid]

/-- Induction on a list from its end. -/
theorem snoc_induction {α : Type} {P : List α → Prop} (nil : P []) (snoc : ∀ l a, P l → P (l ++ [a])) (l : List α) : P l := by
  have : ∀ n (l : List α), l.length = n → P l := by
    intro n
    induction n with
    | zero => intro l h; rw [List.length_eq_zero_iff.1 h]; exact nil
    | succ n ih =>
      intro l h
      have hne : l ≠ [] := by intro h'; rw [h'] at h; simp at h
      rw [← List.dropLast_concat_getLast hne]
      exact snoc _ _ (ih _ (by simp [h]))
  exact this _ l rfl

theorem forDown_shiftR {α : Type} (P A : List α) (x : α) (B : List α) (j : Int)
    (hj : j = (P.length + A.length : Nat) - 1) :
    ∃ x', forDown shiftR A.length j (P ++ A ++ x :: B) = .ok (P ++ x' :: (A ++ B)) := by
  induction A using snoc_induction generalizing x B j with
  | nil => exact ⟨x, by simp [forDown]⟩
  | snoc A a ih =>
    obtain ⟨x', h⟩ := ih a (a :: B) (j - 1) (by rw [hj]; simp; omega)
    refine ⟨x', ?_⟩
    have e : P ++ (A ++ [a]) ++ x :: B = (P ++ A) ++ a :: x :: B := by simp
    have e2 : P ++ A ++ a :: x :: B = (P ++ A ++ [a]) ++ x :: B := by simp
    rw [List.length_append, List.length_singleton, forDown, shiftR, e,
      getAt_mid _ _ _ _ (by rw [hj]; simp; omega), Go.bind_ok, e2,
      setAt_mid _ _ _ _ _ (by rw [hj]; simp), Go.bind_ok]
    have e3 : P ++ A ++ [a] ++ a :: B = P ++ A ++ a :: a :: B := by simp
    rw [e3, h]
    simp

theorem forDown_shiftR2 {α β : Type} (P A : List α) (x : α) (B : List α) (Q C : List β) (y : β) (D : List β)
    (hPQ : P.length = Q.length) (hAC : A.length = C.length) (j : Int)
    (hj : j = (P.length + A.length : Nat) - 1) :
    ∃ x' y', forDown shiftR2 A.length j (P ++ A ++ x :: B, Q ++ C ++ y :: D) =
      .ok (P ++ x' :: (A ++ B), Q ++ y' :: (C ++ D)) := by
  induction A using snoc_induction generalizing x B C y D j with
  | nil =>
    have : C = [] := List.length_eq_zero_iff.1 hAC.symm
    subst this
    exact ⟨x, y, by simp [forDown]⟩
  | snoc A a ih =>
    have hne : C ≠ [] := by intro h'; rw [h'] at hAC; simp at hAC
    rw [← List.dropLast_concat_getLast hne]
    generalize C.getLast hne = c
    generalize hC' : C.dropLast = C'
    have hl : A.length = C'.length := by rw [← hC', List.length_dropLast, ← hAC]; simp
    obtain ⟨x', y', h⟩ := ih a (a :: B) C' c (c :: D) hl (j - 1) (by rw [hj]; simp; omega)
    refine ⟨x', y', ?_⟩
    have e : P ++ (A ++ [a]) ++ x :: B = (P ++ A) ++ a :: x :: B := by simp
    have e2 : P ++ A ++ a :: x :: B = (P ++ A ++ [a]) ++ x :: B := by simp
    have f : Q ++ (C' ++ [c]) ++ y :: D = (Q ++ C') ++ c :: y :: D := by simp
    have f2 : Q ++ C' ++ c :: y :: D = (Q ++ C' ++ [c]) ++ y :: D := by simp
    rw [List.length_append, List.length_singleton, forDown, shiftR2, e, f,
      getAt_mid _ _ _ _ (by rw [hj]; simp; omega), Go.bind_ok, e2,
      setAt_mid _ _ _ _ _ (by rw [hj]; simp), Go.bind_ok,
      getAt_mid _ _ _ _ (by rw [hj]; simp; omega), Go.bind_ok, f2,
      setAt_mid _ _ _ _ _ (by rw [hj]; simp; omega), Go.bind_ok, Go.bind_ok]
    have e3 : P ++ A ++ [a] ++ a :: B = P ++ A ++ a :: a :: B := by simp
    have f3 : Q ++ C' ++ [c] ++ c :: D = Q ++ C' ++ c :: c :: D := by simp
    rw [e3, f3, h]
    simp

/-! ### Where a key belongs -/

theorem locate (hc : LawfulCmp cmp) {l : List (κ × ν)} (hl : Ascending cmp l) (key : κ) :
    (∃ A b B, l = A ++ b :: B ∧ (∀ e ∈ A, cmp key e.1 = .gt) ∧ cmp key b.1 = .eq ∧
      (∀ e ∈ B, cmp key e.1 = .lt)) ∨
    (∃ A B, l = A ++ B ∧ (∀ e ∈ A, cmp key e.1 = .gt) ∧ (∀ e ∈ B, cmp key e.1 = .lt)) := by
  induction l with
  | nil => exact .inr ⟨[], [], rfl, by simp, by simp⟩
  | cons a l ih =>
    obtain ⟨h1, h2⟩ := List.pairwise_cons.1 hl
    cases h : cmp key a.1 with
    | lt =>
      refine .inr ⟨[], a :: l, rfl, by simp, ?_⟩
      intro e he
      rcases List.mem_cons.1 he with rfl | he
      · exact h
      · exact hc.lt_trans h (h1 e he)
    | eq =>
      refine .inl ⟨[], a, l, rfl, by simp, h, ?_⟩
      intro e he
      rw [hc.eq_left h]; exact h1 e he
    | gt =>
      rcases ih h2 with ⟨A, b, B, e, h3, h4, h5⟩ | ⟨A, B, e, h3, h4⟩
      · refine .inl ⟨a :: A, b, B, by rw [e]; rfl, ?_, h4, h5⟩
        intro x hx
        rcases List.mem_cons.1 hx with rfl | hx
        · exact h
        · exact h3 x hx
      · refine .inr ⟨a :: A, B, by rw [e]; rfl, ?_, h4⟩
        intro x hx
        rcases List.mem_cons.1 hx with rfl | hx
        · exact h
        · exact h3 x hx

theorem below_eq (hc : LawfulCmp cmp) {A B : List (κ × ν)} {key : κ} (hA : ∀ e ∈ A, cmp key e.1 = .gt)
    (hB : ∀ e ∈ B, cmp key e.1 = .lt) : OMap.below cmp (A ++ B) key = A := by
  unfold OMap.below
  rw [List.filter_append, List.filter_eq_self.2, List.filter_eq_nil_iff.2, List.append_nil]
  · intro e he
    rw [(hc.gt_iff _ _).2 (hB e he)]; decide
  · intro e he
    rw [(hc.lt_iff _ _).2 (hA e he)]; rfl

theorem above_eq (hc : LawfulCmp cmp) {A B : List (κ × ν)} {key : κ} (hA : ∀ e ∈ A, cmp key e.1 = .gt)
    (hB : ∀ e ∈ B, cmp key e.1 = .lt) : OMap.above cmp (A ++ B) key = B := by
  unfold OMap.above
  rw [List.filter_append, List.filter_eq_nil_iff.2, List.filter_eq_self.2, List.nil_append]
  · intro e he
    rw [(hc.gt_iff _ _).2 (hB e he)]; rfl
  · intro e he
    rw [(hc.lt_iff _ _).2 (hA e he)]; decide

theorem mem_found {A B : List (κ × ν)} {b : κ × ν} {key : κ} (hb : cmp key b.1 = .eq) :
    OMap.mem cmp (A ++ b :: B) key = true := OMap.mem_iff.2 ⟨b, by simp, hb⟩

theorem mem_fresh {A B : List (κ × ν)} {key : κ} (hA : ∀ e ∈ A, cmp key e.1 = .gt)
    (hB : ∀ e ∈ B, cmp key e.1 = .lt) : OMap.mem cmp (A ++ B) key = false := by
  rw [OMap.mem_false]
  intro e he
  rcases List.mem_append.1 he with h | h
  · rw [hA e h]; decide
  · rw [hB e h]; decide

theorem insert_fresh (hc : LawfulCmp cmp) {A B : List (κ × ν)} {key : κ} (hA : ∀ e ∈ A, cmp key e.1 = .gt)
    (hB : ∀ e ∈ B, cmp key e.1 = .lt) (v : ν) :
    OMap.insert cmp (A ++ B) key v = A ++ (key, v) :: B := by
  unfold OMap.insert
  rw [mem_fresh hA hB, below_eq hc hA hB, above_eq hc hA hB]
  rfl

theorem insert_found {A B : List (κ × ν)} {b : κ × ν} {key : κ} (hA : ∀ e ∈ A, cmp key e.1 = .gt)
    (hb : cmp key b.1 = .eq) (hB : ∀ e ∈ B, cmp key e.1 = .lt) (v : ν) :
    OMap.insert cmp (A ++ b :: B) key v = A ++ (b.1, v) :: B := by
  unfold OMap.insert
  rw [mem_found hb, if_pos rfl, List.map_append, List.map_cons, hb]
  have h1 : A.map (fun e => if cmp key e.1 == .eq then (e.1, v) else e) = A := by
    conv => rhs; rw [← List.map_id A]
    refine List.map_congr_left ?_
    intro e he; rw [hA e he]; rfl
  have h2 : B.map (fun e => if cmp key e.1 == .eq then (e.1, v) else e) = B := by
    conv => rhs; rw [← List.map_id B]
    refine List.map_congr_left ?_
    intro e he; rw [hB e he]; rfl
  rw [h1, h2]; rfl

theorem remove_found {A B : List (κ × ν)} {b : κ × ν} {key : κ} (hA : ∀ e ∈ A, cmp key e.1 = .gt)
    (hb : cmp key b.1 = .eq) (hB : ∀ e ∈ B, cmp key e.1 = .lt) :
    OMap.remove cmp (A ++ b :: B) key = A ++ B := by
  unfold OMap.remove
  rw [List.filter_append, List.filter_cons, hb]
  rw [List.filter_eq_self.2, List.filter_eq_self.2]
  · rfl
  · intro e he; rw [hB e he]; rfl
  · intro e he; rw [hA e he]; rfl

theorem remove_fresh {A B : List (κ × ν)} {key : κ} (hA : ∀ e ∈ A, cmp key e.1 = .gt)
    (hB : ∀ e ∈ B, cmp key e.1 = .lt) :
    OMap.remove cmp (A ++ B) key = A ++ B := by
  unfold OMap.remove
  rw [List.filter_eq_self.2]
  intro e he
  rcases List.mem_append.1 he with h | h
  · rw [hA e h]; rfl
  · rw [hB e h]; rfl

theorem lookup_found (hc : LawfulCmp cmp) {A B : List (κ × ν)} {b : κ × ν} {key : κ}
    (hl : Ascending cmp (A ++ b :: B)) (hb : cmp key b.1 = .eq) :
    OMap.lookup cmp (A ++ b :: B) key = some b.2 :=
  OMap.lookup_getElem hc hl (i := A.length) (by simp) hb

theorem lookup_fresh {A B : List (κ × ν)} {key : κ} (hA : ∀ e ∈ A, cmp key e.1 = .gt)
    (hB : ∀ e ∈ B, cmp key e.1 = .lt) : OMap.lookup cmp (A ++ B) key = none :=
  OMap.lookup_eq_none.2 (mem_fresh hA hB)

theorem searchIdx_skip {A : List (κ × ν)} {key : κ} (hA : ∀ e ∈ A, cmp key e.1 = .gt) (t : List (Option κ)) :
    searchIdx cmp key (kS A ++ t) = A.length + searchIdx cmp key t := by
  induction A with
  | nil => simp
  | cons a A ih =>
    rw [kS_cons, List.cons_append, searchIdx, if_pos (hA a List.mem_cons_self),
      ih fun e he => hA e (List.mem_cons_of_mem _ he)]
    simp; omega

theorem searchIdx_stop {k key : κ} (h : cmp key k ≠ .gt) (t : List (Option κ)) :
    searchIdx cmp key (some k :: t) = 0 := by
  rw [searchIdx, if_neg h]

/-! ### Search -/

theorem search_found {h : BStore κ ν} {a d : Nat} {node : BNode κ ν} (hn : h[a]? = some node)
    {A B : List (κ × ν)} {b : κ × ν} {key : κ} {t : List (Option κ)} (hk : node.keys = kS (A ++ b :: B) ++ t)
    (hA : ∀ e ∈ A, cmp key e.1 = .gt) (hb : cmp key b.1 = .eq) :
    search cmp h key (d + 1) a = .ok (some (a, A.length)) := by
  have hi : searchIdx cmp key node.keys = A.length := by
    rw [hk, kS_append, List.append_assoc, searchIdx_skip hA, kS_cons, List.cons_append,
      searchIdx_stop (by rw [hb]; decide)]; rfl
  have hi' : node.keys[A.length]? = some (some b.1) := by rw [hk]; simp
  simp only [search, load, hn, deref_some, Go.bind_ok, hi, hi', hb, if_true]

/-- A leaf (or the empty slots after it) without the key. -/
theorem search_fresh_leaf {h : BStore κ ν} {a d : Nat} {node : BNode κ ν} (hn : h[a]? = some node)
    (hleaf : node.leaf = true) {A B : List (κ × ν)} {key : κ} {c : Nat}
    (hk : node.keys = kS (A ++ B) ++ List.replicate c none)
    (hA : ∀ e ∈ A, cmp key e.1 = .gt) (hB : ∀ e ∈ B, cmp key e.1 = .lt) :
    search cmp h key (d + 1) a = .ok none := by
  cases B with
  | nil =>
    have hi : searchIdx cmp key node.keys = A.length := by
      rw [hk, List.append_nil, searchIdx_skip hA]
      cases c <;> simp [searchIdx, List.replicate_succ]
    have hi' : node.keys[A.length]? = none ∨ node.keys[A.length]? = some none := by
      rw [hk]; cases c <;> simp [List.replicate_succ]
    rcases hi' with hi' | hi' <;>
      simp only [search, load, hn, deref_some, Go.bind_ok, hi, hi', hleaf, if_true]
  | cons b B =>
    have hb := hB b List.mem_cons_self
    have hi : searchIdx cmp key node.keys = A.length := by
      rw [hk, kS_append, List.append_assoc, searchIdx_skip hA, kS_cons, List.cons_append,
        searchIdx_stop (by rw [hb]; decide)]; rfl
    have hi' : node.keys[A.length]? = some (some b.1) := by rw [hk]; simp
    simp only [search, load, hn, deref_some, Go.bind_ok, hi, hi', hb, hleaf, if_true]
    rfl

/-- An internal node without the key: the search goes on in the child before the first larger key. -/
theorem search_fresh_node {h : BStore κ ν} {a d : Nat} {node : BNode κ ν} (hn : h[a]? = some node)
    (hleaf : node.leaf = false) {A B : List (κ × ν)} {key : κ} {t : List (Option κ)}
    (hk : node.keys = kS (A ++ B) ++ none :: t)
    (hA : ∀ e ∈ A, cmp key e.1 = .gt) (hB : ∀ e ∈ B, cmp key e.1 = .lt) {ch : Nat}
    (hch : node.childs[A.length]? = some (some ch)) :
    search cmp h key (d + 1) a = search cmp h key d ch := by
  have hg : getAt node.childs (A.length : Int) = .ok (some ch) := by
    unfold getAt
    rw [if_neg (by omega), Int.toNat_natCast, index, hch]
  cases B with
  | nil =>
    have hi : searchIdx cmp key node.keys = A.length := by
      rw [hk, List.append_nil, searchIdx_skip hA]
      simp [searchIdx]
    have hi' : node.keys[A.length]? = some none := by rw [hk]; simp
    simp only [search, load, hn, deref_some, Go.bind_ok, hi, hi', hleaf]
    simp [hg]
  | cons b B =>
    have hb := hB b List.mem_cons_self
    have hi : searchIdx cmp key node.keys = A.length := by
      rw [hk, kS_append, List.append_assoc, searchIdx_skip hA, kS_cons, List.cons_append,
        searchIdx_stop (by rw [hb]; decide)]; rfl
    have hi' : node.keys[A.length]? = some (some b.1) := by rw [hk]; simp
    simp only [search, load, hn, deref_some, Go.bind_ok, hi, hi', hb, hleaf]
    simp [hg]

/-! ### Insertion into a leaf -/

theorem leafLoop_eq {A B : List (κ × ν)} {key : κ} (hA : ∀ e ∈ A, cmp e.1 key ≠ .gt)
    (hB : ∀ e ∈ B, cmp e.1 key = .gt) (x : Option κ) (y : Option ν) (t : List (Option κ)) (u : List (Option ν)) :
    ∃ x' y', leafLoop cmp key (A ++ B).length (kS (A ++ B) ++ x :: t) (vS (A ++ B) ++ y :: u) =
      .ok (kS A ++ x' :: (kS B ++ t), vS A ++ y' :: (vS B ++ u), A.length) := by
  induction B using snoc_induction generalizing x y t u with
  | nil =>
    refine ⟨x, y, ?_⟩
    cases A using snoc_induction with
    | nil => simp [leafLoop]
    | snoc A a _ =>
      have ha := hA a (by simp)
      have e : kS (A ++ [a] ++ []) ++ x :: t = kS A ++ some a.1 :: x :: t := by simp
      have : (A ++ [a] ++ []).length = A.length + 1 := by simp
      rw [this, leafLoop, e]
      have := index_mid (kS A) (some a.1) (x :: t)
      rw [kS_length] at this
      rw [this, Go.bind_ok]
      simp only [ha, if_false]
      simp
  | snoc B b ih =>
    have hb := hB b (by simp)
    obtain ⟨x', y', h⟩ := ih (fun e he => hB e (by simp [he])) (some b.1) (some b.2) (some b.1 :: t) (some b.2 :: u)
    refine ⟨x', y', ?_⟩
    have hl : (A ++ (B ++ [b])).length = (A ++ B).length + 1 := by
      simp only [List.length_append, List.length_singleton]; omega
    have e : kS (A ++ (B ++ [b])) ++ x :: t = kS (A ++ B) ++ some b.1 :: x :: t := by simp
    have f : vS (A ++ (B ++ [b])) ++ y :: u = vS (A ++ B) ++ some b.2 :: y :: u := by simp
    have e2 : kS (A ++ B) ++ some b.1 :: x :: t = kS (A ++ B ++ [b]) ++ x :: t := by simp
    have f2 : vS (A ++ B) ++ some b.2 :: y :: u = vS (A ++ B ++ [b]) ++ y :: u := by simp
    have i1 := index_mid (kS (A ++ B)) (some b.1) (x :: t)
    have i2 := index_mid (vS (A ++ B)) (some b.2) (y :: u)
    have s1 := setIndex_mid (kS (A ++ B ++ [b])) x (some b.1) t
    have s2 := setIndex_mid (vS (A ++ B ++ [b])) y (some b.2) u
    rw [kS_length] at i1 s1
    rw [vS_length] at i2 s2
    have hl2 : (A ++ B ++ [b]).length = (A ++ B).length + 1 := by
      simp only [List.length_append, List.length_singleton]
    rw [hl2] at s1 s2
    rw [hl, leafLoop, e, f, i1, Go.bind_ok]
    simp only [hb, if_true]
    rw [e2, s1, Go.bind_ok, i2, Go.bind_ok, f2, s2, Go.bind_ok]
    have e3 : kS (A ++ B ++ [b]) ++ some b.1 :: t = kS (A ++ B) ++ some b.1 :: some b.1 :: t := by simp
    have f3 : vS (A ++ B ++ [b]) ++ some b.2 :: u = vS (A ++ B) ++ some b.2 :: some b.2 :: u := by simp
    rw [e3, f3, h]
    simp

theorem insertLeaf_eq (hc : LawfulCmp cmp) {h : BStore κ ν} {a : Nat} {node : BNode κ ν}
    (hn : h[a]? = some node) {A B : List (κ × ν)} {key : κ} (hA : ∀ e ∈ A, cmp key e.1 = .gt)
    (hB : ∀ e ∈ B, cmp key e.1 = .lt) (x : Option κ) (y : Option ν) (t : List (Option κ)) (u : List (Option ν))
    (hk : node.keys = kS (A ++ B) ++ x :: t) (hv : node.values = vS (A ++ B) ++ y :: u)
    (hlen : node.n = ((A ++ B).length : Nat)) (value : ν) :
    insertLeaf cmp h a key value = .ok (h.set a { node with
      keys := kS (A ++ (key, value) :: B) ++ t
      values := vS (A ++ (key, value) :: B) ++ u
      n := node.n + 1 }) := by
  obtain ⟨x', y', hl⟩ := leafLoop_eq (cmp := cmp) (key := key) (A := A) (B := B)
    (fun e he => by rw [(hc.lt_iff _ _).2 (hA e he)]; decide) (fun e he => (hc.gt_iff _ _).2 (hB e he)) x y t u
  have s1 := setIndex_mid (kS A) x' (some key) (kS B ++ t)
  have s2 := setIndex_mid (vS A) y' (some value) (vS B ++ u)
  rw [kS_length] at s1
  rw [vS_length] at s2
  have hlen' : node.n.toNat = (A ++ B).length := by rw [hlen, Int.toNat_natCast]
  unfold insertLeaf
  simp only [load, hn, deref_some, Go.bind_ok]
  rw [hlen', hk, hv, hl, Go.bind_ok]
  simp only
  rw [if_neg (by omega), s1, Go.bind_ok, s2, Go.bind_ok]
  simp

theorem load_of {h : BStore κ ν} {a : Nat} {node : BNode κ ν} (hn : h[a]? = some node) :
    load h (some a) = .ok node := by simp [load, hn]

theorem splitChild_eq {h : BStore κ ν} {a y : Nat} {self yn : BNode κ ν} (ha : h[a]? = some self)
    (hy : h[y]? = some yn) (hay : a ≠ y) (hdeg : self.minDeg = 11) (hleaf : yn.leaf = true) (hyd : yn.minDeg = 0)
    {i : Nat} {PK AK BK : List (Option κ)} {x : Option κ} {PV AV BV : List (Option ν)} {v : Option ν}
    {PC AC BC : List (Option Nat)} {c : Option Nat} {ky : Option κ} {vy : Option ν}
    (hk : self.keys = PK ++ AK ++ x :: BK) (hv : self.values = PV ++ AV ++ v :: BV)
    (hcs : self.childs = PC ++ AC ++ c :: BC) (hPK : PK.length = i) (hPV : PV.length = i)
    (hPC : PC.length = i + 1) (hn : self.n = ((PK ++ AK).length : Nat) - 1)
    (hAV : AV.length = AK.length) (hAC : AC.length + 1 = AK.length)
    (hky : yn.keys[10]? = some ky) (hvy : yn.values[10]? = some vy) :
    splitChild h a i y = .ok (((h ++ [blank true 0 10]).set y { yn with n := 10 }).set a { self with
      keys := PK ++ ky :: (AK ++ BK)
      values := PV ++ vy :: (AV ++ BV)
      childs := PC ++ some h.length :: (AC ++ BC)
      n := self.n + 1 }) := by
  obtain ⟨sl, sd, sk, sv, sn, sc⟩ := self
  obtain ⟨yl, yd, yk, yv, yn, yc⟩ := yn
  simp only at hdeg hleaf hyd hk hv hcs hn hky hvy
  subst hdeg hleaf hyd hk hv hcs
  have hla := (List.getElem?_eq_some_iff.1 ha).1
  have hload : load ((h ++ [blank true 0 10]).set y ⟨true, 0, yk, yv, 10, yc⟩) (some a) =
      .ok ⟨sl, 11, PK ++ AK ++ x :: BK, PV ++ AV ++ v :: BV, sn, PC ++ AC ++ c :: BC⟩ := by
    simp only [load, List.getElem?_set, if_neg (Ne.symm hay)]
    rw [List.getElem?_append_left hla, ha]; rfl
  obtain ⟨c', hc'⟩ := forDown_shiftR PC AC c BC sn (by rw [hn]; simp; omega)
  obtain ⟨x', v', hx'⟩ := forDown_shiftR2 PK AK x BK PV AV v BV (by omega) (by omega) sn (by rw [hn]; simp)
  have e1 : (sn - i).toNat = AC.length := by rw [hn]; simp; omega
  have e2 : (sn - i + 1).toNat = AK.length := by rw [hn]; simp; omega
  have g1 : getAt yk (11 - 1) = .ok ky := by
    show getAt yk 10 = _
    unfold getAt; rw [if_neg (by omega)]; show index yk 10 = _; rw [index, hky]
  have g2 : getAt yv (11 - 1) = .ok vy := by
    show getAt yv 10 = _
    unfold getAt; rw [if_neg (by omega)]; show index yv 10 = _; rw [index, hvy]
  have l1 := load_of ha
  have l2 := load_of hy
  have z1 : (blank true 0 (11 - 1) : BNode κ ν).minDeg.toNat = 0 := rfl
  have e3 : ({ (blank true 0 (11 - 1) : BNode κ ν) with
    keys := (blank true 0 (11 - 1) : BNode κ ν).keys, values := (blank true 0 (11 - 1) : BNode κ ν).values,
    childs := (blank true 0 (11 - 1) : BNode κ ν).childs }) = blank true 0 10 := rfl
  have e4 : (11 - 1 : Int) = 10 := rfl
  unfold splitChild
  simp only [l1, l2, Go.bind_ok, z1, forUp, Bool.not_true, Bool.false_eq_true, if_false, e3]
  simp only [e4]
  rw [hload]
  simp only [Go.bind_ok, e1, e2]
  rw [hc', hx', Go.bind_ok]
  rw [setAt_mid PC _ _ _ _ (by omega), Go.bind_ok, Go.bind_ok]
  simp only
  rw [← e4, g1, Go.bind_ok, setAt_mid PK _ _ _ _ (by omega), Go.bind_ok, g2, Go.bind_ok,
    setAt_mid PV _ _ _ _ (by omega), Go.bind_ok]
/-! ### The shapes that represent an ordered list -/

/-- A leaf holding exactly the entries `l`. -/
def LeafAt (h : BStore κ ν) (a : Nat) (l : List (κ × ν)) : Prop :=
  l.length ≤ 11 ∧ ∃ cs, h[a]? = some ⟨true, 0, kS l ++ List.replicate (11 - l.length) none,
    vS l ++ List.replicate (11 - l.length) none, l.length, cs⟩

/-- A leaf with empty slots that is counted as having ten keys (as made by splitChild). -/
def EmptyAt (h : BStore κ ν) (a : Nat) : Prop :=
  ∃ cs, h[a]? = some ⟨true, 0, List.replicate 11 none, List.replicate 11 none, 10, cs⟩

/-- The shapes: nothing, one leaf, or a root whose first child has the eleven smallest entries while all
other children are empty.  The last argument lists the nodes. -/
inductive Tree (h : BStore κ ν) : Option Nat → List (κ × ν) → List Nat → Prop
  | nil : Tree h none [] []
  | leaf {a : Nat} {l : List (κ × ν)} : l ≠ [] → LeafAt h a l → Tree h (some a) l [a]
  | node {a y : Nat} {zs : List Nat} {Y R : List (κ × ν)} : Y.length = 11 → R ≠ [] → R.length ≤ 10 →
      LeafAt h y Y →
      h[a]? = some ⟨false, 11, kS R ++ List.replicate (11 - R.length) none,
        vS R ++ List.replicate (11 - R.length) none, R.length,
        some y :: (zs.map some ++ List.replicate (11 - R.length) none)⟩ →
      zs.length = R.length → (∀ z ∈ zs, EmptyAt h z) → zs.Nodup → Tree h (some a) (Y ++ R) (a :: y :: zs)

theorem LeafAt.congr {h h' : BStore κ ν} {a : Nat} {l : List (κ × ν)} (hl : LeafAt h a l) (he : h'[a]? = h[a]?) :
    LeafAt h' a l := by
  obtain ⟨h1, cs, h2⟩ := hl
  exact ⟨h1, cs, by rw [he, h2]⟩

theorem EmptyAt.congr {h h' : BStore κ ν} {a : Nat} (hl : EmptyAt h a) (he : h'[a]? = h[a]?) :
    EmptyAt h' a := by
  obtain ⟨cs, h2⟩ := hl
  exact ⟨cs, by rw [he, h2]⟩

theorem Tree.congr {h h' : BStore κ ν} {r : Option Nat} {l : List (κ × ν)} {fp : List Nat}
    (ht : Tree h r l fp) (he : ∀ a ∈ fp, h'[a]? = h[a]?) : Tree h' r l fp := by
  cases ht with
  | nil => exact .nil
  | leaf h1 h2 => exact .leaf h1 (h2.congr (he _ (by simp)))
  | node h1 h2 h3 h4 h5 h6 h7 h8 =>
    refine .node h1 h2 h3 (h4.congr (he _ (by simp))) ?_ h6 ?_ h8
    · rw [he _ (by simp), h5]
    · intro z hz
      exact (h7 z hz).congr (he _ (by simp [hz]))

theorem LeafAt.lt {h : BStore κ ν} {a : Nat} {l : List (κ × ν)} (hl : LeafAt h a l) : a < h.length := by
  obtain ⟨_, cs, h2⟩ := hl
  exact (List.getElem?_eq_some_iff.1 h2).1
theorem EmptyAt.lt {h : BStore κ ν} {a : Nat} (hl : EmptyAt h a) : a < h.length := by
  obtain ⟨cs, h2⟩ := hl
  exact (List.getElem?_eq_some_iff.1 h2).1
theorem Tree.lt {h : BStore κ ν} {r : Option Nat} {l : List (κ × ν)} {fp : List Nat}
    (ht : Tree h r l fp) : ∀ a ∈ fp, a < h.length := by
  cases ht with
  | nil => simp
  | leaf h1 h2 => intro a ha; simp at ha; rw [ha]; exact h2.lt
  | node h1 h2 h3 h4 h5 h6 h7 h8 =>
    intro a ha
    rcases List.mem_cons.1 ha with rfl | ha
    · exact (List.getElem?_eq_some_iff.1 h5).1
    rcases List.mem_cons.1 ha with rfl | ha
    · exact h4.lt
    · exact (h7 a ha).lt

/-- A map whose nodes `fp` represent the ordered list `l`. -/
structure Good (cmp : κ → κ → Ordering) (h : BStore κ ν) (m : BMap) (l : List (κ × ν)) (fp : List Nat) :
    Prop where
  asc : Ascending cmp l
  len : m.len = l.length
  tree : Tree h m.root l fp

theorem Good.congr {h h' : BStore κ ν} {m : BMap} {l : List (κ × ν)} {fp : List Nat}
    (hg : Good cmp h m l fp) (he : ∀ a ∈ fp, h'[a]? = h[a]?) : Good cmp h' m l fp :=
  ⟨hg.asc, hg.len, hg.tree.congr he⟩

theorem Good.new (h : BStore κ ν) : Good cmp h BMap.new [] [] := ⟨.nil, rfl, .nil⟩

/-- Searching a tree: the slot of the key, or nothing. -/
theorem Tree.search (hc : LawfulCmp cmp) {h : BStore κ ν} {a : Nat} {l : List (κ × ν)} {fp : List Nat}
    (hl : Ascending cmp l) (ht : Tree h (some a) l fp) (key : κ) :
    (∃ A b B p node i, l = A ++ b :: B ∧ (∀ e ∈ A, cmp key e.1 = .gt) ∧ cmp key b.1 = .eq ∧
        (∀ e ∈ B, cmp key e.1 = .lt) ∧
        BTree.search cmp h key (h.length + 1) a = .ok (some (p, i)) ∧ p ∈ fp ∧ h[p]? = some node ∧
        node.values[i]? = some (some b.2) ∧
        ∀ v, Tree (h.set p { node with values := node.values.set i (some v) }) (some a)
          (A ++ (b.1, v) :: B) fp) ∨
    (∃ A B, l = A ++ B ∧ (∀ e ∈ A, cmp key e.1 = .gt) ∧ (∀ e ∈ B, cmp key e.1 = .lt) ∧
      BTree.search cmp h key (h.length + 1) a = .ok none) := by
  cases ht with
  | leaf h1 h2 =>
    obtain ⟨h2, cs, h3⟩ := h2
    rcases locate hc hl key with ⟨A, b, B, e, hA, hb, hB⟩ | ⟨A, B, e, hA, hB⟩
    · refine .inl ⟨A, b, B, a, _, A.length, e, hA, hb, hB, ?_, by simp, h3, ?_, ?_⟩
      · exact search_found h3 (t := List.replicate (11 - l.length) none) (by rw [e]) hA hb
      · rw [e]; simp
      · intro v
        refine .leaf (by simp) ⟨?_, cs, ?_⟩
        · rw [e] at h2; simpa using h2
        · rw [List.getElem?_set_self (List.getElem?_eq_some_iff.1 h3).1]
          simp [e]
    · refine .inr ⟨A, B, e, hA, hB, ?_⟩
      exact search_fresh_leaf h3 rfl (c := 11 - l.length) (by rw [e]) hA hB
  | @node _ y zs Y R h1 h2 h3 h4 h5 h6 h7 h8 =>
    have hR : Ascending cmp R := (List.pairwise_append.1 hl).2.1
    have hY : Ascending cmp Y := (List.pairwise_append.1 hl).1
    have hYR := (List.pairwise_append.1 hl).2.2
    have hd : ∃ d, h.length = d + 1 := ⟨h.length - 1, by have := h4.lt; omega⟩
    obtain ⟨d, hd⟩ := hd
    have ht : ∃ t : List (Option κ), List.replicate (11 - R.length) none = none :: t :=
      ⟨List.replicate (10 - R.length) none, by
        have : 11 - R.length = (10 - R.length) + 1 := by omega
        rw [this, List.replicate_succ]⟩
    obtain ⟨t, ht⟩ := ht
    have hay : a ≠ y := by
      rintro rfl
      obtain ⟨_, cs, h'⟩ := h4
      rw [h5] at h'; simp at h'
    have haz : ∀ z ∈ zs, a ≠ z := by
      rintro z hz rfl
      obtain ⟨cs, h'⟩ := h7 _ hz
      rw [h5] at h'; simp at h'
    have hyz : ∀ z ∈ zs, y ≠ z := by
      rintro z hz rfl
      obtain ⟨cs, h'⟩ := h7 _ hz
      obtain ⟨_, cs', h''⟩ := h4
      rw [h''] at h'
      simp only [Option.some.injEq, BNode.mk.injEq] at h'
      omega
    rcases locate hc hR key with ⟨A, b, B, e, hA, hb, hB⟩ | ⟨A, B, e, hA, hB⟩
    · refine .inl ⟨Y ++ A, b, B, a, _, A.length, by rw [e]; simp, ?_, hb, hB, ?_, by simp, h5, ?_, ?_⟩
      · intro x hx
        rcases List.mem_append.1 hx with hx | hx
        · have := hYR x hx b (by rw [e]; simp)
          rw [hc.eq_left hb, ← hc.lt_iff]; exact this
        · exact hA x hx
      · exact search_found h5 (t := List.replicate (11 - R.length) none) (by rw [e]) hA hb
      · rw [e]; simp
      · intro v
        have hR' : (A ++ (b.1, v) :: B).length = R.length := by rw [e]; simp
        have : Y ++ A ++ (b.1, v) :: B = Y ++ (A ++ (b.1, v) :: B) := by simp
        rw [this]
        refine .node h1 (by simp) (by omega) ?_ ?_ (by omega) ?_ h8
        · exact h4.congr (by rw [List.getElem?_set_ne hay])
        · rw [List.getElem?_set_self (List.getElem?_eq_some_iff.1 h5).1, hR', e]
          simp
        · intro z hz
          exact (h7 z hz).congr (by rw [List.getElem?_set_ne (haz z hz)])
    · cases A with
      | nil =>
        have hgo : BTree.search cmp h key (h.length + 1) a = BTree.search cmp h key h.length y :=
          search_fresh_node h5 rfl (A := []) (B := B) (by rw [ht, e]) hA hB (by simp)
        simp only [List.nil_append] at e
        subst e
        rw [hgo, hd]
        obtain ⟨h2', cs, h3'⟩ := h4
        rcases locate hc hY key with ⟨A', b', B', e', hA', hb', hB'⟩ | ⟨A', B', e', hA', hB'⟩
        · refine .inl ⟨A', b', B' ++ R, y, _, A'.length, by rw [e']; simp, hA', hb', ?_, ?_, by simp, h3', ?_, ?_⟩
          · intro x hx
            rcases List.mem_append.1 hx with hx | hx
            · exact hB' x hx
            · exact hB x hx
          · exact search_found h3' (t := List.replicate (11 - Y.length) none) (by rw [e']) hA' hb'
          · rw [e']; simp
          · intro v
            have hY' : (A' ++ (b'.1, v) :: B').length = Y.length := by rw [e']; simp
            have : A' ++ (b'.1, v) :: (B' ++ R) = (A' ++ (b'.1, v) :: B') ++ R := by simp
            rw [this]
            refine .node (by omega) h2 h3 ⟨by omega, cs, ?_⟩ ?_ h6 ?_ h8
            · rw [List.getElem?_set_self (List.getElem?_eq_some_iff.1 h3').1, hY', e']
              simp
            · rw [List.getElem?_set_ne (Ne.symm hay), h5]
            · intro z hz
              exact (h7 z hz).congr (by rw [List.getElem?_set_ne (hyz z hz)])
        · refine .inr ⟨A', B' ++ R, by rw [e']; simp, hA', ?_, ?_⟩
          · intro x hx
            rcases List.mem_append.1 hx with hx | hx
            · exact hB' x hx
            · exact hB x hx
          · exact search_fresh_leaf h3' rfl (c := 11 - Y.length) (by rw [e']) hA' hB'
      | cons r A =>
        have hr := hA r List.mem_cons_self
        have hlt : A.length < zs.length := by rw [h6, e]; simp; omega
        obtain ⟨cs, hz⟩ := h7 zs[A.length] (List.getElem_mem hlt)
        have hgo : BTree.search cmp h key (h.length + 1) a = BTree.search cmp h key h.length zs[A.length] :=
          search_fresh_node h5 rfl (A := r :: A) (B := B) (by rw [ht, e]) hA hB (by
            simp [List.getElem?_append_left, hlt])
        refine .inr ⟨Y ++ r :: A, B, by rw [e]; simp, ?_, hB, ?_⟩
        · intro x hx
          rcases List.mem_append.1 hx with hx | hx
          · have := hYR x hx r (by rw [e]; simp)
            rw [hc.gt_iff]
            exact hc.lt_trans this ((hc.lt_iff _ _).2 hr)
          · exact hA x hx
        · rw [hgo, hd]
          exact search_fresh_leaf hz rfl (A := []) (B := []) (c := 11) rfl (by simp) (by simp)
end Gost.BTree
