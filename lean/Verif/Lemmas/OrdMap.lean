import Verif.Spec.OrdMap
/-
Laws of the ordered association lists of Spec/OrdMap.lean: they are finite maps.
-/
namespace Gost.Spec
variable {κ ν : Type} {cmp : κ → κ → Ordering}

namespace LawfulCmp
variable (hc : LawfulCmp cmp)
include hc

theorem refl (a : κ) : cmp a a = .eq := by
  have := hc.swap a a
  cases h : cmp a a <;> rw [h] at this <;> simp_all [Ordering.swap]

theorem gt_iff (a b : κ) : cmp a b = .gt ↔ cmp b a = .lt := by
  rw [hc.swap a b]; cases cmp a b <;> simp [Ordering.swap]

theorem lt_iff (a b : κ) : cmp a b = .lt ↔ cmp b a = .gt := by
  rw [hc.swap a b]; cases cmp a b <;> simp [Ordering.swap]

theorem eq_comm (a b : κ) : cmp a b = .eq ↔ cmp b a = .eq := by
  rw [hc.swap a b]; cases cmp a b <;> simp [Ordering.swap]

theorem lt_trans' {a b c : κ} (h1 : cmp a b ≠ .gt) (h2 : cmp b c = .lt) : cmp a c = .lt := by
  cases h : cmp a c with
  | lt => rfl
  | eq =>
    exfalso
    have := hc.trans c a b (by rw [(hc.eq_comm a c).1 h]; decide) h1
    exact this ((hc.lt_iff _ _).1 h2)
  | gt =>
    exfalso
    exact hc.trans a b c h1 (by rw [h2]; decide) h

theorem lt_trans'' {a b c : κ} (h1 : cmp a b = .lt) (h2 : cmp b c ≠ .gt) : cmp a c = .lt := by
  cases h : cmp a c with
  | lt => rfl
  | eq =>
    exfalso
    have := hc.trans b c a h2 (by rw [(hc.eq_comm a c).1 h]; decide)
    exact this ((hc.lt_iff _ _).1 h1)
  | gt =>
    exfalso
    exact hc.trans a b c (by rw [h1]; decide) h2 h

theorem lt_trans {a b c : κ} (h1 : cmp a b = .lt) (h2 : cmp b c = .lt) : cmp a c = .lt :=
  hc.lt_trans'' h1 (by rw [h2]; decide)

theorem eq_left {a b : κ} (h : cmp a b = .eq) (c : κ) : cmp a c = cmp b c := by
  cases h1 : cmp b c with
  | lt => exact hc.lt_trans' (by rw [h]; decide) h1
  | gt =>
    rw [hc.gt_iff] at h1 ⊢
    exact hc.lt_trans'' h1 (by rw [(hc.eq_comm a b).1 h]; decide)
  | eq =>
    have a1 := hc.trans a b c (by rw [h]; decide) (by rw [h1]; decide)
    have a2 := hc.trans c b a (by rw [(hc.eq_comm b c).1 h1]; decide) (by rw [(hc.eq_comm a b).1 h]; decide)
    rw [Ne, hc.gt_iff] at a2
    cases h2 : cmp a c <;> simp_all

theorem eq_right {a b : κ} (h : cmp a b = .eq) (c : κ) : cmp c a = cmp c b := by
  rw [hc.swap a c, hc.swap b c, hc.eq_left h]
end LawfulCmp

namespace OMap

theorem mem_iff {l : List (κ × ν)} {k : κ} : mem cmp l k = true ↔ ∃ e ∈ l, cmp k e.1 = .eq := by
  simp [mem]

theorem mem_false {l : List (κ × ν)} {k : κ} : mem cmp l k = false ↔ ∀ e ∈ l, cmp k e.1 ≠ .eq := by
  simp [mem]

theorem lookup_isSome (l : List (κ × ν)) (k : κ) : (lookup cmp l k).isSome = mem cmp l k := by
  unfold lookup mem
  rw [Option.isSome_map, Bool.eq_iff_iff, List.find?_isSome, List.any_eq_true]

theorem lookup_eq_none {l : List (κ × ν)} {k : κ} : lookup cmp l k = none ↔ mem cmp l k = false := by
  rw [← lookup_isSome]; cases lookup cmp l k <;> simp

theorem lookup_cons (e : κ × ν) (l : List (κ × ν)) (k : κ) :
    lookup cmp (e :: l) k = if cmp k e.1 = .eq then some e.2 else lookup cmp l k := by
  unfold lookup
  rw [List.find?_cons]
  by_cases h : cmp k e.1 = .eq
  · rw [if_pos h, h]; rfl
  · have h' : (cmp k e.1 == .eq) = false := by simp [h]
    rw [if_neg h, h']

theorem lookup_nil (k : κ) : lookup cmp ([] : List (κ × ν)) k = none := rfl

theorem lookup_append (l m : List (κ × ν)) (k : κ) :
    lookup cmp (l ++ m) k = (lookup cmp l k).or (lookup cmp m k) := by
  unfold lookup
  rw [List.find?_append]
  cases List.find? (fun e => cmp k e.fst == Ordering.eq) l <;> simp

variable (hc : LawfulCmp cmp)
include hc

/-- In an ascending list, a key is the key of at most one entry. -/
theorem lookup_getElem {l : List (κ × ν)} (hl : Ascending cmp l) {k : κ} {i : Nat} {e : κ × ν}
    (hi : l[i]? = some e) (he : cmp k e.1 = .eq) : lookup cmp l k = some e.2 := by
  induction l generalizing i with
  | nil => simp at hi
  | cons a l ih =>
    obtain ⟨h1, h2⟩ := List.pairwise_cons.1 hl
    rw [lookup_cons]
    cases i with
    | zero =>
      simp only [List.getElem?_cons_zero, Option.some.injEq] at hi
      subst hi
      rw [if_pos he]
    | succ i =>
      simp only [List.getElem?_cons_succ] at hi
      have := h1 e (List.mem_of_getElem? hi)
      rw [hc.eq_left he, hc.lt_iff] at *
      rw [if_neg, ih h2 hi]
      rw [hc.eq_left he, this]; decide

theorem lookup_map_set (l : List (κ × ν)) (k k' : κ) (v : ν) :
    lookup cmp (l.map fun e => if cmp k e.1 == .eq then (e.1, v) else e) k' =
      if cmp k' k = .eq then (if mem cmp l k then some v else none) else lookup cmp l k' := by
  induction l with
  | nil => simp [lookup, mem]
  | cons a l ih =>
    have hm : mem cmp (a :: l) k = (cmp k a.1 == .eq || mem cmp l k) := rfl
    rw [List.map_cons, lookup_cons, ih, hm, lookup_cons]
    by_cases h : cmp k a.1 = .eq
    · simp only [h, beq_self_eq_true, if_true, Bool.true_or]
      rw [hc.eq_right h k']
      by_cases h2 : cmp k' a.1 = .eq
      · rw [if_pos h2, if_pos h2]
      · rw [if_neg h2, if_neg h2, if_neg h2, if_neg h2]
    · have h' : (cmp k a.1 == .eq) = false := by simp [h]
      simp only [h', Bool.false_eq_true, if_false, Bool.false_or]
      by_cases h2 : cmp k' k = .eq
      · rw [if_neg (by rw [hc.eq_left h2]; exact h), if_pos h2, if_pos h2]
      · rw [if_neg h2, if_neg h2]

theorem lookup_below (l : List (κ × ν)) (k k' : κ) :
    lookup cmp (below cmp l k) k' = if cmp k' k = .lt then lookup cmp l k' else none := by
  induction l with
  | nil => simp [below, lookup]
  | cons a l ih =>
    have : below cmp (a :: l) k = if cmp a.1 k = .lt then a :: below cmp l k else below cmp l k := by
      unfold below
      rw [List.filter_cons]
      by_cases h : cmp a.1 k = .lt <;> simp [h]
    rw [this]
    by_cases h : cmp a.1 k = .lt
    · rw [if_pos h, lookup_cons, lookup_cons, ih]
      by_cases h2 : cmp k' a.1 = .eq
      · rw [if_pos h2, if_pos h2, hc.eq_left h2, if_pos h]
      · rw [if_neg h2, if_neg h2]
    · rw [if_neg h, lookup_cons, ih]
      by_cases h2 : cmp k' a.1 = .eq
      · rw [hc.eq_left h2, if_neg h, if_neg h]
      · rw [if_neg h2]

theorem lookup_above (l : List (κ × ν)) (k k' : κ) :
    lookup cmp (above cmp l k) k' = if cmp k' k = .gt then lookup cmp l k' else none := by
  induction l with
  | nil => simp [above, lookup]
  | cons a l ih =>
    have : above cmp (a :: l) k = if cmp a.1 k = .gt then a :: above cmp l k else above cmp l k := by
      unfold above
      rw [List.filter_cons]
      by_cases h : cmp a.1 k = .gt <;> simp [h]
    rw [this]
    by_cases h : cmp a.1 k = .gt
    · rw [if_pos h, lookup_cons, lookup_cons, ih]
      by_cases h2 : cmp k' a.1 = .eq
      · rw [if_pos h2, if_pos h2, hc.eq_left h2, if_pos h]
      · rw [if_neg h2, if_neg h2]
    · rw [if_neg h, lookup_cons, ih]
      by_cases h2 : cmp k' a.1 = .eq
      · rw [hc.eq_left h2, if_neg h, if_neg h]
      · rw [if_neg h2]

/-- Insert changes the value of the given key and of no other. -/
theorem lookup_insert (l : List (κ × ν)) (k k' : κ) (v : ν) :
    lookup cmp (insert cmp l k v) k' = if cmp k' k = .eq then some v else lookup cmp l k' := by
  unfold insert
  by_cases hm : mem cmp l k = true
  · rw [if_pos hm, lookup_map_set hc, if_pos hm]
  · rw [if_neg hm, lookup_append, lookup_cons, lookup_below hc, lookup_above hc]
    simp only
    cases h : cmp k' k with
    | lt => simp
    | gt => simp
    | eq => simp

/-- Remove drops the given key and no other. -/
theorem lookup_remove (l : List (κ × ν)) (k k' : κ) :
    lookup cmp (remove cmp l k) k' = if cmp k' k = .eq then none else lookup cmp l k' := by
  induction l with
  | nil => simp [remove, lookup]
  | cons a l ih =>
    have : remove cmp (a :: l) k = if cmp k a.1 = .eq then remove cmp l k else a :: remove cmp l k := by
      unfold remove
      rw [List.filter_cons]
      by_cases h : cmp k a.1 = .eq <;> simp [h]
    rw [this, lookup_cons]
    by_cases h : cmp k a.1 = .eq
    · rw [if_pos h, ih, hc.eq_right h]
      by_cases h2 : cmp k' a.1 = .eq
      · rw [if_pos h2, if_pos h2]
      · rw [if_neg h2, if_neg h2, if_neg h2]
    · rw [if_neg h, lookup_cons, ih]
      by_cases h2 : cmp k' a.1 = .eq
      · rw [if_pos h2, if_pos h2, if_neg]
        intro h3
        exact h ((hc.eq_left h3 a.1) ▸ h2)
      · rw [if_neg h2, if_neg h2]

omit hc in
theorem ascending_map_set {l : List (κ × ν)} (hl : Ascending cmp l) (k : κ) (v : ν) :
    Ascending cmp (l.map fun e => if cmp k e.1 == .eq then (e.1, v) else e) := by
  refine List.pairwise_map.2 (hl.imp ?_)
  intro a b h
  have : ∀ e : κ × ν, (if cmp k e.1 == .eq then (e.1, v) else e).1 = e.1 := by
    intro e; split <;> rfl
  rw [this, this]; exact h

theorem ascending_insert {l : List (κ × ν)} (hl : Ascending cmp l) (k : κ) (v : ν) :
    Ascending cmp (insert cmp l k v) := by
  unfold insert
  split
  · exact ascending_map_set hl k v
  · refine List.pairwise_append.2 ⟨hl.filter _, List.pairwise_cons.2 ⟨?_, hl.filter _⟩, ?_⟩
    · intro e he
      have := (List.mem_filter.1 he).2
      exact (hc.lt_iff _ _).2 (by simpa using this)
    · intro a ha b hb
      have h1 : cmp a.1 k = .lt := by simpa using (List.mem_filter.1 ha).2
      rcases List.mem_cons.1 hb with rfl | hb
      · exact h1
      · have h2 : cmp b.1 k = .gt := by simpa using (List.mem_filter.1 hb).2
        exact hc.lt_trans h1 ((hc.lt_iff _ _).2 h2)

omit hc in
theorem ascending_remove {l : List (κ × ν)} (hl : Ascending cmp l) (k : κ) :
    Ascending cmp (remove cmp l k) := hl.filter _

omit hc in
/-- Entries of a map without the key are either below or above it. -/
theorem length_below_above (l : List (κ × ν)) {k : κ} (hm : ∀ e ∈ l, cmp e.1 k ≠ .eq) :
    (below cmp l k).length + (above cmp l k).length = l.length := by
  induction l with
  | nil => rfl
  | cons a l ih =>
    have h := hm a List.mem_cons_self
    have ih := ih fun e he => hm e (List.mem_cons_of_mem _ he)
    unfold below above at *
    rw [List.filter_cons, List.filter_cons]
    cases h2 : cmp a.1 k with
    | lt => simp; omega
    | gt => simp; omega
    | eq => exact absurd h2 h

theorem length_insert (l : List (κ × ν)) (k : κ) (v : ν) :
    (insert cmp l k v).length = if mem cmp l k then l.length else l.length + 1 := by
  unfold insert
  split
  · simp
  · next h =>
    have := length_below_above l (k := k) (cmp := cmp) (fun e he h2 => h (mem_iff.2 ⟨e, he, (hc.eq_comm _ _).1 h2⟩))
    simp; omega

theorem length_remove {l : List (κ × ν)} (hl : Ascending cmp l) (k : κ) :
    (remove cmp l k).length = if mem cmp l k then l.length - 1 else l.length := by
  induction l with
  | nil => simp [remove]
  | cons a l ih =>
    obtain ⟨h1, h2⟩ := List.pairwise_cons.1 hl
    have hm : mem cmp (a :: l) k = (cmp k a.1 == .eq || mem cmp l k) := rfl
    unfold remove at *
    rw [List.filter_cons, hm]
    by_cases h : cmp k a.1 = .eq
    · have : mem cmp l k = false := by
        rw [mem_false]
        intro e he
        rw [hc.eq_left h, h1 e he]; decide
      rw [this] at ih
      simp [h]
      simpa using ih h2
    · have h' : (cmp k a.1 == .eq) = false := by simp [h]
      have h'' : (cmp k a.1 != .eq) = true := by simp [h]
      rw [h', h'']
      simp only [if_true, Bool.false_or, List.length_cons]
      rw [ih h2]
      split
      · next h3 =>
        obtain ⟨e, he, _⟩ := mem_iff.1 h3
        have := List.length_pos_of_mem he
        omega
      · rfl
end OMap
end Gost.Spec
