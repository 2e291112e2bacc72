import Verif.Props.VecDeque
/-
Properties C60 and C62, continued: sorting and searching deques of every layout, and deques whose
elements have no Cmp or Eq method.
-/
namespace Gost
open Spec VecDeque

variable {σ α : Type} [Inhabited α]

/-! ### C62 -/

/-- C62: without an equality method Contains panics, even on an empty deque; Eq panics exactly if the
deques have the same length and are not empty. -/
theorem C62_deque_noEq (d o : VecDeque α) (h : d.Inv) (ho : o.Inv) (x : α) :
    d.contains none x = .error .explicit ∧
    d.eq none o = if d.toList.length ≠ o.toList.length then .ok false
      else if d.toList = [] then .ok true else .error .nilDeref := by
  have hl := toList_length h
  have hlo := toList_length ho
  refine ⟨rfl, ?_⟩
  unfold VecDeque.eq
  rw [hl, hlo]
  by_cases hn : d.len = o.len
  · rw [if_neg (by omega), if_neg (by omega)]
    cases hd : d.toList with
    | nil =>
      have : d.len = 0 := by rw [← hl, hd]; rfl
      rw [this]
      rfl
    | cons a t =>
      rw [if_neg (by simp)]
      have : d.len = t.length + 1 := by rw [← hl, hd]; rfl
      rw [this]
      simp only [VecDeque.eqLoop, get_eq h, hd, Go.bind_ok, Opt.unwrap, List.getElem?_cons_zero,
        deref_some]
  · rw [if_pos hn, if_pos hn]

example : exDeque.contains none 2 = .error .explicit ∧ exDeque.eq none exDeque = .error .nilDeref ∧
    (⟨[0, 0], 0, 1⟩ : VecDeque Nat).eq none ⟨[1], 0, 0⟩ = .ok true ∧
    exDeque.eq none ⟨[1], 0, 0⟩ = .ok false := by decide

/-! ### C60 -/

omit [Inhabited α] in
/-- C60: if the elements have no Cmp method, Sort and SortUnstable panic if there is anything to compare
and otherwise leave the deque as it is; BinarySearch panics unless the deque is empty. -/
theorem C60_noCmp (S : SortLib) (d : VecDeque α) (h : d.Inv) (x : α) :
    (2 ≤ d.toList.length → d.sort S none = .error .explicit ∧ d.sortUnstable S none = .error .explicit) ∧
    (d.toList.length < 2 → d.sort S none = .ok d ∧ d.sortUnstable S none = .ok d) ∧
    (d.toList ≠ [] → d.binarySearch none x = .error .nilDeref) ∧
    (d.toList = [] → d.binarySearch none x = .ok Opt.none) := by
  have hl := toList_length h
  have h3 := h.len_le
  unfold VecDeque.sort VecDeque.sortUnstable VecDeque.binarySearch
  simp only [hl]
  refine ⟨?_, ?_, ?_, ?_⟩
  · intro h2; rw [if_neg (by omega)]; exact ⟨rfl, rfl⟩
  · intro h2; rw [if_pos h2]; exact ⟨rfl, rfl⟩
  · intro hn
    have : 0 < d.len := by rw [← hl]; exact List.length_pos_iff.2 hn
    unfold Vec.binarySearchLoop
    rw [dif_pos (by omega)]
    simp only [index_lt (l := d.buffer) (i := ((0 + ((d.len : Int) - 1)) / 2).toNat) (by omega),
      Eff.lift_ok, Eff.pure_bind]
    rfl
  · intro hn
    have : d.len = 0 := by rw [← hl, hn]; rfl
    rw [this]
    unfold Vec.binarySearchLoop
    rw [dif_neg (by omega)]
    rfl

/-- C60, full property: as in `C60_sort_search_partial`, here for BinarySearchBy.  Proved: if the head is at
the start of the buffer and the comparator splits the elements into Less, Equal and Greater, in this
order, BinarySearchBy finds an element for which it says Equal if there is one, and returns its logical
index.  Missing: the other layouts, where the slots are searched and not the elements, see
`C60_slots_partial` and `C60_binarySearch_fails`. -/
theorem C60_searchBy_partial (d : VecDeque α) (h : d.Inv) (h0 : d.head = 0) (c : α → Ordering)
    (hp : Partitioned c d.toList) (s : σ) :
    ∃ r, d.binarySearchBy (fun a => (pure (c a) : Eff σ Ordering)) s = (.ok r, s) ∧
      (r.isSome = true ↔ ∃ a ∈ d.toList, c a = .eq) ∧
      ∀ i, r.value = some i → ∃ hi : i < d.toList.length, c d.toList[i] = .eq := by
  obtain ⟨r, e, p, q⟩ := C51_binarySearchBy ⟨d.toList, 0⟩ c hp s
  refine ⟨r, ?_, p, q⟩
  rw [← e]
  unfold VecDeque.binarySearchBy Vec.binarySearchBy
  have h3 := h.len_le
  rw [binarySearchLoop_take _ d.buffer d.len h3 _ _ (by omega) (by omega)]
  simp only [head0 h0, List.length_take, Nat.min_eq_left h3]

example : Partitioned (fun a : Nat => compare a 9) (⟨[1, 4, 9, 0], 3, 0⟩ : VecDeque Nat).toList := by
  unfold Partitioned; decide

/-- C60, full property: as above.  Proved for every layout: the functions never panic; what they sort and
search is the slice that AsSlice returns, that is, as many slots from the start of the buffer as the
deque has elements.  After Sort or SortBy AsSlice returns the sorted permutation of what it returned
before, elements that compare equal in their order; the unstable variants give a sorted permutation;
BinarySearch and BinarySearchBy search that slice and return an index of it.  Missing: that slice is not
the contents of the deque unless the head is at the start of the buffer, see `C60_sort_fails`. -/
theorem C60_slots_partial (S : SortLib) (d : VecDeque α) (h : d.Inv) (cmp : α → α → Ordering)
    (eq : α → α → Bool) (hc : LawfulOrd cmp eq) :
    ∃ l, d.asSlice = .ok l ∧ l.length = d.toList.length ∧
    (∃ d' l', d.sort S (some cmp) = .ok d' ∧ d.sortBy S cmp = .ok d' ∧ d'.Inv ∧
      d'.toList.length = d.toList.length ∧ d'.asSlice = .ok l' ∧ l'.Perm l ∧
      l'.Pairwise (fun a b => cmp a b ≠ .gt) ∧ ∀ x, Spec.equalTo cmp x l' = Spec.equalTo cmp x l) ∧
    (∃ d' l', d.sortUnstable S (some cmp) = .ok d' ∧ d.sortUnstableBy S cmp = .ok d' ∧ d'.Inv ∧
      d'.toList.length = d.toList.length ∧ d'.asSlice = .ok l' ∧ l'.Perm l ∧
      l'.Pairwise (fun a b => cmp a b ≠ .gt)) ∧
    (∀ x, l.Pairwise (fun a b => cmp a b ≠ .gt) → ∃ r, d.binarySearch (some cmp) x = .ok r ∧
      (r.isSome = true ↔ ∃ a ∈ l, eq a x = true) ∧
      ∀ i, r.value = some i → ∃ hi : i < l.length, eq l[i] x = true) ∧
    (∀ c s, Partitioned c l → ∃ r, d.binarySearchBy (fun a => (pure (c a) : Eff σ Ordering)) s = (.ok r, s) ∧
      (r.isSome = true ↔ ∃ a ∈ l, c a = .eq) ∧
      ∀ i, r.value = some i → ∃ hi : i < l.length, c l[i] = .eq) ∧
    (∀ (f : α → Eff σ Ordering) s, (∀ a s, ∃ o s', f a s = (.ok o, s')) →
      ∃ r s', d.binarySearchBy f s = (.ok r, s') ∧ ∀ i, r.value = some i → i < d.toList.length) := by
  have h3 := h.len_le
  have hll : (d.buffer.take d.len).length = d.len := by simp; omega
  -- the same deque with its head at the start
  have hi0 : (⟨d.buffer, d.len, 0⟩ : VecDeque α).Inv := by
    obtain ⟨a, b, c, e⟩ := h
    exact ⟨by simp_all, by simp_all, by simp_all, by simp_all⟩
  have hl0 : (⟨d.buffer, d.len, 0⟩ : VecDeque α).toList = d.buffer.take d.len := head0 rfl
  have back : ∀ (b : List α), b.length = d.len →
      (⟨b ++ d.buffer.drop d.len, d.len, d.head⟩ : VecDeque α).Inv ∧
      (⟨b ++ d.buffer.drop d.len, d.len, d.head⟩ : VecDeque α).toList.length = d.toList.length ∧
      (⟨b ++ d.buffer.drop d.len, d.len, d.head⟩ : VecDeque α).asSlice = .ok b := by
    intro b hb
    have hlen : (b ++ d.buffer.drop d.len).length = d.buffer.length := by simp; omega
    have hi : (⟨b ++ d.buffer.drop d.len, d.len, d.head⟩ : VecDeque α).Inv := by
      obtain ⟨a, b, c, e⟩ := h
      exact ⟨by rw [hlen]; exact a, by rw [hlen]; exact b, by rw [hlen]; exact c, by rw [hlen]; exact e⟩
    refine ⟨hi, by rw [toList_length hi, toList_length h], ?_⟩
    unfold asSlice
    rw [if_pos (by simp only; omega)]
    simp only
    rw [List.take_append_of_le_length (by omega), List.take_of_length_le (by omega)]
  refine ⟨d.buffer.take d.len, by unfold asSlice; rw [if_pos h3], by rw [hll, toList_length h], ?_, ?_, ?_, ?_, ?_⟩
  · obtain ⟨⟨v', e1, e2, p1, p2, _, p3⟩, _⟩ := C52_vec_sort S ⟨d.buffer.take d.len, 0⟩ cmp eq hc
    obtain ⟨i1, i2, i3⟩ := back v'.data (by rw [p1.length_eq]; exact hll)
    have e : d.sortBy S cmp = .ok ⟨v'.data ++ d.buffer.drop d.len, d.len, d.head⟩ := by
      unfold VecDeque.sortBy
      rw [if_pos h3, ← e2]
      rfl
    exact ⟨_, _, e, e, i1, i2, i3, p1, p2, p3⟩
  · obtain ⟨_, v', e1, e2, p1, p2, _⟩ := C52_vec_sort S ⟨d.buffer.take d.len, 0⟩ cmp eq hc
    obtain ⟨i1, i2, i3⟩ := back v'.data (by rw [p1.length_eq]; exact hll)
    have e : d.sortUnstableBy S cmp = .ok ⟨v'.data ++ d.buffer.drop d.len, d.len, d.head⟩ := by
      unfold VecDeque.sortUnstableBy
      rw [if_pos h3, ← e2]
      rfl
    exact ⟨_, _, e, e, i1, i2, i3, p1, p2⟩
  · intro x hs
    have := (C60_sort_search_partial S ⟨d.buffer, d.len, 0⟩ hi0 rfl cmp eq hc).2.2 x
    rw [hl0] at this
    exact this hs
  · intro c s hp
    have := C60_searchBy_partial (σ := σ) ⟨d.buffer, d.len, 0⟩ hi0 rfl c (by rw [hl0]; exact hp) s
    simp only [hl0] at this
    exact this
  · intro f s hf
    have := C51_binarySearchBy_inRange f (d.buffer.take d.len) 0 ((d.len : Int) - 1) (by omega) (by omega) hf s
    rw [hll] at this
    unfold VecDeque.binarySearchBy
    rw [binarySearchLoop_take _ d.buffer d.len h3 _ _ (by omega) (by omega), toList_length h]
    exact this

/-- The hypotheses of `C60_slots_partial` are met by a deque whose head is not at the start. -/
example : exDeque.head = 2 ∧ exDeque.asSlice = .ok [3, 0, 1] ∧ exDeque.toList = [1, 2, 3] := by decide

end Gost
