import Verif.Props.SortUnwind
/-
Property C146 for VecDeque: the layouts of `C146_deque_partial` are exactly those in which every comparison keeps the
elements, as soon as one of the slots that are sorted holds a value that is not one of the elements.
-/
namespace Gost
open Spec Unwind
variable {σ α : Type}

/-- SortBy with a comparison of keys returns, and has ordered the first Len slots by their keys. -/
theorem deque_key_sort (lib : (n : Nat) → SortSteps n) (hlib : ∀ (lt : α → α → Bool) (l : List α), StrictWeak lt →
      ((lib l.length).list lt l).Pairwise fun a b => lt b a = false)
    (κ : α → Nat) (d : VecDeque α) (hl : d.len ≤ d.buffer.length) (s : σ) :
    ∃ l, dqSortBy lib (fun a b => (pure (compare (κ a) (κ b)) : Eff σ Ordering)) (d, s) =
        (.ok (), (⟨l ++ d.buffer.drop d.len, d.len, d.head⟩, s)) ∧
      l.Perm (d.buffer.take d.len) ∧ l.Pairwise (fun a b => κ a ≤ κ b) := by
  obtain ⟨o, m, s', r1, r2, r3, r4, r5⟩ := deque_sortBy_run lib
    (fun a b => (pure (compare (κ a) (κ b)) : Eff σ Ordering)) d s hl
  have hs : s' = s := r4 (· = s) (fun _ _ _ _ _ h => h) rfl
  have hok : o = .ok () := by
    rcases o with e | ⟨⟩
    · obtain ⟨a, _, b, _, s1, h1⟩ := r3 e rfl
      cases h1
    · rfl
  have hm := r5 (fun a b => decide (κ a < κ b)) (fun a _ b _ s1 r s2 h => by
    cases h
    rw [Bool.eq_iff_iff, decide_eq_true_eq, beq_iff_eq]
    exact Nat.compare_eq_lt) hok
  have hsorted := hlib (fun a b => decide (κ a < κ b)) (d.buffer.take d.len)
    ⟨by simp, by simp only [decide_eq_true_eq]; omega, by simp only [decide_eq_true_eq]; omega⟩
  rw [List.length_take, Nat.min_eq_left hl, ← hm] at hsorted
  subst hs hok
  exact ⟨m, r1, r2, hsorted.imp (by simp)⟩

theorem mixed_exact (lib : (n : Nat) → SortSteps n) (hlib : ∀ (lt : α → α → Bool) (l : List α), StrictWeak lt →
      ((lib l.length).list lt l).Pairwise fun a b => lt b a = false)
    (d : VecDeque α) (h : d.Inv) (v : α)
    (hv : v ∈ d.buffer.take d.len) (hn : v ∉ d.toList) (s : σ) :
    (∀ cmp : α → α → Eff σ Ordering, (dqSortBy lib cmp (d, s)).2.1.toList.Perm d.toList) ↔ Unmixed d := by
  have hle := h.len_le
  constructor
  · intro hall
    apply Classical.byContradiction
    intro hu
    unfold Unmixed at hu
    have hh := h.head_lt
    have hlen : (d.buffer.take d.len).length = d.len := by rw [List.length_take]; omega
    refine hn ?_
    by_cases hw : d.buffer.length < d.head + d.len
    · -- the deque goes round the end, slot 0 is one of its elements: v as the least one
      obtain ⟨l, e1, e2, e3⟩ := deque_key_sort lib hlib (fun a => open Classical in if a = v then 0 else 1) d hle s
      have hq := congrArg (fun r => r.2.1.toList.Perm d.toList) e1
      refine (Eq.mp hq (hall _)).mem_iff.1 ?_
      have hll := e2.length_eq
      have hvl := e2.mem_iff.2 hv
      obtain ⟨t, rfl⟩ : ∃ t, l = v :: t := by
        cases l with
        | nil => simp at hvl
        | cons a t =>
          by_cases hav : a = v
          · exact ⟨t, by rw [hav]⟩
          · rcases List.mem_cons.1 hvl with hx | hx
            · exact absurd hx.symm hav
            · have := (List.pairwise_cons.1 e3).1 v hx
              simp [hav] at this
      unfold VecDeque.toList
      simp only
      refine List.mem_of_getElem? (i := d.buffer.length - d.head) ?_
      have hB : (v :: t ++ d.buffer.drop d.len).length = d.buffer.length := by
        rw [List.length_append, List.length_drop]; omega
      rw [List.getElem?_take_of_lt (by omega), List.getElem?_append_right (by rw [List.length_drop]; omega),
        List.length_drop, hB, Nat.sub_self, List.getElem?_take_of_lt (by omega)]
      rfl
    · -- the last of the slots is one of its elements: v as the greatest one
      obtain ⟨l, e1, e2, e3⟩ := deque_key_sort lib hlib (fun a => open Classical in if a = v then 1 else 0) d hle s
      have hq := congrArg (fun r => r.2.1.toList.Perm d.toList) e1
      refine (Eq.mp hq (hall _)).mem_iff.1 ?_
      have hll := e2.length_eq
      have hvl := e2.mem_iff.2 hv
      obtain ⟨t, rfl⟩ : ∃ t, l = t ++ [v] := by
        rcases List.eq_nil_or_concat l with rfl | ⟨t, a, rfl⟩
        · simp at hvl
        · rw [List.concat_eq_append] at *
          by_cases hav : a = v
          · exact ⟨t, by rw [hav]⟩
          · rcases List.mem_append.1 hvl with hx | hx
            · have := (List.pairwise_append.1 e3).2.2 v hx a (by simp)
              simp [hav] at this
            · exact absurd (List.mem_singleton.1 hx).symm hav
      rw [List.length_append, List.length_singleton, hlen] at hll
      unfold VecDeque.toList
      simp only
      refine List.mem_of_getElem? (i := d.len - 1 - d.head) ?_
      have hB : (t ++ [v] ++ d.buffer.drop d.len).length = d.buffer.length := by
        rw [List.length_append, List.length_append, List.length_drop, List.length_singleton]; omega
      rw [List.getElem?_take_of_lt (by omega), List.getElem?_append_left (by rw [List.length_drop]; omega),
        List.getElem?_drop, List.append_assoc, List.getElem?_append_right (by omega)]
      rw [show d.head + (d.len - 1 - d.head) - t.length = 0 by omega]
      rfl
  · intro hu cmp
    obtain ⟨o, d', s', e1, _, _, e4, _⟩ := C146_deque_partial lib cmp d h s
    rw [e1]
    exact e4 hu

/-- C146 for VecDeque, decided: if one of the first Len slots holds a value that is not an element, SortBy (and SortUnstableBy)
    keeps the elements under every comparison exactly when the deque starts at slot 0, is full, or lies beyond those slots. -/
theorem C146_deque_exact (T : SortTrees) (d : VecDeque α) (h : d.Inv) (v : α)
    (hv : v ∈ d.buffer.take d.len) (hn : v ∉ d.toList) (s : σ) :
    ((∀ cmp : α → α → Eff σ Ordering, (dqSortBy T.stable cmp (d, s)).2.1.toList.Perm d.toList) ↔ Unmixed d) ∧
    ((∀ cmp : α → α → Eff σ Ordering, (dqSortBy T.unstable cmp (d, s)).2.1.toList.Perm d.toList) ↔ Unmixed d) :=
  ⟨mixed_exact T.stable (fun lt l hw => T.stable_sorted lt l hw) d h v hv hn s,
    mixed_exact T.unstable (fun lt l hw => T.unstable_sorted lt l hw) d h v hv hn s⟩

-- 1 pushed in front of 3 2 with a free slot holding 0: mixed, so some comparison loses an element
example (T : SortTrees) : ∃ cmp : Nat → Nat → Eff Unit Ordering,
    ¬ (dqSortBy T.stable cmp (⟨[3, 2, 0, 1], 3, 3⟩, ())).2.1.toList.Perm [1, 3, 2] := by
  apply Classical.byContradiction
  intro hne
  have hx := (C146_deque_exact T (⟨[3, 2, 0, 1], 3, 3⟩ : VecDeque Nat) ⟨by decide, by decide, by decide, by decide⟩ 0
    (by decide) (by decide)
    ()).1.1 (fun cmp => Classical.byContradiction fun hp => hne ⟨cmp, hp⟩)
  exact absurd hx (by unfold Unmixed; decide)
-- 1 in slot 3, the two sorted slots free: no comparison does harm
example (T : SortTrees) (cmp : Nat → Nat → Eff Unit Ordering) :
    (dqSortBy T.unstable cmp (⟨[0, 0, 2, 1], 2, 2⟩, ())).2.1.toList.Perm [2, 1] :=
  (C146_deque_exact T (⟨[0, 0, 2, 1], 2, 2⟩ : VecDeque Nat) ⟨by decide, by decide, by decide, by decide⟩ 0
    (by decide) (by decide)
    ()).2.2 (by unfold Unmixed; decide) cmp
end Gost
