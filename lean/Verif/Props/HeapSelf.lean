import Verif.Props.HeapSlice
/-
Property C125, for heaps in which no two elements compare equal: which of them can be appended to themselves.
-/
set_option linter.unusedSectionVars false
namespace Gost
open Spec Slice
variable {α : Type} [Inhabited α]

/-- C125 decided for heaps without ties: with room in the array, Append of the heap to itself gives every element
    twice exactly when there are at most two elements. -/
theorem C125_self_append_distinct (g : Growth) (cmp : α → α → Ordering) (hc : TotalCmp cmp) {h : SHeap α} {b : Slice}
    (hv : b.Valid h) (hh : IsHeap cmp (b.view h)) (hr : 3 * b.len ≤ (b.array h).length) (hsm : 3 * b.len < 2 ^ 63)
    (hd : (b.view h).Pairwise (fun x y => ¬ (cmpLe cmp x y ∧ cmpLe cmp y x))) :
    ∃ h' b', BSlice.appendSelf g cmp h b = .ok (some (h', b')) ∧ BSlice.append g cmp h b b = .ok (some (h', b')) ∧
      ((b'.view h').Perm (b.view h ++ b.view h) ↔ b.len ≤ 2) := by
  have hl := view_length hv
  by_cases h2 : b.len ≤ 2
  · obtain ⟨h', b', e1, e2, _, e4⟩ := C125_self_append_partial g cmp hc hv hh hr hsm
      (fun i _ _ hi => absurd hi (by omega))
    exact ⟨h', b', e1, e2, fun _ => h2, fun _ => e4⟩
  · cases hw : b.view h with
    | nil => rw [hw] at hl; simp at hl; omega
    | cons m l =>
      have hroot := hh.root hc m (by rw [hw]; rfl)
      rw [hw] at hd hroot
      obtain ⟨h', b', e1, e2, _, _, _, e6⟩ := C125_self_append_fails g cmp hc hv hh hr hsm (by omega) hw (by
        intro z hz
        have h1 := hroot z (List.mem_cons_of_mem _ hz)
        have h3 := (List.pairwise_cons.1 hd).1 z hz
        exact Classical.byContradiction fun hg => h3 ⟨hg, h1⟩)
      rw [hw] at e6
      exact ⟨h', b', e1, e2, fun hp => absurd hp e6, fun h => absurd h h2⟩

-- 5 3 4 1, no two equal, with room for twelve: the hypotheses hold, and the heap is not doubled
example : ∃ h' b', BSlice.appendSelf doubling (compare : Nat → Nat → Ordering)
      [[5, 3, 4, 1, 0, 0, 0, 0, 0, 0, 0, 0]] ⟨0, 4⟩ = .ok (some (h', b')) ∧
    ¬ (b'.view h').Perm [5, 3, 4, 1, 5, 3, 4, 1] := by
  obtain ⟨h', b', e1, _, e3⟩ := C125_self_append_distinct doubling (compare : Nat → Nat → Ordering) natTotal
    (h := [[5, 3, 4, 1, 0, 0, 0, 0, 0, 0, 0, 0]]) (b := ⟨0, 4⟩) ⟨by decide, by decide⟩
    (by
      intro i x y hi hx hy
      have hlt : i < 4 := (List.getElem?_eq_some_iff.1 hx).1
      rcases (by omega : i = 1 ∨ i = 2 ∨ i = 3) with rfl | rfl | rfl <;> cases hx <;> cases hy <;> unfold cmpLe <;> decide)
    (by decide) (by decide) (by unfold cmpLe; decide)
  exact ⟨h', b', e1, fun hp => absurd (e3.1 hp) (by decide)⟩
-- 5 3 with room for six: doubled
example : (match BSlice.appendSelf doubling (compare : Nat → Nat → Ordering) [[5, 3, 0, 0, 0, 0]] ⟨0, 2⟩ with
    | .ok (some (h, s)) => s.view h
    | _ => []) = [5, 3, 5, 3] := by decide
theorem countP_lt_pointwise {P : α → Bool} : ∀ (l q : List α), q.length = l.length →
    (∀ (j : Nat) x y, l[j]? = some x → q[j]? = some y → P x = true → P y = true) →
    (∃ (j : Nat) (x y : α), l[j]? = some x ∧ q[j]? = some y ∧ P x = false ∧ P y = true) → l.countP P < q.countP P
  | [], _, _, _, ⟨_, _, _, h, _⟩ => by simp at h
  | x :: l, [], h, _, _ => by simp at h
  | x :: l, y :: q, h, hq, ⟨0, a, b, ha, hb, hx, hy⟩ => by
    simp only [List.getElem?_cons_zero, Option.some.injEq] at ha hb
    subst ha hb
    have ih := countP_le_pointwise l q (by simpa using h) (fun j a b ha hb => hq (j + 1) a b ha hb)
    rw [List.countP_cons, List.countP_cons, if_neg (by simp [hx]), if_pos hy]
    omega
  | x :: l, y :: q, h, hq, ⟨j + 1, a, b, ha, hb, hab⟩ => by
    have ih := countP_lt_pointwise l q (by simpa using h) (fun j a b ha hb => hq (j + 1) a b ha hb)
      ⟨j, a, b, by simpa using ha, by simpa using hb, hab⟩
    have h0 := hq 0 x y rfl rfl
    rw [List.countP_cons, List.countP_cons]
    by_cases hx : P x = true
    · rw [if_pos hx, if_pos (h0 hx)]; omega
    · rw [if_neg hx]; split <;> omega

/-- C125 fails for every heap whose greatest element is greater than the parent of the first free place (the element
    in the middle of the array): Append of the heap to itself leaves more than twice as many greatest elements. -/
theorem C125_self_append_middle_fails (g : Growth) (cmp : α → α → Ordering) (hc : TotalCmp cmp) {h : SHeap α}
    {b : Slice} (hv : b.Valid h) (hh : IsHeap cmp (b.view h)) (hr : 3 * b.len ≤ (b.array h).length)
    (hsm : 3 * b.len < 2 ^ 63) {m c : α} (hm : (b.view h)[0]? = some m)
    (hmid : (b.view h)[(b.len - 1) / 2]? = some c) (hgt : cmp m c = .gt) :
    ∃ h' b', BSlice.appendSelf g cmp h b = .ok (some (h', b')) ∧ BSlice.append g cmp h b b = .ok (some (h', b')) ∧
      (b.view h ++ b.view h).countP (fun z => decide (cmp m z ≠ .gt)) <
        (b'.view h').countP (fun z => decide (cmp m z ≠ .gt)) ∧
      ¬ (b'.view h').Perm (b.view h ++ b.view h) := by
  have hl := view_length hv
  obtain ⟨e1, e2⟩ := BSlice.append_run g cmp hr hsm
  rw [e1, e2]
  have hn : 0 < b.len := by have := (List.getElem?_eq_some_iff.1 hm).1; omega
  have hmm : cmp m m ≠ .gt := hc.refl m
  have hloop : BSlice.Loop cmp h b b ((b.len - 1) + 1) := ⟨hv, hh, rfl, Nat.le_refl _, by omega⟩
  obtain ⟨x, h1, s1, hx, q, hl1, he⟩ := hloop.step g hc (i := 0) (by omega)
  have hxm : x = m := by rw [hm] at hx; simpa using hx.symm
  subst hxm
  have hl1' := view_length hl1.valid
  have hlen := q.len
  have hcnt := q.perm.countP_eq (fun z => decide (cmp x z ≠ .gt))
  rw [List.countP_cons, if_pos (by simpa using hmm)] at hcnt
  -- the places of the range only rise
  have hrise : ∀ (j : Nat) a a', (b.view h)[j]? = some a → ((s1.view h1).take b.len)[j]? = some a' →
      decide (cmp x a ≠ .gt) = true → decide (cmp x a' ≠ .gt) = true := by
    intro j a a' ha ha' hd
    have hj := (List.getElem?_eq_some_iff.1 ha).1
    rw [List.getElem?_take_of_lt (by omega)] at ha'
    simp only [decide_eq_true_eq] at hd ⊢
    exact hc.trans _ _ _ hd (q.rises j a a' (by omega) ha ha')
  have hsplit : s1.view h1 = (s1.view h1).take b.len ++ (s1.view h1).drop b.len := (List.take_append_drop _ _).symm
  obtain ⟨v, hvn⟩ : ∃ v, (s1.view h1)[b.len]? = some v := ⟨_, List.getElem?_eq_getElem (by omega)⟩
  have hdrop : (s1.view h1).drop b.len = [v] := by
    rw [List.drop_eq_getElem_cons (by omega), List.drop_eq_nil_of_le (by omega)]
    rw [List.getElem?_eq_getElem (by omega)] at hvn
    simpa using hvn
  rw [hdrop] at hsplit
  have htl : ((s1.view h1).take b.len).length = (b.view h).length := by rw [List.length_take]; omega
  rw [hsplit, List.countP_append] at hcnt
  -- the element at the new place is not a greatest one
  have hvlt : decide (cmp x v ≠ .gt) = false := by
    rw [Bool.eq_false_iff]
    intro hvx
    have hpl : (b.len - 1) / 2 < (s1.view h1).length := by omega
    have hpar := q.heap b.len v _ hn hvn (List.getElem?_eq_getElem hpl)
    have hlt := countP_lt_pointwise _ _ htl hrise ⟨(b.len - 1) / 2, c, (s1.view h1)[(b.len - 1) / 2], hmid, (by
      rw [List.getElem?_take_of_lt (by omega)]; exact List.getElem?_eq_getElem hpl), by simp [hgt], by
      simp only [decide_eq_true_eq] at hvx ⊢
      exact hc.trans _ _ _ hvx hpar⟩
    rw [List.countP_cons, if_pos hvx] at hcnt
    simp only [List.countP_nil] at hcnt
    omega
  rw [List.countP_cons, if_neg (by simp [hvlt]), List.countP_nil] at hcnt
  obtain ⟨h2, s2, r, r1, r2, r3, r4, r5, r6⟩ := BSlice.rangePush_all g hc (r := b) (b.len - 1) 1 h1 s1 (by omega) hl1
  have hrun : BSlice.rangePush g cmp b b.len 0 h b = .ok (some (h2, s2)) := by
    rw [show b.len = (b.len - 1) + 1 by omega, he]; exact r1
  -- what is read later
  obtain ⟨a, t, hat⟩ : ∃ a t, (s1.view h1).take b.len = a :: t := by
    cases ht : (s1.view h1).take b.len with
    | nil => rw [ht] at htl; simp at htl; omega
    | cons a t => exact ⟨a, t, rfl⟩
  have hle := countP_le_pointwise (P := fun z => decide (cmp x z ≠ .gt)) t r (by
      rw [hat] at htl; simp only [List.length_cons] at htl; omega) (by
    intro j y z hy hz hd
    simp only [decide_eq_true_eq] at hd ⊢
    refine hc.trans _ _ _ hd (r5 j y z ?_ hz)
    rw [hsplit, hat, Nat.add_comm, List.cons_append, List.getElem?_cons_succ,
      List.getElem?_append_left (List.getElem?_eq_some_iff.1 hy).1]
    exact hy)
  have hfin : (b.view h ++ b.view h).countP (fun z => decide (cmp x z ≠ .gt)) <
      (s2.view h2).countP (fun z => decide (cmp x z ≠ .gt)) := by
    rw [r3.countP_eq, hsplit, List.countP_append, List.countP_append, List.countP_append]
    have hone : ((s1.view h1).take b.len).countP (fun z => decide (cmp x z ≠ .gt)) ≤
        t.countP (fun z => decide (cmp x z ≠ .gt)) + 1 := by
      rw [hat, List.countP_cons]
      split <;> omega
    omega
  exact ⟨h2, s2, hrun, hrun, hfin, fun hp => by rw [hp.countP_eq] at hfin; omega⟩

-- 5 5 4 3 1: 5 is there twice, and greater than the 4 in the middle; afterwards there are six of them
example : (match BSlice.appendSelf doubling (compare : Nat → Nat → Ordering)
      [[5, 5, 4, 3, 1, 0, 0, 0, 0, 0, 0, 0, 0, 0, 0]] ⟨0, 5⟩ with
    | .ok (some (h, s)) => ((s.view h).count 5, s.len)
    | _ => (0, 0)) = (6, 10) := by decide
example : ([5, 5, 4, 3, 1] : List Nat)[0]? = some 5 ∧ ([5, 5, 4, 3, 1] : List Nat)[(5 - 1) / 2]? = some 4 := by decide
-- 5 5 5 3 4 1: the middle is as great as the root, so the theorem does not apply
example : ([5, 5, 5, 3, 4, 1] : List Nat)[(6 - 1) / 2]? = some 5 := by decide
end Gost
