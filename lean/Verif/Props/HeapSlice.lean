import Verif.Model.HeapSlice
import Verif.Props.BinaryHeap
import Verif.Props.SliceHeap
/-
Properties C124 (copies of a BinaryHeap) and C125 (a BinaryHeap appended to itself).
-/
set_option linter.unusedSectionVars false
namespace Gost
open Spec Slice
variable {α : Type} [Inhabited α]

/-- Sifting up leaves alone the places below the hole, and those whose element is not less. -/
theorem BHeap.siftUpLoop_keeps (cmp : α → α → Ordering) (fuel : Nat) (v v' : Vec α) (elt : α) (pos p' : Nat)
    (hp : pos < v.data.length) (he : siftUpLoop cmp 0 fuel v elt pos = .ok (some (v', p'))) (j : Nat)
    (hj : j ≠ pos) (hk : pos < j ∨ ∀ y, v.data[j]? = some y → cmp elt y ≠ .gt) :
    v'.data[j]? = v.data[j]? := by
  induction fuel generalizing v pos with
  | zero => simp [siftUpLoop] at he
  | succ fuel ih =>
    unfold siftUpLoop at he
    by_cases h0 : pos > 0
    · rw [if_pos h0] at he
      have hpar : (pos - 1) / 2 < v.data.length := by omega
      simp only [index_lt hpar, Go.bind_ok] at he
      by_cases ho : cmp elt v.data[(pos - 1) / 2] = .lt ∨ cmp elt v.data[(pos - 1) / 2] = .eq
      · rw [if_pos ho] at he
        cases he; rfl
      · rw [if_neg ho] at he
        obtain ⟨v1, e1, e2, e3, e4, e5⟩ := v.swap_ok pos ((pos - 1) / 2) hp hpar
        simp only [e1, Go.bind_ok] at he
        have hjq : j ≠ (pos - 1) / 2 := by
          rcases hk with hk | hk
          · omega
          · rintro rfl
            exact hk _ (List.getElem?_eq_getElem hpar) (gt_of_not ho)
        have h1 : v1.data[j]? = v.data[j]? := by rw [e5, if_neg hj, if_neg hjq]
        rw [ih v1 _ (by omega) he hjq (by rw [h1]; exact hk.imp (by omega) id), h1]
    · rw [if_neg h0] at he
      cases he; rfl

/-- Sifting up makes no place hold less than before: the hole ends up with the element or with its parent. -/
theorem BHeap.siftUpLoop_rises (cmp : α → α → Ordering) (hc : TotalCmp cmp) (fuel : Nat) (v v' : Vec α) (elt : α)
    (pos p' : Nat) (hp : v.data[pos]? = some elt) (hu : UpInv cmp v.data pos)
    (he : siftUpLoop cmp 0 fuel v elt pos = .ok (some (v', p'))) :
    (∀ j x y, j ≠ pos → v.data[j]? = some x → v'.data[j]? = some y → cmpLe cmp x y) ∧
    (v'.data[pos]? = some elt ∨ 0 < pos ∧ v'.data[pos]? = v.data[(pos - 1) / 2]?) := by
  induction fuel generalizing v pos with
  | zero => simp [siftUpLoop] at he
  | succ fuel ih =>
    have hpos : pos < v.data.length := (List.getElem?_eq_some_iff.1 hp).1
    have hsame : v' = v → (∀ j x y, j ≠ pos → v.data[j]? = some x → v'.data[j]? = some y → cmpLe cmp x y) ∧
        (v'.data[pos]? = some elt ∨ 0 < pos ∧ v'.data[pos]? = v.data[(pos - 1) / 2]?) := by
      rintro rfl
      refine ⟨fun j x y _ hx hy => ?_, .inl hp⟩
      rw [hx] at hy; cases hy; exact hc.refl x
    unfold siftUpLoop at he
    by_cases h0 : pos > 0
    · rw [if_pos h0] at he
      have hpar : (pos - 1) / 2 < v.data.length := by omega
      simp only [index_lt hpar, Go.bind_ok] at he
      by_cases ho : cmp elt v.data[(pos - 1) / 2] = .lt ∨ cmp elt v.data[(pos - 1) / 2] = .eq
      · rw [if_pos ho] at he
        cases he; exact hsame rfl
      · rw [if_neg ho] at he
        have hle : cmpLe cmp v.data[(pos - 1) / 2] elt := by
          rcases hc.total elt v.data[(pos - 1) / 2] with h | h
          · exact absurd (gt_of_not ho) h
          · exact h
        obtain ⟨v1, e1, e2, e3, e4, e5⟩ := v.swap_ok pos ((pos - 1) / 2) hpos hpar
        simp only [e1, Go.bind_ok] at he
        have hget : ∀ k, v1.data[k]? = if k = pos then some v.data[(pos - 1) / 2] else
            if k = (pos - 1) / 2 then some elt else v.data[k]? := by
          intro k
          rw [e5 k, hp, List.getElem?_eq_getElem hpar]
        have hq : v1.data[(pos - 1) / 2]? = some elt := by rw [hget, if_neg (by omega), if_pos rfl]
        have hkeep := siftUpLoop_keeps cmp fuel v1 v' elt ((pos - 1) / 2) p' (by omega) he pos (by omega) (.inl (by omega))
        rw [hget, if_pos rfl] at hkeep
        obtain ⟨i1, i2⟩ := ih v1 ((pos - 1) / 2) hq (hu.step hc h0 hp hpar hle hget) he
        refine ⟨fun j x y hj hx hy => ?_, .inr ⟨h0, by rw [hkeep, List.getElem?_eq_getElem hpar]⟩⟩
        by_cases hjq : j = (pos - 1) / 2
        · subst hjq
          rw [List.getElem?_eq_getElem hpar] at hx
          cases hx
          rcases i2 with i2 | ⟨i2, i3⟩
          · rw [i2] at hy; cases hy; exact hle
          · rw [i3, hget, if_neg (by omega), if_neg (by omega)] at hy
            exact hu.1 ((pos - 1) / 2) _ y i2 (by omega) (List.getElem?_eq_getElem hpar) hy
        · exact i1 j x y hjq (by rw [hget, if_neg hj, if_neg hjq]; exact hx) hy
    · rw [if_neg h0] at he
      cases he; exact hsame rfl

/-- One Push, at the level of the storage. -/
structure BSlice.Pushed (g : Growth) (cmp : α → α → Ordering) (h : SHeap α) (s : Slice) (x : α) (h' : SHeap α)
    (s' : Slice) : Prop where
  run : BSlice.push g cmp h s x = .ok (some (h', s'))
  pure : BHeap.push g cmp ⟨s.toVec h⟩ x = .ok (some ⟨s'.toVec h'⟩)
  good : Good h s h' s' (s'.toVec h')
  heap : IsHeap cmp (s'.view h')
  perm : (s'.view h').Perm (x :: s.view h)
  len : s'.len = s.len + 1
  /-- in place when there is room -/
  room : s.len < (s.array h).length → s'.arr = s.arr ∧ (s'.array h').length = (s.array h).length
  full : s.len = (s.array h).length → h.length ≤ s'.arr
  /-- where the new element is not greater than its parent nothing moves -/
  stay : (∀ p, 0 < s.len → (s.view h)[(s.len - 1) / 2]? = some p → cmp x p ≠ .gt) → s'.view h' = s.view h ++ [x]
  /-- where it is greater, the parent ends up in the new place -/
  moved : ∀ p, 0 < s.len → (s.view h)[(s.len - 1) / 2]? = some p → cmp x p = .gt → (s'.view h')[s.len]? = some p
  keeps : ∀ j, j < s.len → (∀ y, (s.view h)[j]? = some y → cmp x y ≠ .gt) → (s'.view h')[j]? = (s.view h)[j]?
  /-- no place holds less than before -/
  rises : ∀ j y z, j < s.len → (s.view h)[j]? = some y → (s'.view h')[j]? = some z → cmpLe cmp y z
  /-- behind the parent nothing moves -/
  above : ∀ j, (s.len - 1) / 2 < j → j < s.len → (s'.view h')[j]? = (s.view h)[j]?

theorem BSlice.push_ok (g : Growth) (cmp : α → α → Ordering) (hc : TotalCmp cmp) {h : SHeap α} {s : Slice}
    (hv : s.Valid h) (hh : IsHeap cmp (s.view h)) (x : α) : ∃ h' s', Pushed g cmp h s x h' s' := by
  have hl := view_length hv
  have hga := good_append g hv [x]
  generalize hp : s.goAppend g h [x] = p at hga
  obtain ⟨h1, s1⟩ := p
  simp only at hga
  obtain ⟨gv, ge, gl, ga, gf⟩ := hga
  have hd1 : s1.view h1 = s.view h ++ [x] := by
    have := congrArg Vec.data ge
    rw [Vec.goAppend_data] at this
    exact this
  have hs1 : s1.len = s.len + 1 := by
    have := view_length gv
    rw [hd1] at this
    simp only [List.length_append, List.length_singleton] at this; omega
  have hpl : s.len < (s1.toVec h1).data.length := by
    show s.len < (s1.view h1).length
    rw [hd1]; simp; omega
  have hup : UpInv cmp (s1.toVec h1).data s.len := by
    show UpInv cmp (s1.view h1) s.len
    rw [hd1]
    constructor
    · intro i a b hi hne ha hb
      have h1 := (List.getElem?_eq_some_iff.1 ha).1
      simp only [List.length_append, List.length_singleton] at h1
      rw [List.getElem?_append_left (by omega)] at ha hb
      exact hh i a b hi ha hb
    · intro i a b hp hi hpi ha hb
      have h1 := (List.getElem?_eq_some_iff.1 ha).1
      simp only [List.length_append, List.length_singleton] at h1
      omega
  obtain ⟨v', p', e1, e2, e3, e4⟩ := BHeap.siftUp_eq cmp hc (s1.toVec h1) s.len hpl hup
  have hlen : v'.data.length = s1.len := by rw [e3.length_eq]; exact view_length gv
  have hwb := good_writeBack gv v'.data hlen s1.len (Nat.le_refl _)
  rw [List.take_of_length_le (by omega)] at hwb
  have hvec : s1.toVec (s1.writeBack h1 v'.data) = v' := by
    have := hwb.2.1
    rw [show (⟨s1.arr, s1.len⟩ : Slice) = s1 from rfl] at this
    rw [this]
    obtain ⟨d, c⟩ := v'
    simp only at e4
    rw [e4]; rfl
  have hview : s1.view (s1.writeBack h1 v'.data) = v'.data := congrArg Vec.data hvec
  have hxs : (s1.toVec h1).data[s.len]? = some x := by
    show (s1.view h1)[s.len]? = some x
    rw [hd1, List.getElem?_append_right (by omega), hl]; simp
  have e1' := e1
  unfold BHeap.siftUp Vec.getUnchecked at e1'
  rw [index_lt hpl] at e1'
  simp only [Go.bind_ok] at e1'
  have hx0 : (s1.toVec h1).data[s.len] = x := by
    have := List.getElem?_eq_getElem hpl
    rw [hxs] at this; exact (Option.some.inj this).symm
  rw [hx0] at e1'
  have hold : ∀ j, j < s.len → (s1.toVec h1).data[j]? = (s.view h)[j]? := by
    intro j hj
    show (s1.view h1)[j]? = _
    rw [hd1, List.getElem?_append_left (by omega)]
  refine ⟨s1.writeBack h1 v'.data, s1, ?_, ?_, ?_, ?_, ?_, hs1, ?_, ?_, ?_, ?_, ?_, ?_, ?_⟩
  · have e1'' : BHeap.siftUp cmp ⟨s1.view h1, (s1.array h1).length⟩ 0 s.len = .ok (some (v', p')) := e1
    simp only [BSlice.push, hp, e1'', Go.bind_ok, Option.map_some]
  · unfold BHeap.push
    have : (s.toVec h).push g x = s1.toVec h1 := ge.symm
    have hsl : (⟨s.toVec h⟩ : BHeap α).len = s.len := hl
    rw [hsl]
    simp only [this, e1, Go.bind_ok, Option.map_some, hvec]
  · rw [hvec]
    have hg1 : Good h s h1 s1 (s1.toVec h1) := ⟨gv, rfl, gl, ga, gf⟩
    refine hg1.trans ?_
    have : v' = ⟨v'.data, (s1.array h1).length⟩ := by
      obtain ⟨d, c⟩ := v'
      simp only at e4
      rw [e4]; rfl
    rw [this]
    exact hwb
  · rw [hview]; exact e2
  · rw [hview]
    refine e3.trans ?_
    show (s1.view h1).Perm _
    rw [hd1]
    exact List.perm_append_comm
  · intro hr
    have ha : s1.arr = s.arr := by
      have := congrArg (fun p => p.2.arr) hp
      simp only [goAppend, List.length_singleton] at this
      rw [if_pos (by omega)] at this
      exact this.symm
    refine ⟨ha, ?_⟩
    have h2 := congrArg Vec.cap hvec
    have h3 : (s1.array h1).length = (s.array h).length := by
      have h4 := congrArg Vec.cap ge
      have h5 : ((s.toVec h).goAppend g [x]).cap = (s.array h).length := by
        simp only [Vec.goAppend, toVec, hl, List.length_singleton]
        rw [if_pos (by omega)]
      exact h4.trans h5
    rw [e4] at h2
    exact h2.trans h3
  · intro hfull
    have := congrArg (fun p => p.2.arr) hp
    simp only [goAppend, List.length_singleton] at this
    rw [if_neg (by omega)] at this
    simp only at this
    omega
  · intro hst
    rw [hview]
    unfold BHeap.siftUpLoop at e1'
    by_cases h0 : s.len > 0
    · rw [if_pos h0] at e1'
      have hpar : (s.len - 1) / 2 < (s1.toVec h1).data.length := by omega
      simp only [index_lt hpar, Go.bind_ok] at e1'
      have hne := hst _ h0 (by rw [← hold _ (by omega)]; exact List.getElem?_eq_getElem hpar)
      rw [if_pos (by revert hne; cases cmp x _ <;> simp)] at e1'
      cases e1'
      exact hd1
    · rw [if_neg h0] at e1'
      cases e1'
      exact hd1
  · intro p h0 hpp hgt
    rw [hview]
    unfold BHeap.siftUpLoop at e1'
    rw [if_pos h0] at e1'
    have hpar : (s.len - 1) / 2 < (s1.toVec h1).data.length := by omega
    simp only [index_lt hpar, Go.bind_ok] at e1'
    have hpe : (s1.toVec h1).data[(s.len - 1) / 2] = p := by
      have := List.getElem?_eq_getElem hpar
      rw [hold _ (by omega), hpp] at this
      exact (Option.some.inj this).symm
    rw [hpe, if_neg (by rw [hgt]; simp)] at e1'
    obtain ⟨v1, f1, f2, f3, f4, f5⟩ := (s1.toVec h1).swap_ok s.len ((s.len - 1) / 2) hpl hpar
    simp only [f1, Go.bind_ok] at e1'
    rw [BHeap.siftUpLoop_keeps cmp _ _ _ _ _ _ (by omega) e1' s.len (by omega) (.inl (by omega)), f5, if_pos rfl,
      hold _ (by omega), hpp]
  · intro j hj hle
    rw [hview, BHeap.siftUpLoop_keeps cmp _ _ _ _ _ _ hpl e1' j (by omega) (.inr (by rw [hold j hj]; exact hle)),
      hold j hj]
  · intro j y z hj hy hz
    rw [hview] at hz
    exact (BHeap.siftUpLoop_rises cmp hc _ _ _ _ _ _ hxs hup e1').1 j y z (by omega) (by rw [hold j hj]; exact hy) hz
  · intro j hj1 hj
    rw [hview, ← hold j hj]
    unfold BHeap.siftUpLoop at e1'
    rw [if_pos (by omega)] at e1'
    have hpar : (s.len - 1) / 2 < (s1.toVec h1).data.length := by omega
    simp only [index_lt hpar, Go.bind_ok] at e1'
    split at e1'
    · cases e1'; rfl
    · obtain ⟨v1, f1, f2, f3, f4, f5⟩ := (s1.toVec h1).swap_ok s.len ((s.len - 1) / 2) hpl hpar
      simp only [f1, Go.bind_ok] at e1'
      rw [BHeap.siftUpLoop_keeps cmp _ _ _ _ _ _ (by omega) e1' j (by omega) (.inl hj1), f5, if_neg (by omega),
        if_neg (by omega)]

/-! ### C124 -/

/-- What the header `s` shows after a Push through a copy that had room. -/
theorem BSlice.Pushed.old_view {g : Growth} {cmp : α → α → Ordering} {h h' : SHeap α} {s s' : Slice} {x : α}
    (p : BSlice.Pushed g cmp h s x h' s') (hr : s.len < (s.array h).length) :
    s.view h' = (s'.view h').take s.len := by
  have h1 := (p.room hr).1
  have h2 := p.len
  unfold view
  rw [show s'.array h' = s.array h' by simp only [array, h1], List.take_take]
  congr 1
  omega

/-- C124, in part: after `c := b` for a valid heap `b`, a Push through `b` leaves the contents of `c` alone exactly
when the array is full, the heap is empty, or the new element is not greater than the parent of its place.
Missing: the other calls of Push, and Pop (`C124_copy_push_fails`, `C124_copy_pop_fails`). -/
theorem C124_copy_push_partial (g : Growth) (cmp : α → α → Ordering) (hc : TotalCmp cmp) {h : SHeap α} {b : Slice}
    (hv : b.Valid h) (hh : IsHeap cmp (b.view h)) (x : α) :
    ∃ h' b', BSlice.push g cmp h b x = .ok (some (h', b')) ∧ IsHeap cmp (b'.view h') ∧
      (b'.view h').Perm (x :: b.view h) ∧
      ((b.view h').Perm (b.view h) ↔ b.len = (b.array h).length ∨
        ∀ p, (b.view h)[(b.len - 1) / 2]? = some p → cmp x p ≠ .gt) := by
  obtain ⟨h', b', p⟩ := BSlice.push_ok g cmp hc hv hh x
  have hl := view_length hv
  refine ⟨h', b', p.run, p.heap, p.perm, ?_⟩
  by_cases hf : b.len = (b.array h).length
  · have : b.view h' = b.view h := by
      -- everything but the array of `b` is framed; that one too, since the new array is another one
      have hpush := p.run
      have hga : b.goAppend g h [x] = (h ++ [(b.array h).take b.len ++ [x] ++ List.replicate
          (g.newCap (b.array h).length (b.len + 1) - (b.len + 1)) default], ⟨h.length, b.len + 1⟩) := by
        unfold goAppend
        simp only [List.length_singleton]
        rw [if_neg (by omega)]
      simp only [BSlice.push, hga] at hpush
      generalize BHeap.siftUp cmp _ 0 b.len = r at hpush
      match r with
      | .error e => cases hpush
      | .ok none => cases hpush
      | .ok (some q) =>
        simp only [Go.bind_ok, Option.map_some, Except.ok.injEq, Option.some.injEq, Prod.mk.injEq] at hpush
        rw [← hpush.1]
        unfold view array writeBack
        simp only
        have := hv.1
        rw [List.getElem?_set_ne (by omega), List.getElem?_append_left hv.1]
    rw [this]
    exact ⟨fun _ => .inl hf, fun _ => .refl _⟩
  · have hr : b.len < (b.array h).length := by have := hv.2; omega
    rw [p.old_view hr]
    constructor
    · intro hp
      right
      intro q hq hgt
      have h0 : 0 < b.len := by
        have := (List.getElem?_eq_some_iff.1 hq).1
        omega
      have hm := p.moved q h0 hq hgt
      have hb' : (b'.view h').length = b.len + 1 := by
        rw [p.perm.length_eq]; simp [hl]
      have hsplit : b'.view h' = (b'.view h').take b.len ++ [q] := by
        have h1 := List.take_append_drop b.len (b'.view h')
        have h2 : (b'.view h').drop b.len = [q] := by
          rw [List.drop_eq_getElem_cons (by omega), List.drop_of_length_le (by omega)]
          rw [List.getElem?_eq_getElem (by omega)] at hm
          rw [Option.some.inj hm]
        rw [h2] at h1; exact h1.symm
      have h3 : (b.view h ++ [q]).Perm (x :: b.view h) := by
        refine (List.Perm.append_right [q] hp.symm).trans ?_
        rw [← hsplit]; exact p.perm
      have h4 : (q :: b.view h).Perm (x :: b.view h) :=
        (List.perm_append_comm (l₁ := [q]) (l₂ := b.view h)).trans h3
      -- count the elements that are not less than `x`
      have h5 := h4.countP_eq (fun z => decide (cmp x z ≠ .gt))
      rw [List.countP_cons, List.countP_cons, if_neg (by simp [hgt]), if_pos (by have := hc.refl x; unfold cmpLe at this; simpa using this)] at h5
      omega
    · rintro (h1 | h1)
      · omega
      · rw [p.stay (fun q _ hq => h1 q hq), List.take_append_of_le_length (by omega),
          List.take_of_length_le (by omega)]

/-- C124, heaps that do not share an array: a Push to one does what it does to an unshared heap (`BHeap.push`,
property C66) and leaves the other alone; afterwards they still share nothing. -/
theorem C124_disjoint_push (g : Growth) (cmp : α → α → Ordering) (hc : TotalCmp cmp) {h : SHeap α} {b w : Slice}
    (hv : b.Valid h) (hw : w.Valid h) (hd : b.arr ≠ w.arr) (hh : IsHeap cmp (b.view h)) (x : α) :
    ∃ h' b', BSlice.push g cmp h b x = .ok (some (h', b')) ∧
      BHeap.push g cmp ⟨b.toVec h⟩ x = .ok (some ⟨b'.toVec h'⟩) ∧ w.toVec h' = w.toVec h ∧ b'.Valid h' ∧
      w.Valid h' ∧ b'.arr ≠ w.arr := by
  obtain ⟨h', b', p⟩ := BSlice.push_ok g cmp hc hv hh x
  obtain ⟨g1, _, g3, g4, g5⟩ := p.good
  have hwa : w.array h' = w.array h := by
    simp only [array, g5 w.arr hw.1 (Ne.symm hd)]
  refine ⟨h', b', p.run, p.pure, by simp only [toVec, view, hwa], g1, ⟨by have := hw.1; omega, by
    rw [hwa]; exact hw.2⟩, ?_⟩
  have := hw.1
  rcases g4 with g4 | g4
  · rw [g4]; exact hd
  · omega

/-- C124 fails: with room in the array, a Push through each of two copies of a heap; the first element is lost, and
the heap it was pushed to has the second one instead. -/
theorem C124_copy_push_fails (g : Growth) (cmp : α → α → Ordering) (hc : TotalCmp cmp) {h : SHeap α} {b : Slice}
    (hv : b.Valid h) (hh : IsHeap cmp (b.view h)) (hr : b.len < (b.array h).length) (x y : α)
    (hx : ∀ p, (b.view h)[(b.len - 1) / 2]? = some p → cmp x p ≠ .gt) :
    ∃ h1 b1 h2 c1, BSlice.push g cmp h b x = .ok (some (h1, b1)) ∧ BSlice.push g cmp h1 b y = .ok (some (h2, c1)) ∧
      (b1.view h1).Perm (x :: b.view h) ∧ (b1.view h2).Perm (y :: b.view h) := by
  obtain ⟨h1, b1, p⟩ := BSlice.push_ok g cmp hc hv hh x
  have hl := view_length hv
  have hold : b.view h1 = b.view h := by
    rw [p.old_view hr, p.stay (fun q _ hq => hx q hq), List.take_append_of_le_length (by omega),
      List.take_of_length_le (by omega)]
  obtain ⟨harr, hcap⟩ := p.room hr
  have harr1 : (b.array h1).length = (b.array h).length := by
    rw [← hcap]; simp only [array, harr]
  have hv1 : b.Valid h1 := ⟨by have := p.good.1.1; rw [harr] at this; exact this, by rw [harr1]; exact hv.2⟩
  obtain ⟨h2, c1, q⟩ := BSlice.push_ok g cmp hc hv1 (by rw [hold]; exact hh) y
  refine ⟨h1, b1, h2, c1, p.run, q.run, p.perm, ?_⟩
  have hc1 := q.room (by rw [harr1]; exact hr)
  have : b1.view h2 = c1.view h2 := by
    have e1 := p.len
    have e2 := q.len
    unfold view array
    rw [harr, hc1.1, e1, e2]
  rw [this, ← hold]
  exact q.perm

/-- Pop on the array of a heap of two or more elements, of which the first may have been overwritten: it was `y`. -/
theorem BSlice.pop_view (cmp : α → α → Ordering) (hc : TotalCmp cmp) {h : SHeap α} {b : Slice}
    (hv : b.Valid h) {m y t : α} {l : List α} (hview : b.view h = m :: (l ++ [t])) (hh : IsHeap cmp (y :: (l ++ [t]))) :
    ∃ h' b', BSlice.pop cmp h b = .ok (some (h', b', Opt.some m)) ∧ (b'.view h').Perm (l ++ [t]) ∧
      (b.view h').Perm (t :: (l ++ [t])) := by
  have hl := view_length hv
  rw [hview] at hl
  simp only [List.length_cons, List.length_append, List.length_nil] at hl
  have ⟨hv1, hv2⟩ := hv
  have harray : b.array h = m :: (l ++ [t]) ++ (b.array h).drop b.len := by
    rw [← hview]; exact (List.take_append_drop _ _).symm
  let s : Slice := ⟨b.arr, b.len - 1⟩
  have hsv : s.Valid h := ⟨hv1, by show b.len - 1 ≤ (b.array h).length; omega⟩
  have hsview : s.view h = m :: l := by
    have : s.view h = (b.view h).take (b.len - 1) := by
      unfold view
      rw [List.take_take]
      show ((b.array h).take (b.len - 1)) = _
      congr 1; omega
    rw [this, hview, show b.len - 1 = (m :: l).length by simp; omega, ← List.cons_append, List.take_left]
  have hi1 : index (b.view h) (b.len - 1) = .ok t := by
    rw [hview, index, show b.len - 1 = (m :: l).length by simp; omega, ← List.cons_append]
    simp
  have hg1 := good_writeBack hsv (t :: l) (by show (t :: l).length = b.len - 1; simp; omega) s.len (Nat.le_refl _)
  rw [List.take_of_length_le (by show (t :: l).length ≤ b.len - 1; simp; omega)] at hg1
  have hvec1 : s.toVec (s.writeBack h (t :: l)) = ⟨t :: l, (s.array h).length⟩ := hg1.2.1
  have hmono : DownInv cmp (t :: l) 0 := by
    have hml : IsHeap cmp (y :: l) := by
      have := hh.take (b.len - 1)
      rw [show b.len - 1 = (y :: l).length by simp; omega, ← List.cons_append, List.take_left] at this
      exact this
    refine ⟨?_, by intro i x y h; omega⟩
    intro i x y hi _ hp hx hy
    rw [show i = (i - 1) + 1 by omega, List.getElem?_cons_succ] at hx
    rw [show (i - 1) / 2 = ((i - 1) / 2 - 1) + 1 by omega, List.getElem?_cons_succ] at hy
    refine hml i x y hi ?_ ?_
    · rw [show i = (i - 1) + 1 by omega, List.getElem?_cons_succ]; exact hx
    · rw [show (i - 1) / 2 = ((i - 1) / 2 - 1) + 1 by omega, List.getElem?_cons_succ]; exact hy
  obtain ⟨v', e1, e2, e3, e4⟩ := BHeap.siftDownToBottom_eq cmp hc ⟨t :: l, (s.array h).length⟩ (by simp) hmono
  have hv'len : v'.data.length = s.len := by
    rw [e3.length_eq]; show (t :: l).length = b.len - 1; simp; omega
  have hg2 := good_writeBack hg1.1 v'.data hv'len s.len (Nat.le_refl _)
  refine ⟨s.writeBack (s.writeBack h (t :: l)) v'.data, s, ?_, ?_, ?_⟩
  · have hset : setIndex (s.view h) 0 t = .ok (t :: l) := by rw [hsview]; rfl
    have hix : index (s.view h) 0 = .ok m := by rw [hsview]; rfl
    have e1' : BHeap.siftDownToBottom cmp ⟨s.view (s.writeBack h (t :: l)),
        (s.array (s.writeBack h (t :: l))).length⟩ 0 = .ok (some v') := by
      have : (⟨s.view (s.writeBack h (t :: l)), (s.array (s.writeBack h (t :: l))).length⟩ : Vec α) =
        ⟨t :: l, (s.array h).length⟩ := hvec1
      rw [this]; exact e1
    simp only [BSlice.pop]
    rw [if_neg (by omega), hi1]
    simp only [Go.bind_ok]
    rw [if_pos (by omega)]
    show (do
      let x ← index (s.view h) 0
      let d ← setIndex (s.view h) 0 t
      let r ← BHeap.siftDownToBottom cmp ⟨s.view (s.writeBack h d), (s.array (s.writeBack h d)).length⟩ 0
      Except.ok (r.map fun v => (s.writeBack (s.writeBack h d) v.data, s, Opt.some x)) : Go _) = _
    simp only [hix, hset, Go.bind_ok, e1', Option.map_some]
  · have : s.view (s.writeBack (s.writeBack h (t :: l)) v'.data) = v'.data := by
      have := congrArg Vec.data hg2.2.1
      rw [List.take_of_length_le (by omega)] at this
      exact this
    rw [this]
    exact e3.trans (List.perm_append_comm (l₁ := [t]) (l₂ := l))
  · have ha1 : s.array (s.writeBack h (t :: l)) = t :: l ++ (s.array h).drop s.len :=
      array_set h s hv1 _ s.len
    have ha2 : b.array (s.writeBack (s.writeBack h (t :: l)) v'.data) =
        v'.data ++ (s.array (s.writeBack h (t :: l))).drop s.len :=
      array_set (s.writeBack h (t :: l)) s (by simpa [writeBack] using hv1) _ b.len
    have hdrop : (s.array h).drop s.len = t :: (b.array h).drop b.len := by
      show (b.array h).drop (b.len - 1) = _
      conv => lhs; rw [harray]
      rw [show m :: (l ++ [t]) ++ List.drop b.len (b.array h) = (m :: l) ++ (t :: List.drop b.len (b.array h)) by simp]
      rw [show b.len - 1 = (m :: l).length by simp; omega, List.drop_left]
    have hbl : b.len = v'.data.length + 1 := by
      rw [hv'len]; show b.len = b.len - 1 + 1; omega
    unfold view
    rw [ha2, ha1, hdrop, show s.len = (t :: l).length by show b.len - 1 = _; simp; omega, List.drop_left, hbl,
      show v'.data ++ t :: List.drop (v'.data.length + 1) (b.array h) =
        (v'.data ++ [t]) ++ List.drop (v'.data.length + 1) (b.array h) by simp,
      List.take_append_of_le_length (by simp), List.take_of_length_le (by simp)]
    exact (List.Perm.append_right [t] e3)

/-- C124 fails: after `c := b` for a valid heap of two or more elements, a Pop through `b` takes the greatest element
out of `c` as well, and leaves the last element twice in it. -/
theorem C124_copy_pop_fails (cmp : α → α → Ordering) (hc : TotalCmp cmp) {h : SHeap α} {b : Slice}
    (hv : b.Valid h) {m t : α} {l : List α} (hview : b.view h = m :: (l ++ [t])) (hh : IsHeap cmp (b.view h)) :
    ∃ h' b', BSlice.pop cmp h b = .ok (some (h', b', Opt.some m)) ∧ (b'.view h').Perm (l ++ [t]) ∧
      (b.view h').Perm (t :: (l ++ [t])) :=
  BSlice.pop_view cmp hc hv hview (hview ▸ hh)

/-! ### C125 -/

/-- A state of the loop of Append that works in place: the header `s` and the header `r` of the range share the
array, `k` more elements fit. -/
structure BSlice.Loop (cmp : α → α → Ordering) (h : SHeap α) (r s : Slice) (k : Nat) : Prop where
  valid : s.Valid h
  heap : IsHeap cmp (s.view h)
  arr : s.arr = r.arr
  le : r.len ≤ s.len
  room : s.len + k ≤ (s.array h).length

theorem BSlice.Loop.range_view {cmp : α → α → Ordering} {h : SHeap α} {r s : Slice} {k : Nat}
    (hl : BSlice.Loop cmp h r s k) : r.view h = (s.view h).take r.len := by
  unfold view
  rw [show s.array h = r.array h by simp only [array, hl.arr], List.take_take]
  congr 1
  have := hl.le
  omega

/-- One round. -/
theorem BSlice.Loop.step (g : Growth) {cmp : α → α → Ordering} (hc : TotalCmp cmp) {h : SHeap α} {r s : Slice}
    {k i : Nat} (hl : BSlice.Loop cmp h r s (k + 1)) (hi : i < r.len) :
    ∃ x h' s', (s.view h)[i]? = some x ∧ Pushed g cmp h s x h' s' ∧ BSlice.Loop cmp h' r s' k ∧
      BSlice.rangePush g cmp r (k + 1) i h s = BSlice.rangePush g cmp r k (i + 1) h' s' := by
  have hvl := view_length hl.valid
  have hle := hl.le
  have hir : i < (s.view h).length := by omega
  have hx : (s.view h)[i]? = some (s.view h)[i] := List.getElem?_eq_getElem hir
  obtain ⟨h', s', p⟩ := BSlice.push_ok g cmp hc hl.valid hl.heap (s.view h)[i]
  have hroom := hl.room
  have ⟨h1, h2⟩ := p.room (by omega)
  have h3 := p.len
  refine ⟨_, h', s', hx, p, ⟨p.good.1, p.heap, h1.trans hl.arr, by omega, by omega⟩, ?_⟩
  have hix : index (r.view h) i = .ok (s.view h)[i] := by
    rw [hl.range_view, index, List.getElem?_take_of_lt hi, hx]
  simp only [BSlice.rangePush, hix, Go.bind_ok, p.run]

/-- As long as the parents of the new places are not less than the elements read, nothing moves among the elements
still to be read, and the loop pushes exactly the elements of the range. -/
theorem BSlice.rangePush_stays (g : Growth) {cmp : α → α → Ordering} (hc : TotalCmp cmp) {r : Slice} {l : List α}
    (hlen : l.length = r.len)
    (hq : ∀ i x p, i + 2 < l.length → l[i]? = some x → l[(l.length + i - 1) / 2]? = some p → cmp x p ≠ .gt) :
    ∀ (k i : Nat) (h : SHeap α) (s : Slice), i + k = r.len → BSlice.Loop cmp h r s k → s.len = r.len + i →
      (s.view h).Perm (l ++ l.take i) → (∀ j, i ≤ j → j < r.len → (s.view h)[j]? = l[j]?) →
      (i + 2 < r.len → (s.view h).take r.len = l) →
      ∃ h' s', BSlice.rangePush g cmp r k i h s = .ok (some (h', s')) ∧ IsHeap cmp (s'.view h') ∧
        (s'.view h').Perm (l ++ l) := by
  intro k
  induction k with
  | zero =>
    intro i h s hik hl _ hp _ _
    refine ⟨h, s, rfl, hl.heap, ?_⟩
    rw [List.take_of_length_le (by omega)] at hp
    exact hp
  | succ k ih =>
    intro i h s hik hl hsl hp hrest hpre
    obtain ⟨x, h', s', hx, p, hl', he⟩ := hl.step g hc (i := i) (by omega)
    have hvl := view_length hl.valid
    have hxl : l[i]? = some x := by rw [← hrest i (Nat.le_refl _) (by omega)]; exact hx
    have htake : l.take (i + 1) = l.take i ++ [x] := by
      rw [List.take_add_one, hxl]; rfl
    have hperm : (s'.view h').Perm (l ++ l.take (i + 1)) := by
      rw [htake, ← List.append_assoc]
      refine p.perm.trans ?_
      refine (List.Perm.cons x hp).trans ?_
      exact (List.perm_append_comm (l₁ := [x]) (l₂ := l ++ l.take i))
    by_cases h2 : i + 2 < r.len
    · -- the parent is not less
      have hpar : (s.view h)[(s.len - 1) / 2]? = l[(l.length + i - 1) / 2]? := by
        have : l[(l.length + i - 1) / 2]? = ((s.view h).take r.len)[(l.length + i - 1) / 2]? := by rw [hpre h2]
        rw [this, List.getElem?_take_of_lt (by omega), show (s.len - 1) / 2 = (l.length + i - 1) / 2 by omega]
      have hst := p.stay (fun q _ hq' => hq i x q (by omega) hxl (by rw [← hpar]; exact hq'))
      obtain ⟨a, b, c, d, e⟩ := ih (i + 1) h' s' (by omega) hl' (by have := p.len; omega) hperm (by
        intro j hj hjr
        rw [hst, List.getElem?_append_left (by omega)]
        exact hrest j (by omega) hjr) (by
        intro _
        rw [hst, List.take_append_of_le_length (by omega)]
        exact hpre h2)
      exact ⟨a, b, he.trans c, d, e⟩
    · -- the parent has been read already
      obtain ⟨a, b, c, d, e⟩ := ih (i + 1) h' s' (by omega) hl' (by have := p.len; omega) hperm (by
        intro j hj hjr
        -- `j` is the last element of the range, the new place is `n + i` with parent at most `i`
        rw [← hrest j (by omega) hjr]
        exact p.above j (by omega) (by omega)) (by intro h; omega)
      exact ⟨a, b, he.trans c, d, e⟩

/-- If a place of the range holds a greatest element, then it is pushed when its turn comes. -/
theorem BSlice.rangePush_count (g : Growth) {cmp : α → α → Ordering} (hc : TotalCmp cmp) {r : Slice} {m y : α}
    {p : Nat} (hp : p < r.len) (hmy : cmp m y ≠ .gt) :
    ∀ (k i : Nat) (h : SHeap α) (s : Slice), i + k = r.len → BSlice.Loop cmp h r s k → (s.view h)[p]? = some y →
      (∀ z ∈ s.view h, cmp z y ≠ .gt) →
      ∃ h' s', BSlice.rangePush g cmp r k i h s = .ok (some (h', s')) ∧ IsHeap cmp (s'.view h') ∧
        s'.len = s.len + k ∧
        (s.view h).countP (fun z => decide (cmp m z ≠ .gt)) + (if i ≤ p then 1 else 0) ≤
          (s'.view h').countP (fun z => decide (cmp m z ≠ .gt)) := by
  intro k
  induction k with
  | zero =>
    intro i h s hik hl _ _
    refine ⟨h, s, rfl, hl.heap, rfl, ?_⟩
    rw [if_neg (by omega)]
    omega
  | succ k ih =>
    intro i h s hik hl hy hmax
    obtain ⟨x, h', s', hx, q, hl', he⟩ := hl.step g hc (i := i) (by omega)
    have hle := hl.le
    have hxy := hmax x (List.mem_of_getElem? hx)
    obtain ⟨h2, s2, e1, e2, e3, e4⟩ := ih (i + 1) h' s' (by omega) hl' (by
        rw [q.keeps p (by omega) (by intro z hz; rw [hy] at hz; cases hz; exact hxy), hy]) (by
        intro z hz
        rcases List.mem_cons.1 (q.perm.mem_iff.1 hz) with rfl | hz
        · exact hxy
        · exact hmax z hz)
    refine ⟨h2, s2, he.trans e1, e2, by have := q.len; omega, ?_⟩
    have hcnt := q.perm.countP_eq (fun z => decide (cmp m z ≠ .gt))
    rw [List.countP_cons] at hcnt
    by_cases hip : i = p
    · subst hip
      rw [hy] at hx; cases hx
      rw [if_pos (by simpa using hmy)] at hcnt
      rw [if_neg (by omega)] at e4
      rw [if_pos (Nat.le_refl _)]
      omega
    · by_cases hlt : i ≤ p
      · rw [if_pos hlt]
        rw [if_pos (by omega)] at e4
        split at hcnt <;> omega
      · rw [if_neg hlt]
        rw [if_neg (by omega)] at e4
        split at hcnt <;> omega

theorem BSlice.append_run (g : Growth) (cmp : α → α → Ordering) {h : SHeap α} {b : Slice}
    (hr : 3 * b.len ≤ (b.array h).length) (hsm : 3 * b.len < 2 ^ 63) :
    BSlice.append g cmp h b b = BSlice.rangePush g cmp b b.len 0 h b ∧
    BSlice.appendSelf g cmp h b = BSlice.rangePush g cmp b b.len 0 h b := by
  have h1 : usize (b.len + b.len) = b.len + b.len := by unfold usize; omega
  have h2 : usize (b.len + (b.len + b.len)) = b.len + (b.len + b.len) := by unfold usize; omega
  constructor
  · simp only [append, reserve, h1, h2]
    rw [if_neg (by omega)]
    rfl
  · simp only [appendSelf, reserve, h1, h2]
    rw [if_neg (by omega)]
    rfl

/-- C125, full property: Append of a heap to itself, or of a copy of it, pushes each of its elements once more.
Proved: for heaps whose array has room for three times its elements, of at most two elements, or where no
element (but the last two) is greater than the parent of the place it comes to.
Missing: the other heaps (`C125_self_append_fails`); without room Append adds zero values (`C68_append_fails`). -/
theorem C125_self_append_partial (g : Growth) (cmp : α → α → Ordering) (hc : TotalCmp cmp) {h : SHeap α} {b : Slice}
    (hv : b.Valid h) (hh : IsHeap cmp (b.view h)) (hr : 3 * b.len ≤ (b.array h).length) (hsm : 3 * b.len < 2 ^ 63)
    (hq : ∀ i x p, i + 2 < b.len → (b.view h)[i]? = some x → (b.view h)[(b.len + i - 1) / 2]? = some p →
      cmp x p ≠ .gt) :
    ∃ h' b', BSlice.appendSelf g cmp h b = .ok (some (h', b')) ∧ BSlice.append g cmp h b b = .ok (some (h', b')) ∧
      IsHeap cmp (b'.view h') ∧ (b'.view h').Perm (b.view h ++ b.view h) := by
  have hl := view_length hv
  obtain ⟨e1, e2⟩ := BSlice.append_run g cmp hr hsm
  rw [e1, e2]
  obtain ⟨h', b', r1, r2, r3⟩ := BSlice.rangePush_stays g hc hl (by rw [hl]; exact hq) b.len 0 h b (by omega)
    ⟨hv, hh, rfl, Nat.le_refl _, by omega⟩ rfl (by simp) (fun _ _ _ => rfl)
    (fun _ => List.take_of_length_le (by omega))
  exact ⟨h', b', r1, r1, r2, r3⟩

/-- C125 fails: for every heap of at least three elements with only one greatest element (and room in its array),
Append of the heap to itself or of a copy leaves the greatest element at least three times in it, not twice. -/
theorem C125_self_append_fails (g : Growth) (cmp : α → α → Ordering) (hc : TotalCmp cmp) {h : SHeap α} {b : Slice}
    (hv : b.Valid h) (hh : IsHeap cmp (b.view h)) (hr : 3 * b.len ≤ (b.array h).length) (hsm : 3 * b.len < 2 ^ 63)
    (h3 : 3 ≤ b.len) {m : α} {l : List α} (hview : b.view h = m :: l) (huniq : ∀ z ∈ l, cmp m z = .gt) :
    ∃ h' b', BSlice.appendSelf g cmp h b = .ok (some (h', b')) ∧ BSlice.append g cmp h b b = .ok (some (h', b')) ∧
      b'.len = 2 * b.len ∧ 3 ≤ (b'.view h').countP (fun z => decide (cmp m z ≠ .gt)) ∧
      (b.view h ++ b.view h).countP (fun z => decide (cmp m z ≠ .gt)) = 2 ∧
      ¬ (b'.view h').Perm (b.view h ++ b.view h) := by
  have hl := view_length hv
  obtain ⟨e1, e2⟩ := BSlice.append_run g cmp hr hsm
  rw [e1, e2]
  have hmm : cmp m m ≠ .gt := hc.refl m
  have hcl : l.countP (fun z => decide (cmp m z ≠ .gt)) = 0 := by
    rw [List.countP_eq_zero]
    intro z hz
    simp [huniq z hz]
  have hc1 : (b.view h).countP (fun z => decide (cmp m z ≠ .gt)) = 1 := by
    rw [hview, List.countP_cons, hcl, if_pos (by simpa using hmm)]
  have hloop : BSlice.Loop cmp h b b ((b.len - 1) + 1) := ⟨hv, hh, rfl, Nat.le_refl _, by omega⟩
  obtain ⟨x, h1, s1, hx, q, hl1, he⟩ := hloop.step g hc (i := 0) (by omega)
  have hxm : x = m := by rw [hview] at hx; simpa using hx.symm
  subst hxm
  have hroot := hh.root hc x hx
  have hc2 : (s1.view h1).countP (fun z => decide (cmp x z ≠ .gt)) = 2 := by
    rw [q.perm.countP_eq, List.countP_cons, hc1, if_pos (by simpa using hmm)]
  -- the second copy is next to the root
  have h0 : (s1.view h1)[0]? = some x := by
    rw [q.keeps 0 (by omega) (by intro z hz; rw [hx] at hz; cases hz; exact hmm), hx]
  obtain ⟨t, ht⟩ : ∃ t, s1.view h1 = x :: t := by
    cases hs : s1.view h1 with
    | nil => rw [hs] at h0; simp at h0
    | cons a t => rw [hs] at h0; simp at h0; exact ⟨t, by rw [h0]⟩
  have hct : 0 < t.countP (fun z => decide (cmp x z ≠ .gt)) := by
    rw [ht, List.countP_cons, if_pos (by simpa using hmm)] at hc2
    omega
  obtain ⟨y0, hy0, hy0m⟩ := List.countP_pos_iff.1 hct
  obtain ⟨j0, hj0⟩ := List.getElem?_of_mem hy0
  -- follow the parents up to a child of the root
  have hup : ∀ (j : Nat) (y : α), 0 < j → (s1.view h1)[j]? = some y → cmp x y ≠ .gt →
      ∃ p z, (p = 1 ∨ p = 2) ∧ (s1.view h1)[p]? = some z ∧ cmp x z ≠ .gt := by
    intro j
    induction j using Nat.strongRecOn with
    | ind j ih =>
      intro y hj hy hxy
      by_cases hj2 : j ≤ 2
      · exact ⟨j, y, by omega, hy, hxy⟩
      · have hlt := (List.getElem?_eq_some_iff.1 hy).1
        have hpl : (j - 1) / 2 < (s1.view h1).length := by omega
        refine ih ((j - 1) / 2) (by omega) _ (by omega) (List.getElem?_eq_getElem hpl) ?_
        exact hc.trans _ _ _ hxy (q.heap j y _ hj hy (List.getElem?_eq_getElem hpl))
  obtain ⟨p, z, hp, hz, hxz⟩ := hup (j0 + 1) y0 (by omega) (by rw [ht]; simpa using hj0) (by simpa using hy0m)
  obtain ⟨h2, s2, r1, r2, r3, r4⟩ := BSlice.rangePush_count g hc (r := b) (m := x) (y := z) (p := p) (by omega) hxz
    (b.len - 1) 1 h1 s1 (by omega) hl1 hz (by
      intro w hw
      refine hc.trans _ x _ ?_ hxz
      rcases List.mem_cons.1 (q.perm.mem_iff.1 hw) with rfl | hw
      · exact hmm
      · exact hroot w hw)
  have hrun : BSlice.rangePush g cmp b b.len 0 h b = .ok (some (h2, s2)) := by
    rw [show b.len = (b.len - 1) + 1 by omega, he]; exact r1
  rw [hc2, if_pos (by omega)] at r4
  have hdbl : (b.view h ++ b.view h).countP (fun z => decide (cmp x z ≠ .gt)) = 2 := by
    rw [List.countP_append, hc1]
  refine ⟨h2, s2, hrun, hrun, by have := q.len; omega, r4, hdbl, fun hperm => ?_⟩
  rw [hperm.countP_eq, hdbl] at r4
  omega

/-- The loop on any heap: what is read in a round is not less than what was there at the start. -/
theorem BSlice.rangePush_all (g : Growth) {cmp : α → α → Ordering} (hc : TotalCmp cmp) {r : Slice} :
    ∀ (k i : Nat) (h : SHeap α) (s : Slice), i + k = r.len → BSlice.Loop cmp h r s k →
      ∃ h' s' q, BSlice.rangePush g cmp r k i h s = .ok (some (h', s')) ∧ IsHeap cmp (s'.view h') ∧
        (s'.view h').Perm (s.view h ++ q) ∧ q.length = k ∧
        (∀ j x y, (s.view h)[i + j]? = some x → q[j]? = some y → cmpLe cmp x y) ∧ ∀ y ∈ q, y ∈ s.view h := by
  intro k
  induction k with
  | zero =>
    intro i h s _ hl
    exact ⟨h, s, [], rfl, hl.heap, by simp, rfl, by simp, by simp⟩
  | succ k ih =>
    intro i h s hik hl
    obtain ⟨x, h', s', hx, p, hl', he⟩ := hl.step g hc (i := i) (by omega)
    obtain ⟨h2, s2, q, e1, e2, e3, e4, e5, e6⟩ := ih (i + 1) h' s' (by omega) hl'
    have hxm := List.mem_of_getElem? hx
    have hle := hl.le
    have hlen := view_length hl'.valid
    have hlen0 := view_length hl.valid
    refine ⟨h2, s2, x :: q, he.trans e1, e2, ?_, by simp [e4], ?_, ?_⟩
    · refine e3.trans ((p.perm.append_right q).trans ?_)
      exact (List.perm_middle (a := x) (l₁ := s.view h) (l₂ := q)).symm
    · intro j y z hy hz
      cases j with
      | zero =>
        rw [Nat.add_zero, hx] at hy
        simp only [List.getElem?_cons_zero] at hz
        cases hy; cases hz
        exact hc.refl x
      | succ j =>
        rw [List.getElem?_cons_succ] at hz
        have hjq := (List.getElem?_eq_some_iff.1 hz).1
        have hpl := p.len
        have hlt : i + 1 + j < (s'.view h').length := by omega
        have hn := List.getElem?_eq_getElem hlt
        refine hc.trans _ _ _ (p.rises (i + 1 + j) y _ (by omega) ?_ hn) (e5 j _ z hn hz)
        rw [show i + 1 + j = i + (j + 1) by omega]; exact hy
    · intro y hy
      rcases List.mem_cons.1 hy with rfl | hy
      · exact hxm
      · rcases List.mem_cons.1 (p.perm.mem_iff.1 (e6 y hy)) with rfl | h
        · exact hxm
        · exact h

theorem countP_le_pointwise {P : α → Bool} : ∀ (l q : List α), q.length = l.length →
    (∀ (j : Nat) x y, l[j]? = some x → q[j]? = some y → P x = true → P y = true) → l.countP P ≤ q.countP P
  | [], _, _, _ => by simp
  | x :: l, [], h, _ => by simp at h
  | x :: l, y :: q, h, hq => by
    have ih := countP_le_pointwise l q (by simpa using h) (fun j a b ha hb => hq (j + 1) a b ha hb)
    have h0 := hq 0 x y rfl rfl
    rw [List.countP_cons, List.countP_cons]
    by_cases hx : P x = true
    · rw [if_pos hx, if_pos (h0 hx)]; omega
    · rw [if_neg hx]; split <;> omega

/-- C125 for every heap with room in its array: nothing is lost when it is appended to itself or to a copy.  The heap
keeps its elements and gets as many more (`q`), all of them its own elements, the `i`-th not less than the `i`-th of
the heap; so the elements that are at least `m` are at least doubled in number, for every `m`. -/
theorem C125_self_append_no_loss (g : Growth) (cmp : α → α → Ordering) (hc : TotalCmp cmp) {h : SHeap α} {b : Slice}
    (hv : b.Valid h) (hh : IsHeap cmp (b.view h)) (hr : 3 * b.len ≤ (b.array h).length) (hsm : 3 * b.len < 2 ^ 63) :
    ∃ h' b' q, BSlice.appendSelf g cmp h b = .ok (some (h', b')) ∧ BSlice.append g cmp h b b = .ok (some (h', b')) ∧
      IsHeap cmp (b'.view h') ∧ (b'.view h').Perm (b.view h ++ q) ∧ q.length = b.len ∧ (∀ y ∈ q, y ∈ b.view h) ∧
      (∀ (i : Nat) x y, (b.view h)[i]? = some x → q[i]? = some y → cmpLe cmp x y) ∧
      ∀ m, 2 * (b.view h).countP (fun z => decide (cmp m z ≠ .gt)) ≤
        (b'.view h').countP (fun z => decide (cmp m z ≠ .gt)) := by
  have hl := view_length hv
  obtain ⟨e1, e2⟩ := BSlice.append_run g cmp hr hsm
  rw [e1, e2]
  obtain ⟨h', b', q, r1, r2, r3, r4, r5, r6⟩ := BSlice.rangePush_all g hc (r := b) b.len 0 h b (by omega)
    ⟨hv, hh, rfl, Nat.le_refl _, by omega⟩
  simp only [Nat.zero_add] at r5
  refine ⟨h', b', q, r1, r1, r2, r3, r4, r6, r5, fun m => ?_⟩
  rw [r3.countP_eq, List.countP_append]
  have := countP_le_pointwise (P := fun z => decide (cmp m z ≠ .gt)) (b.view h) q (by omega) (by
    intro j x y hx hy hP
    simp only [decide_eq_true_eq] at hP ⊢
    exact hc.trans _ _ _ hP (r5 j x y hx hy))
  omega

-- a heap 3 1 2 with room for nine: appended to itself, 3 is there three times, 1 once
example : (match BSlice.appendSelf doubling (compare : Nat → Nat → Ordering) [[3, 1, 2, 0, 0, 0, 0, 0, 0]] ⟨0, 3⟩ with
    | .ok (some (h, s)) => s.view h
    | _ => []) = [3, 3, 2, 1, 3, 2] := by decide
-- 3 3 2 is doubled
example : (match BSlice.appendSelf doubling (compare : Nat → Nat → Ordering) [[3, 3, 2, 0, 0, 0, 0, 0, 0]] ⟨0, 3⟩ with
    | .ok (some (h, s)) => s.view h
    | _ => []) = [3, 3, 2, 3, 3, 2] := by decide
example : Slice.Valid [[3, 1, 2, 0, 0, 0, 0, 0, 0]] ⟨0, 3⟩ ∧
    (⟨0, 3⟩ : Slice).view [[3, 1, 2, 0, 0, 0, 0, 0, 0]] = [3, 1, 2] := ⟨⟨by decide, by decide⟩, rfl⟩
-- a push of 9 through a copy of 3 1 2 with room puts 9 into the original and takes 1 out
example : (match BSlice.push doubling (compare : Nat → Nat → Ordering) [[3, 1, 2, 0]] ⟨0, 3⟩ 9 with
    | .ok (some (h, s)) => (s.view h, (⟨0, 3⟩ : Slice).view h)
    | _ => ([], [])) = ([9, 3, 2, 1], [9, 3, 2]) := by decide
-- a pop through a copy
example : (match BSlice.pop (compare : Nat → Nat → Ordering) [[3, 1, 2]] ⟨0, 3⟩ with
    | .ok (some (h, s, o)) => (s.view h, (⟨0, 3⟩ : Slice).view h, o.value)
    | _ => ([], [], none)) = ([2, 1], [2, 1, 2], some 3) := by decide
end Gost
