import Verif.Model.CollectHeap
import Verif.Props.IterHeap
import Verif.Props.HeapSlice
/-
Property C141: vectors that a program gets out of an iterator or a BinaryHeap.
-/
set_option linter.unusedSectionVars false
namespace Gost
open Spec Slice

variable {α : Type} [Inhabited α]

theorem SIter.collectLoop_eq (g : Growth) (w : Slice) {h0 : SHeap α} (n : Nat) (h : SHeap α) (p : Nat) (vec : Slice)
    (hw : w.Valid h0) (hp : p ≤ w.len) (hn : w.len < p + n) (v : Vec α) (hg : Good h0 ⟨h0.length, 0⟩ h vec v) :
    ∃ h' t v', SIter.collectLoop g n h ⟨w, p⟩ vec = .ok (some (h', t)) ∧ Good h0 ⟨h0.length, 0⟩ h' t v' ∧
      v'.data = v.data ++ (w.view h0).drop p := by
  have hl := view_length hw
  induction n generalizing h p vec v with
  | zero => omega
  | succ n ih =>
    obtain ⟨g1, g2, g3, g4, g5⟩ := hg
    have hframe := toVec_frame (g5 w.arr hw.1 (by have := hw.1; show w.arr ≠ h0.length; omega))
    have hview : w.view h = w.view h0 := congrArg Vec.data hframe.1
    have hwv : w.Valid h := ⟨by have := hw.1; omega, by rw [hframe.2]; exact hw.2⟩
    simp only [SIter.collectLoop]
    rw [SIter.next_eq h ⟨w, p⟩ hwv]
    simp only [Go.bind_ok, hview]
    by_cases hlt : p < w.len
    · have hget : (w.view h0)[p]? = some ((w.view h0)[p]'(by omega)) := List.getElem?_eq_getElem (by omega)
      rw [hget, show min (p + 1) (max p w.len) = p + 1 by omega]
      simp only [Opt.isNone, Opt.unwrap, deref_some, Go.bind_ok, Bool.false_eq_true, if_false]
      have ga := good_append g g1 [(w.view h0)[p]'(by omega)]
      have gt : Good h0 ⟨h0.length, 0⟩ h vec v := ⟨g1, g2, g3, g4, g5⟩
      obtain ⟨h', t, v', e1, e2, e3⟩ := ih _ (p + 1) _ (by omega) (by omega) _ (gt.trans ga)
      refine ⟨h', t, v', e1, e2, ?_⟩
      rw [e3, Vec.goAppend_data, g2, List.append_assoc]
      congr 1
      rw [List.drop_eq_getElem_cons (by omega : p < (w.view h0).length)]
      rfl
    · rw [List.getElem?_eq_none (by omega)]
      simp only [Opt.isNone, if_true]
      refine ⟨h, vec, v, rfl, ⟨g1, g2, g3, g4, g5⟩, ?_⟩
      rw [List.drop_eq_nil_of_le (by omega), List.append_nil]

/-- C141 for the iterator of a Vec: CollectToVec gives a vector of the elements that Next has not given yet; every vector of
the program, so also the one the iterator goes over, is as it was; and from then on every interleaved history of operations on
the new vector and on any of them is that of two separate vectors. -/
theorem C141_vec (g : Growth) (S : SortLib) (h : SHeap α) (it : SIter) (hv : it.vec.Valid h)
    (hp : it.position ≤ it.vec.len) :
    ∃ h' t, it.collectToVec g h = .ok (some (h', t)) ∧ t.view h' = (it.vec.view h).drop it.position ∧
      ∀ w : Slice, w.Valid h → w.toVec h' = w.toVec h ∧
        ∀ ops : List (Bool × MOp α),
          (match runHeap2 g S ops h' w t with
            | .ok (h'', w', t') => .ok (w'.toVec h'', t'.toVec h'')
            | .error e => .error e) = runPure2 g S ops (w.toVec h) (t.toVec h') := by
  obtain ⟨w0, p⟩ := it
  obtain ⟨h', t, v', e1, ⟨g1, g2, g3, g4, g5⟩, e3⟩ := SIter.collectLoop_eq g w0 (w0.len + 1) _ p _ hv hp (by omega) _
    (good_make (h := h) (s := ⟨h.length, 0⟩) 0 0 (Nat.le_refl _))
  refine ⟨h', t, e1, ?_, ?_⟩
  · have := congrArg Vec.data g2
    rw [e3] at this
    simpa [toVec] using this
  · intro w hw
    have hf := toVec_frame (g5 w.arr hw.1 (by have := hw.1; show w.arr ≠ h.length; omega))
    refine ⟨hf.1, fun ops => ?_⟩
    have := C89_disjoint_vecs_independent g S ops h' w t
      ⟨by have := hw.1; omega, by rw [hf.2]; exact hw.2⟩ g1
      (by have := hw.1; rcases g4 with a | a
          · have : t.arr = h.length := a
            omega
          · omega)
    rw [hf.1] at this
    exact this

/-- The rest of an iterator over three elements, then changes on both sides. -/
example :
    (do
      let r ← SIter.collectToVec doubling ([[1, 2, 3, 0]] : SHeap Nat) ⟨⟨0, 3⟩, 1⟩
      match r with
      | none => .ok none
      | some (h, t) => do
        let (h, w, t) ← runHeap2 doubling mergeSortLib [(true, .push 9), (false, .push 8), (true, .setUnchecked 0 7),
          (false, .pop)] h ⟨0, 3⟩ t
        .ok (some (w.view h, t.view h)) : Go _) = .ok (some ([1, 2, 3], [7, 3, 9])) := by decide

theorem runHeap2_quiet (g : Growth) (S : SortLib) (ops : List (MOp α)) (h : SHeap α) (s w : Slice) (hs : s.Valid h)
    (hw : w.Valid h) (own : Bool) (m : Nat) (hq : Spec.vecQuiet w.len own m (ops.map some) = true)
    (hinv : s.arr ≠ w.arr ∨ (own = false ∧ s.len = m)) :
    match runHeap2 g S (ops.map fun op => (false, op)) h s w with
    | .ok (h', s', w') => w' = w ∧ w.view h' = w.view h ∧
        runPure2 g S (ops.map fun op => (false, op)) (s.toVec h) (w.toVec h) = .ok (s'.toVec h', w.toVec h)
    | .error e => runPure2 g S (ops.map fun op => (false, op)) (s.toVec h) (w.toVec h) = .error e := by
  induction ops generalizing h s own m with
  | nil => exact ⟨rfl, rfl, rfl⟩
  | cons op ops ih =>
    simp only [List.map_cons, runHeap2, runPure2]
    have hg := op.heap_good g S hs
    cases hop : op.heap g S h s with
    | error e => rw [hop] at hg; simp only at hg; rw [hg]; rfl
    | ok q =>
      obtain ⟨h1, s1⟩ := q
      rw [hop] at hg
      obtain ⟨v, e1, e2⟩ := hg
      obtain ⟨hview, own', m', hq', hinv'⟩ := vecQuiet_step g S op hs hw hop own m _ hq hinv
      have hval := op.heap_valid g S hs hw hop
      have htw : w.toVec h1 = w.toVec h := by unfold toVec; rw [hview, hval.2]
      have := ih h1 s1 e2.1 hval.1 own' m' hq' hinv'
      rw [e1]
      simp only [Go.bind_ok]
      rw [e2.2.1, htw, hview] at this
      exact this

/-- C89, full property: after `w := v` operations on one variable never change the elements of the other.  Proved for whole
histories through one of the two: any number of Push while the vector is not shorter than the copy, any number of Pop, and
everything after a Clear or a Retain (`Spec.vecQuiet`) leave the copy alone and act as on a vector of its own.  Missing:
operations that write in place, and Push after Pop, see `C89_copy_fails` and `C138_vec_fails`. -/
theorem C89_copy_history_partial (g : Growth) (S : SortLib) (ops : List (MOp α)) (h : SHeap α) (v : Slice)
    (hv : v.Valid h) (hq : Spec.vecQuiet v.len false v.len (ops.map some) = true) :
    match runHeap2 g S (ops.map fun op => (false, op)) h v v with
    | .ok (h', v', w') => w'.view h' = v.view h ∧
        runPure2 g S (ops.map fun op => (false, op)) (v.toVec h) (v.toVec h) = .ok (v'.toVec h', v.toVec h)
    | .error e => runPure2 g S (ops.map fun op => (false, op)) (v.toVec h) (v.toVec h) = .error e := by
  have := runHeap2_quiet g S ops h v v hv hv false v.len hq (.inr ⟨rfl, rfl⟩)
  cases hr : runHeap2 g S (ops.map fun op => (false, op)) h v v with
  | error e => rw [hr] at this; exact this
  | ok q =>
    obtain ⟨h', v', w'⟩ := q
    rw [hr] at this
    exact ⟨by rw [this.1]; exact this.2.1, this.2.2⟩

/-- Two pushes into the room of the shared array, a Pop, and a Reverse after a Retain. -/
example :
    (runHeap2 doubling mergeSortLib ([.push 7, .push 8, .pop, .retain (· ≠ 2), .reverse].map fun op => (false, op))
        ([[3, 2, 1, 0, 0]] : SHeap Nat) ⟨0, 3⟩ ⟨0, 3⟩).toOption.map (fun r => (r.2.1.view r.1, r.2.2.view r.1)) =
      some ([7, 1, 3], [3, 2, 1]) ∧
    Spec.vecQuiet 3 false 3 ([.push 7, .push 8, .pop, .retain (· ≠ 2), .reverse].map (some : MOp Nat → _)) = true := by
  decide

/-- C141, full property: the vector CollectToVec gives belongs to the caller, nothing done to it is seen anywhere else.
Proved for the iterators of HashMap, HashSet, BTreeMap and BTreeSet, whose CollectToVec gives the vector of the iterator itself,
and the histories of `Spec.vecQuiet` on the collected vector: Next of the iterator gives the elements it
would have given anyway, and the vector behaves as one of its own.  Missing: operations that write in place, and Push
after Pop, see `C141_shared_fails`. -/
theorem C141_shared_partial (g : Growth) (S : SortLib) (es : List (Option (MOp α))) (h : SHeap α) (it : SIter)
    (hv : it.vec.Valid h) (hp : it.position ≤ it.vec.len)
    (hq : Spec.vecQuiet it.vec.len false it.vec.len es = true) :
    match runVecIter g S es h it.collectShared it with
    | .error e => runVecOps g S es (it.vec.toVec h) = .error e
    | .ok (rs, h', s', _) => runVecOps g S es (it.vec.toVec h) = .ok (s'.toVec h') ∧
        rs = Spec.yields ((it.vec.view h).drop it.position) (es.countP (·.isNone)) := by
  obtain ⟨w, p⟩ := it
  have h1 := runVecIter_spec g S es h w w p hv hv hp
  simp only [SIter.collectShared]
  cases hr : runVecIter g S es h w ⟨w, p⟩ with
  | error e => rw [hr] at h1; exact h1
  | ok q =>
    obtain ⟨rs, h', s', it'⟩ := q
    rw [hr] at h1
    refine ⟨h1.1, ?_⟩
    have := runVecIter_quiet g S es h w w p hv hv hp false w.len hq (.inr ⟨rfl, rfl⟩) rs (h', s', it') hr
    rw [h1.2.1] at this
    exact this

/-- Pushes to the collected keys and a Retain while the iterator goes on. -/
example :
    (runVecIter doubling mergeSortLib [some (.push 9), none, some (.retain (· > 2)), some (.fill 0), none, none]
        ([[1, 2, 3, 0]] : SHeap Nat) (SIter.collectShared ⟨⟨0, 3⟩, 1⟩) ⟨⟨0, 3⟩, 1⟩).toOption.map
        (fun r => (r.1, r.2.2.1.view r.2.1)) = some ([some 2, some 3, none], [0, 0]) ∧
    Spec.vecQuiet 3 false 3 [some (.push 9), none, some (.retain (· > 2)), some (.fill 0), none, (none : Option (MOp Nat))] =
      true := by decide

/-- C141 is violated by the iterators of HashMap, HashSet, BTreeMap and BTreeSet: with an element left, a Set on the collected
vector changes what Next gives, and what a second CollectToVec gives; and if there is room, of two Pushes to
two collected vectors the first is lost. -/
theorem C141_shared_fails (g : Growth) (S : SortLib) (h : SHeap α) (it : SIter) (hv : it.vec.Valid h) (x y : α) :
    (it.position < it.vec.len →
      ∃ h' it', (MOp.setUnchecked it.position x).heap g S h it.collectShared = .ok (h', it.collectShared) ∧
        it.next h' = .ok (it', Opt.some x) ∧
        it.collectShared.view h' = (it.vec.view h).set it.position x) ∧
    (it.vec.len < (it.vec.array h).length →
      ∃ h1 s1 h2 w1, (MOp.push x).heap g S h it.collectShared = .ok (h1, s1) ∧
        (MOp.push y).heap g S h1 it.collectShared = .ok (h2, w1) ∧
        s1.view h1 = it.vec.view h ++ [x] ∧ s1.view h2 = it.vec.view h ++ [y]) := by
  obtain ⟨w, p⟩ := it
  have hl := view_length hv
  refine ⟨fun hp => ?_, fun hroom => C89_copy_fails g S h w hv hroom x y⟩
  simp only [SIter.collectShared] at *
  have hop : MOp.heap g S (.setUnchecked p x) h w = .ok (w.writeBack h ((w.view h).set p x), w) := by
    simp only [MOp.heap]
    rw [setIndex_lt (by omega)]
    rfl
  have hg := good_writeBack hv ((w.view h).set p x) (by simpa using hl) w.len (Nat.le_refl _)
  have hview : w.view (w.writeBack h ((w.view h).set p x)) = (w.view h).set p x := by
    have := congrArg Vec.data hg.2.1
    simp only at this
    rw [List.take_of_length_le (by simp; omega)] at this
    exact this
  refine ⟨w.writeBack h ((w.view h).set p x), ⟨w, min (p + 1) (max p w.len)⟩, hop, ?_, hview⟩
  rw [SIter.next_eq _ _ hg.1, hview, List.getElem?_set_self (by omega)]
  rfl

/-- Three collected keys. -/
example :
    ((MOp.setUnchecked 1 9).heap doubling mergeSortLib ([[1, 2, 3, 0]] : SHeap Nat) (SIter.collectShared ⟨⟨0, 3⟩, 1⟩)).toOption.map
      (fun r => ((SIter.next r.1 ⟨⟨0, 3⟩, 1⟩).toOption.map (·.2.value), r.2.view r.1)) =
      some (some (some 9), [1, 9, 3]) := by decide

/-- C141 is violated by IntoVec (and AsSlice) of every nonempty BinaryHeap: after a Set at index 0 of the vector the heap's
Pop gives the new element, however small it is. -/
theorem C141_into_vec_set_fails (g : Growth) (S : SortLib) (cmp : α → α → Ordering) (hc : TotalCmp cmp) {h : SHeap α}
    {b : Slice} (hv : b.Valid h) (hne : 0 < b.len) (hh : IsHeap cmp (b.view h)) (x : α) :
    ∃ h1 h2 b', (MOp.setUnchecked 0 x).heap g S h (BSlice.intoVec b) = .ok (h1, BSlice.intoVec b) ∧
      BSlice.pop cmp h1 b = .ok (some (h2, b', Opt.some x)) := by
  have hl := view_length hv
  have hop : MOp.heap g S (.setUnchecked 0 x) h b = .ok (b.writeBack h ((b.view h).set 0 x), b) := by
    simp only [MOp.heap]
    rw [setIndex_lt (by omega)]
    rfl
  have hg := good_writeBack hv ((b.view h).set 0 x) (by simpa using hl) b.len (Nat.le_refl _)
  have hview : b.view (b.writeBack h ((b.view h).set 0 x)) = (b.view h).set 0 x := by
    have := congrArg Vec.data hg.2.1
    simp only at this
    rw [List.take_of_length_le (by simp; omega)] at this
    exact this
  suffices hs : ∃ h2 b', BSlice.pop cmp (b.writeBack h ((b.view h).set 0 x)) b = .ok (some (h2, b', Opt.some x)) by
    obtain ⟨h2, b', e⟩ := hs
    exact ⟨_, h2, b', hop, e⟩
  cases hb : b.view h with
  | nil => rw [hb] at hl; simp only [List.length_nil] at hl; omega
  | cons m r =>
    rw [hb] at hview hh hl hg
    simp only [List.set_cons_zero] at hview hg ⊢
    rcases List.eq_nil_or_concat r with rfl | ⟨l, t, rfl⟩
    · simp only [List.length_singleton] at hl
      refine ⟨b.writeBack h [x], ⟨b.arr, b.len - 1⟩, ?_⟩
      unfold BSlice.pop
      rw [if_neg (by omega), hview, ← hl]
      rfl
    · rw [List.concat_eq_append] at *
      obtain ⟨h2, b', e, _⟩ := BSlice.pop_view cmp hc hg.1 hview hh
      exact ⟨h2, b', e⟩

/-- C141 is violated by IntoVec (and AsSlice) of every BinaryHeap of two or more elements: the next Pop of the heap changes
the vector, from which the greatest element disappears and in which the last one is there twice. -/
theorem C141_into_vec_pop_fails (cmp : α → α → Ordering) (hc : TotalCmp cmp) {h : SHeap α} {b : Slice}
    (hv : b.Valid h) {m t : α} {l : List α} (hview : (BSlice.intoVec b).view h = m :: (l ++ [t]))
    (hh : IsHeap cmp (b.view h)) :
    ∃ h' b', BSlice.pop cmp h b = .ok (some (h', b', Opt.some m)) ∧
      ((BSlice.intoVec b).view h').Perm (t :: (l ++ [t])) := by
  obtain ⟨h', b', e, _, p⟩ := C124_copy_pop_fails cmp hc hv hview hh
  exact ⟨h', b', e, p⟩

/-- IntoVec of the heap 5, 3, 4; after 0 is written to index 0, Pop gives 0 although 4 is there. -/
example :
    ((MOp.setUnchecked 0 0).heap doubling mergeSortLib ([[5, 3, 4]] : SHeap Nat) (BSlice.intoVec ⟨0, 3⟩)).toOption.map
      (fun r => match BSlice.pop (compare : Nat → Nat → Ordering) r.1 ⟨0, 3⟩ with
        | .ok (some (h, s, o)) => (o.value, s.view h)
        | _ => (none, [])) = some (some 0, [4, 3]) := by decide
example : IsHeap (compare : Nat → Nat → Ordering) [5, 3, 4] := by
  intro i x y hi hx hy
  match i, hi with
  | 1, _ => cases hx; cases hy; unfold cmpLe; decide
  | 2, _ => cases hx; cases hy; unfold cmpLe; decide
  | n + 3, _ => simp at hx

end Gost
