import Verif.Model.IterHeap
import Verif.Props.SliceHeap
import Verif.Props.DequeHeap
import Verif.Props.LinkedIter
/-
C138: iterators that were taken before a change of the container.
-/
set_option linter.unusedSectionVars false
namespace Gost
open Spec Slice

variable {α : Type} [Inhabited α]

/-! ### Vec -/

/-- A history of a vector and an iterator taken from it: an event is an operation on the vector, or a call of Next (`none`).
The results of the calls of Next, and the final heap, vector and iterator; or the first panic. -/
def runVecIter (g : Growth) (S : SortLib) : List (Option (MOp α)) → SHeap α → Slice → SIter →
    Go (List (Option α) × SHeap α × Slice × SIter)
  | [], h, s, it => .ok ([], h, s, it)
  | none :: es, h, s, it => do
    let (it, o) ← it.next h
    let (rs, z) ← runVecIter g S es h s it
    .ok (o.value :: rs, z)
  | some op :: es, h, s, it => do
    let (h, s) ← op.heap g S h s
    runVecIter g S es h s it

/-- The operations alone. -/
def runVecOps (g : Growth) (S : SortLib) : List (Option (MOp α)) → Vec α → Go (Vec α)
  | [], v => .ok v
  | none :: es, v => runVecOps g S es v
  | some op :: es, v => do
    let v ← op.pure g S v
    runVecOps g S es v

/-- What `k` calls of Next on an iterator over `xs` should give: the elements in order, then None for ever. -/
def Spec.yields (xs : List α) (k : Nat) : List (Option α) := (List.range k).map fun i => xs[i]?

/-- Histories that an iterator over a vector of `n` elements does not notice.  `own`: has Clear or Retain given the vector
a new array?  `m`: its length.  With an array of its own everything is harmless; before that Pop always, and Push as long as
the vector is not shorter than it was. -/
def Spec.vecQuiet (n : Nat) : Bool → Nat → List (Option (MOp α)) → Bool
  | _, _, [] => true
  | own, m, none :: es => vecQuiet n own m es
  | true, m, some _ :: es => vecQuiet n true m es
  | false, m, some (.push _) :: es => decide (n ≤ m) && vecQuiet n false (m + 1) es
  | false, m, some .pop :: es => vecQuiet n false (m - 1) es
  | false, m, some .clear :: es => vecQuiet n true m es
  | false, m, some (.retain _) :: es => vecQuiet n true m es
  | false, _, some _ :: _ => false

namespace SIter

theorem next_eq (h : SHeap α) (it : SIter) (hv : it.vec.Valid h) :
    it.next h = .ok (⟨it.vec, min (it.position + 1) (max it.position it.vec.len)⟩, ⟨(it.vec.view h)[it.position]?⟩) := by
  have hl := Slice.view_length hv
  unfold next
  by_cases hp : it.position ≥ it.vec.len
  · rw [if_pos hp, List.getElem?_eq_none (by omega)]
    congr 2
    cases it
    simp only [SIter.mk.injEq, true_and]
    simp only at hp
    omega
  · rw [if_neg hp, index_lt (by omega), List.getElem?_eq_getElem (by omega)]
    simp only [Go.bind_ok, Opt.some]
    congr 3
    omega

end SIter

/-- What an operation does to the arrays: it writes into the array of the vector, of which the length stays, or it gives the
vector a new array and leaves all the others. -/
theorem MOp.heap_frame (g : Growth) (S : SortLib) (op : MOp α) {h h' : SHeap α} {s s' : Slice} (hv : s.Valid h)
    (he : op.heap g S h s = .ok (h', s')) :
    (s'.arr = s.arr ∧ ∃ d, h' = h.set s.arr d ∧ d.length = (s.array h).length) ∨
    (h.length ≤ s'.arr ∧ h.length ≤ h'.length ∧ ∀ i, i < h.length → h'[i]? = h[i]?) := by
  have hl := view_length hv
  obtain ⟨h1, h2⟩ := hv
  have hself : h = h.set s.arr (s.array h) := by
    apply List.ext_getElem?
    intro i
    by_cases hi : i = s.arr
    · subst hi
      rw [List.getElem?_set_self h1]
      simp [array, h1]
    · rw [List.getElem?_set_ne (Ne.symm hi)]
  have wb : ∀ (d : List α), d.length = s.len → ∃ e, s.writeBack h d = h.set s.arr e ∧ e.length = (s.array h).length := by
    intro d hd
    exact ⟨_, rfl, by simp; omega⟩
  have ga : ∀ v, ((s.goAppend g h [v]).2.arr = s.arr ∧ s.len < (s.array h).length ∧
      ∃ d, (s.goAppend g h [v]).1 = h.set s.arr d ∧ d.length = (s.array h).length) ∨
      ((s.goAppend g h [v]).2.arr = h.length ∧ ∃ d, (s.goAppend g h [v]).1 = h ++ [d]) := by
    intro v
    unfold goAppend
    simp only [List.length_singleton]
    by_cases hle : s.len + 1 ≤ (s.array h).length
    · rw [if_pos hle]
      exact .inl ⟨rfl, by omega, _, rfl, by simp; omega⟩
    · rw [if_neg hle]
      exact .inr ⟨rfl, _, rfl⟩
  have ext : ∀ d : List α, ∀ i, i < h.length → (h ++ [d])[i]? = h[i]? :=
    fun d i hi => List.getElem?_append_left hi
  cases op with
  | push v =>
    simp only [MOp.heap, Except.ok.injEq] at he
    rw [Prod.ext_iff] at he
    simp only at he
    obtain ⟨e1, e2⟩ := he
    rcases ga v with ⟨a, _, d, b, c⟩ | ⟨a, d, b⟩
    · exact .inl ⟨by rw [← e2]; exact a, d, by rw [← e1]; exact b, c⟩
    · refine .inr ⟨by rw [← e2, a]; exact Nat.le_refl _, by rw [← e1, b]; simp, ?_⟩
      rw [← e1, b]
      exact ext d
  | pop =>
    simp only [MOp.heap] at he
    by_cases h0 : s.len = 0
    · simp only [h0, if_true] at he
      cases he
      exact .inl ⟨rfl, _, hself, rfl⟩
    · simp only [h0, if_false] at he
      rw [index_lt (by omega)] at he
      cases he
      exact .inl ⟨rfl, _, hself, rfl⟩
  | clear =>
    simp only [MOp.heap, make] at he
    cases he
    exact .inr ⟨Nat.le_refl _, by simp, ext _⟩
  | insert i v =>
    have hv' := (good_append g ⟨h1, h2⟩ [v]).1
    have hg := ga v
    simp only [MOp.heap] at he
    have hl' := view_length hv'
    generalize hr : s.goAppend g h [v] = r at *
    obtain ⟨k, t⟩ := r
    simp only at he hg hv' hl'
    cases hcw : copyWithin (t.view k) (i + 1) i with
    | error e => rw [hcw] at he; simp at he
    | ok d =>
      rw [hcw] at he
      simp only [Go.bind_ok] at he
      have hd : d.length = t.len := by
        rw [← hl']
        unfold copyWithin at hcw
        split at hcw
        · next hb =>
          simp only [Bool.and_eq_true, decide_eq_true_eq] at hb
          cases hcw
          simp; omega
        · cases hcw
      have gb := good_writeBack hv' d hd _ (Nat.le_refl _)
      have hv2 : t.Valid (t.writeBack k d) := gb.1
      have hc2 : (t.array (t.writeBack k d)).length = (t.array k).length := congrArg Vec.cap gb.2.1
      have hl2 := view_length hv2
      by_cases hi : i < t.len
      · rw [setIndex_lt (by omega)] at he
        simp only [Go.bind_ok, Except.ok.injEq, Prod.mk.injEq] at he
        obtain ⟨rfl, rfl⟩ := he
        rcases hg with ⟨a, b, e, c, f⟩ | ⟨a, e, c⟩
        · refine .inl ⟨a, ((t.view (t.writeBack k d)).set i v ++ (t.array (t.writeBack k d)).drop t.len), ?_, ?_⟩
          · simp only [writeBack, a, c, List.set_set]
          · have hk : t.array k = e := by simp [array, a, c, h1]
            have := hv2.2
            simp only [List.length_append, List.length_set, List.length_drop]
            rw [hk] at hc2
            omega
        · have hkl : k.length = h.length + 1 := by rw [c]; simp
          refine .inr ⟨by omega, by simp [writeBack, hkl], ?_⟩
          intro j hj
          simp only [writeBack]
          rw [List.getElem?_set_ne (by omega), List.getElem?_set_ne (by omega), c]
          exact ext e j hj
      · rw [setIndex_ge (by omega)] at he
        simp at he
  | setUnchecked i v =>
    simp only [MOp.heap] at he
    by_cases hi : i < s.len
    · rw [setIndex_lt (by omega)] at he
      cases he
      obtain ⟨e, a, b⟩ := wb ((s.view h).set i v) (by simpa using hl)
      exact .inl ⟨rfl, e, a, b⟩
    · rw [setIndex_ge (by omega)] at he
      cases he
  | swap i j =>
    simp only [MOp.heap] at he
    cases hs : Vec.swapData (s.view h) i j with
    | error e => rw [hs] at he; cases he
    | ok d =>
      rw [hs] at he
      cases he
      obtain ⟨e, a, b⟩ := wb d (by rw [swapData_length hs, hl])
      exact .inl ⟨rfl, e, a, b⟩
  | reverse =>
    simp only [MOp.heap] at he
    obtain ⟨d, a1, a2, _⟩ := Vec.reverseLoop_eq ((s.view h).length / 2) 0 (s.view h) (by omega)
    rw [hl] at a1
    rw [a1] at he
    cases he
    obtain ⟨e, a, b⟩ := wb d (by omega)
    exact .inl ⟨rfl, e, a, b⟩
  | fill v =>
    simp only [MOp.heap] at he
    rw [Vec.fillLoop_eq v s.len 0 _ (by omega)] at he
    cases he
    obtain ⟨e, a, b⟩ := wb (List.take 0 (s.view h) ++ List.replicate s.len v) (by simp)
    exact .inl ⟨rfl, e, a, b⟩
  | dedup deq =>
    simp only [MOp.heap] at he
    by_cases h0 : s.len ≤ 1
    · simp only [h0, if_true] at he
      cases he
      exact .inl ⟨rfl, _, hself, rfl⟩
    · simp only [h0, if_false] at he
      obtain ⟨p', d, a, b, c⟩ := dedupLoop_length deq (s.len - 1) 1 0 (s.view h) (by omega) (by omega)
      rw [a] at he
      cases he
      obtain ⟨e, x, y⟩ := wb d (by omega)
      exact .inl ⟨rfl, e, x, y⟩
  | retain p =>
    simp only [MOp.heap, Except.ok.injEq] at he
    have := retain_fold g p (s.view h) _ _ _ (good_make (h := h) (s := ⟨h.length, 0⟩) 0 s.len (Nat.zero_le _))
      (by simp; omega)
    rw [Prod.ext_iff] at he
    simp only at he
    obtain ⟨e1, e2⟩ := he
    obtain ⟨_, _, a3, a4, a5⟩ := this
    refine .inr ⟨?_, by rw [← e1]; exact a3, ?_⟩
    · rw [← e2]
      rcases a4 with a | a
      · rw [a]; exact Nat.le_refl _
      · exact a
    · intro i hi
      rw [← e1]
      exact a5 i hi (by show i ≠ h.length; omega)
  | sortBy cmp =>
    cases he
    have hp := (S.stable_perm (Vec.less cmp) (s.view h)).length_eq
    obtain ⟨e, a, b⟩ := wb (S.stable (Vec.less cmp) (s.view h)) (by omega)
    exact .inl ⟨rfl, e, a, b⟩

/-- No operation shrinks an array, so another slice stays in bounds. -/
theorem MOp.heap_valid (g : Growth) (S : SortLib) (op : MOp α) {h h' : SHeap α} {s s' w : Slice} (hv : s.Valid h)
    (hw : w.Valid h) (he : op.heap g S h s = .ok (h', s')) :
    w.Valid h' ∧ (w.array h').length = (w.array h).length := by
  have hw1 := hw.1
  have key : (w.array h').length = (w.array h).length ∧ h.length ≤ h'.length := by
    rcases op.heap_frame g S hv he with ⟨_, d, rfl, c⟩ | ⟨_, b, c⟩
    · refine ⟨?_, by simp⟩
      by_cases hsw : s.arr = w.arr
      · unfold array
        rw [hsw, List.getElem?_set_self hw1]
        simp only [Option.getD_some]
        rw [c]
        unfold array
        rw [hsw]
      · unfold array
        rw [List.getElem?_set_ne hsw]
    · refine ⟨?_, b⟩
      unfold array
      rw [c _ hw1]
  exact ⟨⟨by omega, by rw [key.1]; exact hw.2⟩, key.1⟩

/-- The iterator over the slice `w` at position `p` after some calls of Next: what it has given and where it is. -/
theorem runVecIter_spec (g : Growth) (S : SortLib) (es : List (Option (MOp α))) (h : SHeap α) (s : Slice) (w : Slice)
    (p : Nat) (hs : s.Valid h) (hw : w.Valid h) (hp : p ≤ w.len) :
    match runVecIter g S es h s ⟨w, p⟩ with
    | .error e => runVecOps g S es (s.toVec h) = .error e
    | .ok (rs, h', s', it) => runVecOps g S es (s.toVec h) = .ok (s'.toVec h') ∧ rs.length = es.countP (·.isNone) ∧
        (∀ i, i < rs.length → ((rs[i]?).getD none).isSome = decide (p + i < w.len)) ∧
        it.vec = w ∧ w.Valid h' := by
  induction es generalizing h s p with
  | nil => exact ⟨rfl, rfl, by simp, rfl, hw⟩
  | cons e es ih =>
    cases e with
    | none =>
      simp only [runVecIter, runVecOps]
      rw [SIter.next_eq h ⟨w, p⟩ hw]
      simp only [Go.bind_ok]
      have hm : min (p + 1) (max p w.len) = if p < w.len then p + 1 else p := by split <;> omega
      rw [hm]
      have hvl := view_length hw
      have := ih h s (if p < w.len then p + 1 else p) hs hw (by split <;> omega)
      cases hr : runVecIter g S es h s ⟨w, if p < w.len then p + 1 else p⟩ with
      | error e => rw [hr] at this; exact this
      | ok q =>
        obtain ⟨rs, h', s', it⟩ := q
        rw [hr] at this
        obtain ⟨a1, a2, a3, a4⟩ := this
        refine ⟨a1, by simp [a2], ?_, a4⟩
        intro i hi
        cases i with
        | zero =>
          by_cases hlt : p < w.len
          · simp [hlt, hvl]
          · simp [hlt, hvl]
        | succ i =>
          simp only [List.getElem?_cons_succ]
          rw [a3 i (by simpa using hi)]
          by_cases hlt : p < w.len
          · rw [if_pos hlt]; congr 1; simp only [eq_iff_iff]; omega
          · rw [if_neg hlt]; congr 1; simp only [eq_iff_iff]; omega
    | some op =>
      simp only [runVecIter, runVecOps]
      have hg := op.heap_good g S hs
      cases hop : op.heap g S h s with
      | error e => rw [hop] at hg; simp only at hg; rw [hg]; rfl
      | ok q =>
        obtain ⟨h1, s1⟩ := q
        rw [hop] at hg
        obtain ⟨v, e1, e2⟩ := hg
        rw [e1]
        simp only [Go.bind_ok]
        have := ih h1 s1 p e2.1 (op.heap_valid g S hs hw hop).1 hp
        rw [e2.2.1] at this
        simpa using this

/-- C138: whatever is done to the vector between the calls of Next, iterating terminates and does no harm: the iterator
gives exactly as many elements as the vector had when it was taken, then None for ever; Next never panics and does not
change the vector, whose history is that without the iterator. -/
theorem C138_vec_count (g : Growth) (S : SortLib) (es : List (Option (MOp α))) (h : SHeap α) (s : Slice)
    (hs : s.Valid h) :
    match runVecIter g S es h s s.intoIter with
    | .error e => runVecOps g S es (s.toVec h) = .error e
    | .ok (rs, h', s', _) => runVecOps g S es (s.toVec h) = .ok (s'.toVec h') ∧
        rs.length = es.countP (·.isNone) ∧
        ∀ i, i < rs.length → ((rs[i]?).getD none).isSome = decide (i < s.len) := by
  have := runVecIter_spec g S es h s s 0 hs hs (Nat.zero_le _)
  unfold Slice.intoIter
  cases hr : runVecIter g S es h s ⟨s, 0⟩ with
  | error e => rw [hr] at this; exact this
  | ok q =>
    obtain ⟨rs, h', s', it⟩ := q
    rw [hr] at this
    obtain ⟨a1, a2, a3, _⟩ := this
    exact ⟨a1, a2, by simpa using a3⟩

/-- One harmless step. -/
theorem vecQuiet_step (g : Growth) (S : SortLib) (op : MOp α) {h h' : SHeap α} {s s' w : Slice} (hv : s.Valid h)
    (hw : w.Valid h) (he : op.heap g S h s = .ok (h', s')) (own : Bool) (m : Nat) (es : List (Option (MOp α)))
    (hq : Spec.vecQuiet w.len own m (some op :: es) = true)
    (hinv : s.arr ≠ w.arr ∨ (own = false ∧ s.len = m)) :
    w.view h' = w.view h ∧ ∃ own' m', Spec.vecQuiet w.len own' m' es = true ∧
      (s'.arr ≠ w.arr ∨ (own' = false ∧ s'.len = m')) := by
  have hw1 := hw.1
  have hf := op.heap_frame g S hv he
  have far : s.arr ≠ w.arr → w.view h' = w.view h ∧ s'.arr ≠ w.arr := by
    intro hne
    rcases hf with ⟨a, d, rfl, c⟩ | ⟨a, b, c⟩
    · refine ⟨?_, by omega⟩
      unfold view array
      rw [List.getElem?_set_ne hne]
    · refine ⟨?_, by omega⟩
      unfold view array
      rw [c _ hw1]
  have moved : h.length ≤ s'.arr → (∀ i, i < h.length → h'[i]? = h[i]?) →
      w.view h' = w.view h ∧ s'.arr ≠ w.arr := by
    intro a c
    refine ⟨?_, by omega⟩
    unfold view array
    rw [c _ hw1]
  by_cases hne : s.arr ≠ w.arr
  · obtain ⟨a, b⟩ := far hne
    refine ⟨a, ?_⟩
    cases own with
    | true => exact ⟨true, m, hq, .inl b⟩
    | false =>
      cases op <;> simp only [Spec.vecQuiet, Bool.and_eq_true, Bool.false_eq_true] at hq
      · exact ⟨_, _, hq.2, .inl b⟩
      · exact ⟨_, _, hq, .inl b⟩
      · exact ⟨_, _, hq, .inl b⟩
      · exact ⟨_, _, hq, .inl b⟩
  · have heq : s.arr = w.arr := by simpa using hne
    rcases hinv with hinv | ⟨rfl, hm⟩
    · exact absurd heq hinv
    · cases op <;> simp only [Spec.vecQuiet, Bool.and_eq_true, decide_eq_true_eq, Bool.false_eq_true] at hq
      · next v =>
        obtain ⟨hle, hq⟩ := hq
        simp only [MOp.heap, goAppend, List.length_singleton] at he
        by_cases hroom : s.len + 1 ≤ (s.array h).length
        · rw [if_pos hroom] at he
          cases he
          refine ⟨?_, false, m + 1, hq, .inr ⟨rfl, by simp [hm]⟩⟩
          have ha : w.array (h.set s.arr ((s.array h).take s.len ++ [v] ++ (s.array h).drop (s.len + 1))) =
              (s.array h).take s.len ++ [v] ++ (s.array h).drop (s.len + 1) := by
            unfold array
            rw [heq, List.getElem?_set_self hw1]
            rfl
          have hb : w.array h = s.array h := by unfold array; rw [heq]
          unfold view
          rw [ha, hb, List.append_assoc, List.take_append_of_le_length (by simp; omega), List.take_take,
            Nat.min_eq_left (by omega)]
        · rw [if_neg hroom] at he
          cases he
          obtain ⟨a, b⟩ := moved (Nat.le_refl _) (fun i hi => List.getElem?_append_left hi)
          exact ⟨a, false, m + 1, hq, .inl b⟩
      · simp only [MOp.heap] at he
        by_cases h0 : s.len = 0
        · simp only [h0, if_true] at he
          cases he
          exact ⟨rfl, _, _, hq, .inr ⟨rfl, by omega⟩⟩
        · simp only [h0, if_false] at he
          rw [index_lt (by have := view_length hv; omega)] at he
          cases he
          exact ⟨rfl, _, _, hq, .inr ⟨rfl, by simp [hm]⟩⟩
      · rcases hf with ⟨a, _⟩ | ⟨a, b, c⟩
        · simp only [MOp.heap, make] at he
          cases he
          have := hv.1
          simp only at a
          omega
        · obtain ⟨a, b⟩ := moved a c
          exact ⟨a, true, m, hq, .inl b⟩
      · rcases hf with ⟨a, _⟩ | ⟨a, b, c⟩
        · exfalso
          have hv1 := hv.1
          simp only [MOp.heap, Except.ok.injEq] at he
          have := retain_fold g ‹α → Bool› (s.view h) _ _ _
            (good_make (h := h) (s := ⟨h.length, 0⟩) 0 s.len (Nat.zero_le _)) (by have := view_length hv; simp; omega)
          obtain ⟨_, _, _, a4, _⟩ := this
          rw [Prod.ext_iff] at he
          rw [he.2] at a4
          simp only at a4
          omega
        · obtain ⟨a, b⟩ := moved a c
          exact ⟨a, true, m, hq, .inl b⟩

theorem runVecIter_quiet (g : Growth) (S : SortLib) (es : List (Option (MOp α))) (h : SHeap α) (s : Slice) (w : Slice)
    (p : Nat) (hs : s.Valid h) (hw : w.Valid h) (hp : p ≤ w.len) (own : Bool) (m : Nat)
    (hq : Spec.vecQuiet w.len own m es = true) (hinv : s.arr ≠ w.arr ∨ (own = false ∧ s.len = m))
    (rs : List (Option α)) (z : SHeap α × Slice × SIter) (hr : runVecIter g S es h s ⟨w, p⟩ = .ok (rs, z)) :
    rs = Spec.yields ((w.view h).drop p) rs.length := by
  induction es generalizing h s p own m rs z with
  | nil => cases hr; rfl
  | cons e es ih =>
    cases e with
    | none =>
      simp only [runVecIter] at hr
      rw [SIter.next_eq h ⟨w, p⟩ hw] at hr
      simp only [Go.bind_ok] at hr
      have hm : min (p + 1) (max p w.len) = if p < w.len then p + 1 else p := by split <;> omega
      rw [hm] at hr
      have hvl := view_length hw
      cases hc : runVecIter g S es h s ⟨w, if p < w.len then p + 1 else p⟩ with
      | error e => rw [hc] at hr; cases hr
      | ok q =>
        obtain ⟨rs', z'⟩ := q
        rw [hc] at hr
        simp only [Go.bind_ok, Except.ok.injEq, Prod.mk.injEq] at hr
        obtain ⟨rfl, rfl⟩ := hr
        have := ih h s (if p < w.len then p + 1 else p) hs hw (by split <;> omega) own m
          (by cases own <;> simpa [Spec.vecQuiet] using hq) hinv rs' z' hc
        unfold Spec.yields at this ⊢
        rw [List.length_cons, List.range_succ_eq_map, List.map_cons, List.map_map]
        congr 1
        · simp
        · rw [this]
          simp only [List.length_map, List.length_range]
          apply List.map_congr_left
          intro i _
          simp only [Function.comp, List.getElem?_drop]
          by_cases hlt : p < w.len
          · rw [if_pos hlt]; congr 1; omega
          · rw [if_neg hlt, List.getElem?_eq_none (by omega), List.getElem?_eq_none (by omega)]
    | some op =>
      simp only [runVecIter] at hr
      have hg := op.heap_good g S hs
      cases hop : op.heap g S h s with
      | error e => rw [hop] at hr; cases hr
      | ok q =>
        obtain ⟨h1, s1⟩ := q
        rw [hop] at hr hg
        simp only [Go.bind_ok] at hr
        obtain ⟨v, e1, e2⟩ := hg
        obtain ⟨hview, own', m', hq', hinv'⟩ := vecQuiet_step g S op hs hw hop own m es hq hinv
        have := ih h1 s1 p e2.1 (op.heap_valid g S hs hw hop).1 hp own' m' hq' hinv' rs z hr
        rw [hview] at this
        exact this

/-- C138, full property: an iterator gives the elements the vector had when the iterator was taken, whatever is done to the
vector in between.  Proved for the histories of `Spec.vecQuiet`: any number of Push while the vector is not shorter
than it was, any number of Pop, and everything after a Clear or a Retain.  Missing: operations that write in
place, and Push after Pop, see `C138_vec_fails`; `C138_vec_sees` says what the iterator gives then. -/
theorem C138_vec_partial (g : Growth) (S : SortLib) (es : List (Option (MOp α))) (h : SHeap α) (s : Slice)
    (hs : s.Valid h) (hq : Spec.vecQuiet s.len false s.len es = true) (rs : List (Option α))
    (z : SHeap α × Slice × SIter) (hr : runVecIter g S es h s s.intoIter = .ok (rs, z)) :
    rs = Spec.yields (s.view h) rs.length := by
  have := runVecIter_quiet g S es h s s 0 hs hs (Nat.zero_le _) false s.len hq (.inr ⟨rfl, rfl⟩) rs z hr
  simpa using this

/-- A loop that pushes every element it reads back on the vector ends; Clear and Fill in between are not seen. -/
example :
    (runVecIter doubling mergeSortLib [none, some (.push 1), none, some (.push 2), none, some .clear, some (.push 9),
        some (.fill 7), none] ([[1, 2, 3, 0]] : SHeap Nat) ⟨0, 3⟩ (Slice.intoIter ⟨0, 3⟩)).toOption.map (·.1) =
      some [some 1, some 2, some 3, none] ∧
    Spec.vecQuiet 3 false 3 [none, some (.push 1), none, some (.push 2), none, some .clear, some (.push 9),
        some (.fill 7), (none : Option (MOp Nat))] = true := by decide

theorem dedupLoop_drop (deq : α → α → Bool) (n i prev : Nat) (l l' : List α) (prev' : Nat)
    (hr : Vec.dedupLoop deq n i prev l = .ok (prev', l')) :
    prev ≤ prev' ∧ l'.drop (prev' + 1) = l.drop (prev' + 1) := by
  induction n generalizing i prev l with
  | zero => cases hr; exact ⟨Nat.le_refl _, rfl⟩
  | succ n ih =>
    simp only [Vec.dedupLoop] at hr
    cases h1 : index l prev with
    | error e => rw [h1] at hr; cases hr
    | ok x =>
      cases h2 : index l i with
      | error e => rw [h1, h2] at hr; cases hr
      | ok y =>
        rw [h1, h2] at hr
        simp only [Go.bind_ok] at hr
        split at hr
        · by_cases hb : prev + 1 < l.length
          · rw [setIndex_lt hb] at hr
            simp only [Go.bind_ok] at hr
            obtain ⟨a, b⟩ := ih (i + 1) (prev + 1) _ hr
            refine ⟨by omega, ?_⟩
            rw [b, List.drop_set_of_lt (by omega)]
          · rw [setIndex_ge (by omega)] at hr
            cases hr
        · exact ih (i + 1) prev l hr

/-- C138: what an iterator that has just been taken gives after one operation on the vector.  Push, Pop, Clear and Retain are not
seen; Set, Swap, Reverse, Fill and Sort show it the new elements; Insert does so, cut to the old length, unless the
vector was full; after Dedup it gives the remaining elements and then the old ones from that index on. -/
theorem C138_vec_sees (g : Growth) (S : SortLib) (op : MOp α) (h h' : SHeap α) (s s' : Slice) (hs : s.Valid h)
    (he : op.heap g S h s = .ok (h', s')) :
    s.view h' = match op with
      | .push _ | .pop | .clear | .retain _ => s.view h
      | .setUnchecked _ _ | .swap _ _ | .reverse | .fill _ | .sortBy _ => s'.view h'
      | .insert _ _ => if s.len < (s.array h).length then (s'.view h').take s.len else s.view h
      | .dedup _ => s'.view h' ++ (s.view h).drop s'.len := by
  have hl := view_length hs
  have hs1 := hs.1
  have hs2 := hs.2
  have quiet : Spec.vecQuiet s.len false s.len [some op] = true → s.view h' = s.view h := by
    intro hq
    exact (vecQuiet_step g S op hs hs he false s.len [] hq (.inr ⟨rfl, rfl⟩)).1
  cases op with
  | push v => exact quiet (by simp [Spec.vecQuiet])
  | pop => exact quiet (by simp [Spec.vecQuiet])
  | clear => exact quiet (by simp [Spec.vecQuiet])
  | retain p => exact quiet (by simp [Spec.vecQuiet])
  | setUnchecked i v =>
    simp only [MOp.heap] at he
    by_cases hi : i < s.len
    · rw [setIndex_lt (by omega)] at he
      cases he
      rfl
    · rw [setIndex_ge (by omega)] at he
      cases he
  | swap i j =>
    simp only [MOp.heap] at he
    cases hsw : Vec.swapData (s.view h) i j with
    | error e => rw [hsw] at he; cases he
    | ok d => rw [hsw] at he; cases he; rfl
  | reverse =>
    simp only [MOp.heap] at he
    obtain ⟨d, a1, a2, _⟩ := Vec.reverseLoop_eq ((s.view h).length / 2) 0 (s.view h) (by omega)
    rw [hl] at a1
    rw [a1] at he
    cases he
    rfl
  | fill v =>
    simp only [MOp.heap] at he
    rw [Vec.fillLoop_eq v s.len 0 _ (by omega)] at he
    cases he
    rfl
  | sortBy cmp => cases he; rfl
  | insert i v =>
    have hfull := hs.2
    have hg := MOp.heap_good g S (.insert i v) hs
    have hf := MOp.heap_frame g S (.insert i v) hs he
    have harr : s'.arr = (s.goAppend g h [v]).2.arr ∧ s'.len = s.len + 1 := by
      simp only [MOp.heap] at he
      have hlen : (s.goAppend g h [v]).2.len = s.len + 1 := by
        unfold goAppend
        simp only [List.length_singleton]
        split <;> rfl
      generalize s.goAppend g h [v] = r at he hlen ⊢
      obtain ⟨k, t⟩ := r
      simp only at he
      cases hcw : copyWithin (t.view k) (i + 1) i with
      | error e => rw [hcw] at he; simp at he
      | ok d =>
        rw [hcw] at he
        simp only [Go.bind_ok] at he
        cases hset : setIndex (t.view (t.writeBack k d)) i v with
        | error e => rw [hset] at he; simp at he
        | ok d' => rw [hset] at he; cases he; exact ⟨rfl, hlen⟩
    simp only
    by_cases hroom : s.len < (s.array h).length
    · rw [if_pos hroom]
      have : s'.arr = s.arr := by
        rw [harr.1]
        unfold goAppend
        simp only [List.length_singleton]
        rw [if_pos (by omega)]
      unfold view array
      rw [this, List.take_take, harr.2]
      congr 1
      omega
    · rw [if_neg hroom]
      have : s'.arr = h.length := by
        rw [harr.1]
        unfold goAppend
        simp only [List.length_singleton]
        rw [if_neg (by omega)]
      rcases hf with ⟨a, _⟩ | ⟨_, _, c⟩
      · omega
      · unfold view array
        rw [c _ hs1]
  | dedup deq =>
    simp only [MOp.heap] at he
    by_cases h0 : s.len ≤ 1
    · simp only [h0, if_true] at he
      cases he
      simp [← hl]
    · simp only [h0, if_false] at he
      obtain ⟨p', d, a, b, c⟩ := dedupLoop_length deq (s.len - 1) 1 0 (s.view h) (by omega) (by omega)
      have hdrop := (dedupLoop_drop deq (s.len - 1) 1 0 (s.view h) d p' a).2
      rw [a] at he
      cases he
      simp only
      have hg := good_writeBack hs d (by omega) s.len (Nat.le_refl _)
      have e1 : s.view (s.writeBack h d) = d := by
        have := congrArg Vec.data hg.2.1
        simp only at this
        rw [List.take_of_length_le (by omega)] at this
        exact this
      have e2 : (⟨s.arr, p' + 1⟩ : Slice).view (s.writeBack h d) = d.take (p' + 1) := by
        have := congrArg (List.take (p' + 1)) e1
        unfold view at this
        rw [List.take_take, Nat.min_eq_left (by omega)] at this
        exact this
      rw [e1, e2, ← hdrop, List.take_append_drop]

theorem runVecIter_nones (g : Growth) (S : SortLib) (n : Nat) (h : SHeap α) (s w : Slice) (hs : s.Valid h)
    (hw : w.Valid h) :
    ∃ z, runVecIter g S (List.replicate n none) h s w.intoIter = .ok (Spec.yields (w.view h) n, z) := by
  have h1 := runVecIter_spec g S (List.replicate n (none : Option (MOp α))) h s w 0 hs hw (Nat.zero_le _)
  have hops : ∀ n (v : Vec α), runVecOps g S (List.replicate n none) v = .ok v := by
    intro n
    induction n with
    | zero => intro v; rfl
    | succ n ih => intro v; simp only [List.replicate_succ, runVecOps]; exact ih v
  have hquiet : ∀ n own m, Spec.vecQuiet w.len own m (List.replicate n (none : Option (MOp α))) = true := by
    intro n own m
    induction n with
    | zero => cases own <;> rfl
    | succ n ih => cases own <;> simpa [List.replicate_succ, Spec.vecQuiet] using ih
  unfold Slice.intoIter
  cases hr : runVecIter g S (List.replicate n (none : Option (MOp α))) h s ⟨w, 0⟩ with
  | error e => rw [hr] at h1; simp only at h1; rw [hops] at h1; cases h1
  | ok q =>
    obtain ⟨rs, z⟩ := q
    rw [hr] at h1
    have hlen : rs.length = n := by
      rw [h1.2.1]
      simp [List.countP_replicate]
    by_cases hne : s.arr ≠ w.arr
    · have := runVecIter_quiet g S _ h s w 0 hs hw (Nat.zero_le _) true 0 (hquiet n true 0) (.inl hne) rs z hr
      rw [List.drop_zero, hlen] at this
      exact ⟨z, by rw [this]⟩
    · have := runVecIter_quiet g S _ h s w 0 hs hw (Nat.zero_le _) false s.len (hquiet n false s.len) (.inr ⟨rfl, rfl⟩) rs z hr
      rw [List.drop_zero, hlen] at this
      exact ⟨z, by rw [this]⟩

/-- C138 is violated by every nonempty vector: an iterator taken before Set gives the new element, and one taken before Pop and
Push gives the pushed element in place of the popped one. -/
theorem C138_vec_fails (g : Growth) (S : SortLib) (h : SHeap α) (s : Slice) (hs : s.Valid h) (i : Nat) (hi : i < s.len)
    (v : α) (n : Nat) :
    (∃ z, runVecIter g S (some (.setUnchecked i v) :: List.replicate n none) h s s.intoIter =
      .ok (Spec.yields ((s.view h).set i v) n, z)) ∧
    ∃ z, runVecIter g S (some .pop :: some (.push v) :: List.replicate n none) h s s.intoIter =
      .ok (Spec.yields ((s.view h).dropLast ++ [v]) n, z) := by
  have hl := view_length hs
  have hs2 := hs.2
  constructor
  · have hop : MOp.heap g S (.setUnchecked i v) h s = .ok (s.writeBack h ((s.view h).set i v), s) := by
      simp only [MOp.heap]
      rw [setIndex_lt (by omega)]
      rfl
    have hg := good_writeBack hs ((s.view h).set i v) (by simpa using hl) s.len (Nat.le_refl _)
    obtain ⟨z, hz⟩ := runVecIter_nones g S n (s.writeBack h ((s.view h).set i v)) s s hg.1 hg.1
    refine ⟨z, ?_⟩
    simp only [runVecIter]
    rw [hop]
    simp only [Go.bind_ok]
    rw [hz]
    congr 3
    have := congrArg Vec.data hg.2.1
    simp only at this
    rw [List.take_of_length_le (by simp; omega)] at this
    exact this
  · have hop : MOp.heap g S .pop h s = .ok (h, ⟨s.arr, s.len - 1⟩) := by
      simp only [MOp.heap]
      rw [if_neg (by omega), index_lt (by omega)]
      rfl
    have hv1 : (⟨s.arr, s.len - 1⟩ : Slice).Valid h := ⟨hs.1, by
      show s.len - 1 ≤ (s.array h).length
      omega⟩
    have ha : (⟨s.arr, s.len - 1⟩ : Slice).array h = s.array h := rfl
    have hop2 : MOp.heap g S (.push v) h ⟨s.arr, s.len - 1⟩ =
        .ok (h.set s.arr ((s.array h).take (s.len - 1) ++ [v] ++ (s.array h).drop s.len), s) := by
      simp only [MOp.heap, goAppend, List.length_singleton, ha]
      rw [if_pos (by omega)]
      rw [Nat.sub_add_cancel (by omega)]
    have hg := MOp.heap_good g S (.push v) hv1
    rw [hop2] at hg
    obtain ⟨_, _, hg⟩ := hg
    obtain ⟨z, hz⟩ := runVecIter_nones g S n _ s s hg.1 hg.1
    refine ⟨z, ?_⟩
    simp only [runVecIter]
    rw [hop]
    simp only [Go.bind_ok]
    rw [hop2]
    simp only [Go.bind_ok]
    rw [hz]
    congr 3
    unfold view
    rw [show array (h.set s.arr ((s.array h).take (s.len - 1) ++ [v] ++ (s.array h).drop s.len)) s =
      (s.array h).take (s.len - 1) ++ [v] ++ (s.array h).drop s.len from array_set h s hs.1 _ s.len]
    rw [List.take_append_of_le_length (by simp; omega), List.take_of_length_le (by simp; omega), List.dropLast_eq_take,
      List.take_take, List.length_take]
    congr 2
    omega

example :
    (runVecIter doubling mergeSortLib [none, some (.setUnchecked 2 9), some .pop, some (.push 8), some (.swap 0 1), none, none]
        ([[1, 2, 3, 0]] : SHeap Nat) ⟨0, 3⟩ (Slice.intoIter ⟨0, 3⟩)).toOption.map (·.1) =
      some [some 1, some 1, some 8] := by decide

end Gost
