import Verif.Model.SliceHeap
import Verif.Props.VecSearch
/-
Properties C55 (independence of clones) and C89 (copies of a vector share storage).
-/
set_option linter.unusedSectionVars false
namespace Gost
namespace Slice
variable {α : Type} [Inhabited α]

/-- The slice lies in the heap. -/
def Valid (h : SHeap α) (s : Slice) : Prop := s.arr < h.length ∧ s.len ≤ (s.array h).length

/-- The vector a slice represents: elements and capacity. -/
def toVec (h : SHeap α) (s : Slice) : Vec α := ⟨s.view h, (s.array h).length⟩

/-- The effect of one operation on `s`: the result represents `v`, and every array other than that of `s`
is as before. -/
def Good (h : SHeap α) (s : Slice) (h' : SHeap α) (s' : Slice) (v : Vec α) : Prop :=
  s'.Valid h' ∧ s'.toVec h' = v ∧ h.length ≤ h'.length ∧ (s'.arr = s.arr ∨ h.length ≤ s'.arr) ∧
    ∀ a, a < h.length → a ≠ s.arr → h'[a]? = h[a]?

theorem array_set (h : SHeap α) (s : Slice) (hs : s.arr < h.length) (d : List α) (n : Nat) :
    array (h.set s.arr d) ⟨s.arr, n⟩ = d := by
  simp [array, hs]

theorem array_push (h : SHeap α) (d : List α) (n : Nat) :
    array (h ++ [d]) ⟨h.length, n⟩ = d := by
  simp [array]

theorem view_length {h : SHeap α} {s : Slice} (hv : s.Valid h) : (s.view h).length = s.len := by
  have := hv.2
  simp [view]; omega

theorem good_writeBack {h : SHeap α} {s : Slice} (hv : s.Valid h) (d : List α) (hd : d.length = s.len)
    (n : Nat) (hn : n ≤ s.len) :
    Good h s (s.writeBack h d) ⟨s.arr, n⟩ ⟨d.take n, (s.array h).length⟩ := by
  obtain ⟨h1, h2⟩ := hv
  unfold writeBack
  refine ⟨⟨by simpa using h1, ?_⟩, ?_, by simp, .inl rfl, ?_⟩
  · rw [array_set h s h1]; simp; omega
  · unfold toVec view
    rw [array_set h s h1]
    congr 1
    · simp only
      rw [List.take_append_of_le_length (by omega)]
    · simp; omega
  · intro a _ hne
    rw [List.getElem?_set_ne (Ne.symm hne)]

theorem good_append (g : Growth) {h : SHeap α} {s : Slice} (hv : s.Valid h) (xs : List α) :
    Good h s (s.goAppend g h xs).1 (s.goAppend g h xs).2 ((s.toVec h).goAppend g xs) := by
  have hl := view_length hv
  obtain ⟨h1, h2⟩ := hv
  unfold goAppend Vec.goAppend
  have hdl : (s.toVec h).data.length = s.len := hl
  have hc : (s.toVec h).cap = (s.array h).length := rfl
  simp only [hdl, hc]
  split
  · next hle =>
    refine ⟨⟨by simpa using h1, ?_⟩, ?_, by simp, .inl rfl, ?_⟩
    · rw [array_set h s h1]; simp; omega
    · unfold toVec
      simp only [view, array_set h s h1]
      congr 1
      · rw [List.take_append_of_le_length (by simp; omega), List.take_of_length_le (by simp; omega)]
      · simp; omega
    · intro a _ hne
      rw [List.getElem?_set_ne (Ne.symm hne)]
  · next hle =>
    have hg := g.enough (s.array h).length (s.len + xs.length)
    refine ⟨⟨by simp, ?_⟩, ?_, by simp, .inr (Nat.le_refl _), ?_⟩
    · rw [array_push]; simp; omega
    · unfold toVec
      simp only [view, array_push]
      congr 1
      · rw [List.take_append_of_le_length (by simp; omega), List.take_of_length_le (by simp; omega)]
      · simp; omega
    · intro a ha _
      rw [List.getElem?_append_left ha]

theorem good_make {h : SHeap α} {s : Slice} (n c : Nat) (hnc : n ≤ c) :
    Good h s (make h n c).1 (make h n c).2 ⟨List.replicate n default, c⟩ := by
  unfold make
  refine ⟨⟨by simp, by rw [array_push]; simpa using hnc⟩, ?_, by simp, .inr (Nat.le_refl _), ?_⟩
  · unfold toVec view
    rw [array_push]; simp; omega
  · intro a ha _
    simp only
    rw [List.getElem?_append_left ha]

theorem Good.refl {h : SHeap α} {s : Slice} (hv : s.Valid h) : Good h s h s (s.toVec h) :=
  ⟨hv, rfl, Nat.le_refl _, .inl rfl, fun _ _ _ => rfl⟩

/-- Two steps in a row; the second one works on the slice the first one returned. -/
theorem Good.trans {h h' h'' : SHeap α} {s s' s'' : Slice} {v v' : Vec α} (h1 : Good h s h' s' v)
    (h2 : Good h' s' h'' s'' v') : Good h s h'' s'' v' := by
  obtain ⟨a1, a2, a3, a4, a5⟩ := h1
  obtain ⟨b1, b2, b3, b4, b5⟩ := h2
  refine ⟨b1, b2, by omega, ?_, ?_⟩
  · rcases b4 with b4 | b4
    · rw [b4]; exact a4
    · right; omega
  · intro a ha hne
    rw [b5 a (by omega) (by omega), a5 a ha hne]

theorem retain_fold (g : Growth) (p : α → Bool) (l : List α) {h0 : SHeap α} {s0 : Slice}
    (h : SHeap α) (s : Slice) (v : Vec α) (hg : Good h0 s0 h s v) (hcap : v.data.length + l.length ≤ v.cap) :
    Good h0 s0 (l.foldl (fun (h, s) a => if p a then s.goAppend g h [a] else (h, s)) (h, s)).1
      (l.foldl (fun (h, s) a => if p a then s.goAppend g h [a] else (h, s)) (h, s)).2
      ⟨v.data ++ l.filter p, v.cap⟩ := by
  induction l generalizing h s v with
  | nil => simpa using hg
  | cons a l ih =>
    simp only [List.foldl_cons]
    simp only [List.length_cons] at hcap
    cases hp : p a with
    | true =>
      simp only [if_true]
      have h1 := good_append g hg.1 [a]
      rw [hg.2.1] at h1
      have h2 := hg.trans h1
      have hc : (v.goAppend g [a]).cap = v.cap := by simp [Vec.goAppend]; intro; omega
      have := ih _ _ _ h2 (by rw [hc]; simp [Vec.goAppend_data]; omega)
      simpa [Vec.goAppend_data, hc, List.filter_cons, hp] using this
    | false =>
      simp only [Bool.false_eq_true, if_false]
      have := ih h s v hg (by omega)
      simpa [List.filter_cons, hp] using this

end Slice
open Slice
variable {α : Type} [Inhabited α]

theorem swapData_length {l l' : List α} {i j : Nat} (h : Vec.swapData l i j = .ok l') :
    l'.length = l.length := by
  have := Vec.swapData_spec l i j
  rw [h] at this
  simp only [Go.toOption_ok, Spec.swapAt] at this
  split at this <;> cases this
  simp

theorem dedupLoop_length (deq : α → α → Bool) (n i prev : Nat) (l : List α) (hi : i + n = l.length)
    (hp : prev < i) : ∃ prev' l', Vec.dedupLoop deq n i prev l = .ok (prev', l') ∧
      l'.length = l.length ∧ prev' < l.length := by
  induction n generalizing i prev l with
  | zero => exact ⟨prev, l, rfl, rfl, by omega⟩
  | succ n ih =>
    have h1 : prev < l.length := by omega
    have h2 : i < l.length := by omega
    simp only [Vec.dedupLoop, index_lt h1, index_lt h2, Go.bind_ok]
    split
    · rw [setIndex_lt (by omega)]
      simp only [Go.bind_ok]
      obtain ⟨p', l', a, b, c⟩ := ih (i + 1) (prev + 1) (l.set (prev + 1) l[i]) (by simp; omega) (by omega)
      exact ⟨p', l', a, by simpa using b, by simpa using c⟩
    · exact ih (i + 1) prev l (by omega) (by omega)

/-- On an unshared slice every operation does what the vector model says, touches no other array, and
its result is in the same array or a new one. -/
theorem MOp.heap_good (g : Growth) (S : SortLib) (op : MOp α) {h : SHeap α} {s : Slice}
    (hv : s.Valid h) :
    match op.heap g S h s with
    | .ok (h', s') => ∃ v, op.pure g S (s.toVec h) = .ok v ∧ Good h s h' s' v
    | .error e => op.pure g S (s.toVec h) = .error e := by
  have hl := view_length hv
  have hdata : (s.toVec h).data = s.view h := rfl
  have hcap : (s.toVec h).cap = (s.array h).length := rfl
  have hle := hv.2
  cases op with
  | push v => exact ⟨_, rfl, good_append g hv [v]⟩
  | pop =>
    simp only [MOp.heap, MOp.pure, Vec.pop, hdata, hl, hcap]
    by_cases h0 : s.len = 0
    · simp only [h0, if_true]
      exact ⟨_, rfl, Good.refl hv⟩
    · simp only [h0, if_false]
      rw [index_lt (by omega)]
      refine ⟨_, rfl, ⟨hv.1, ?_⟩, ?_, Nat.le_refl _, .inl rfl, fun _ _ _ => rfl⟩
      · show s.len - 1 ≤ (s.array h).length
        omega
      · unfold toVec view
        simp only [List.take_take]
        congr 2
        omega
  | clear => exact ⟨_, rfl, good_make 0 0 (Nat.le_refl _)⟩
  | insert i v =>
    simp only [MOp.heap, MOp.pure, Vec.insert]
    have ga := good_append g hv [v]
    have hv' := ga.1
    have e : (s.goAppend g h [v]).2.view (s.goAppend g h [v]).1 = ((s.toVec h).goAppend g [v]).data := by
      rw [← ga.2.1]; rfl
    have ec : ((s.goAppend g h [v]).2.array (s.goAppend g h [v]).1).length =
        ((s.toVec h).goAppend g [v]).cap := by
      rw [← ga.2.1]; rfl
    have hl' := view_length hv'
    rw [e]
    cases hcw : copyWithin ((s.toVec h).goAppend g [v]).data (i + 1) i with
    | error e => simp only [Go.bind_error]
    | ok d =>
      have hd : d.length = (s.goAppend g h [v]).2.len := by
        rw [← hl', e]
        unfold copyWithin at hcw
        split at hcw
        · next hb =>
          simp only [Bool.and_eq_true, decide_eq_true_eq] at hb
          cases hcw
          simp; omega
        · cases hcw
      simp only [Go.bind_ok]
      have gb := good_writeBack hv' d hd _ (Nat.le_refl _)
      rw [List.take_of_length_le (by omega)] at gb
      have e2 : (s.goAppend g h [v]).2.view ((s.goAppend g h [v]).2.writeBack (s.goAppend g h [v]).1 d) = d := by
        have := gb.2.1
        exact congrArg Vec.data this
      rw [e2]
      by_cases hi : i < d.length
      · rw [setIndex_lt hi]
        simp only [Go.bind_ok]
        refine ⟨_, rfl, ?_⟩
        have gc := good_writeBack gb.1 (d.set i v) (by simpa using hd) _ (Nat.le_refl _)
        rw [List.take_of_length_le (by simp; omega)] at gc
        have e3 : ((s.goAppend g h [v]).2.array
            ((s.goAppend g h [v]).2.writeBack (s.goAppend g h [v]).1 d)).length =
            ((s.toVec h).goAppend g [v]).cap := by
          rw [← ec]; exact congrArg Vec.cap gb.2.1
        have gd := (ga.trans gb).trans gc
        rw [show ((⟨(s.goAppend g h [v]).2.arr, (s.goAppend g h [v]).2.len⟩ : Slice).array
            ((s.goAppend g h [v]).2.writeBack (s.goAppend g h [v]).1 d)).length =
            ((s.toVec h).goAppend g [v]).cap from e3] at gd
        exact gd
      · rw [setIndex_ge (by omega)]
        simp only [Go.bind_error]
  | setUnchecked i v =>
    simp only [MOp.heap, MOp.pure, Vec.setUnchecked, hdata, hcap]
    by_cases hi : i < s.len
    · rw [setIndex_lt (by omega)]
      simp only [Go.bind_ok]
      refine ⟨_, rfl, ?_⟩
      have := good_writeBack hv ((s.view h).set i v) (by simpa using hl) s.len (Nat.le_refl _)
      rwa [List.take_of_length_le (by simp; omega)] at this
    · rw [setIndex_ge (by omega)]
      simp only [Go.bind_error]
  | swap i j =>
    simp only [MOp.heap, MOp.pure, Vec.swap, hdata, hcap]
    cases hs : Vec.swapData (s.view h) i j with
    | error e => simp only [Go.bind_error]
    | ok d =>
      have hd := swapData_length hs
      simp only [Go.bind_ok]
      refine ⟨_, rfl, ?_⟩
      have := good_writeBack hv d (by omega) s.len (Nat.le_refl _)
      rwa [List.take_of_length_le (by omega)] at this
  | reverse =>
    simp only [MOp.heap, MOp.pure, Vec.reverse, hdata, hcap, hl]
    obtain ⟨d, h1, h2, _⟩ := Vec.reverseLoop_eq ((s.view h).length / 2) 0 (s.view h) (by omega)
    rw [hl] at h1
    simp only [h1, Go.bind_ok]
    refine ⟨_, rfl, ?_⟩
    have := good_writeBack hv d (by omega) s.len (Nat.le_refl _)
    rwa [List.take_of_length_le (by omega)] at this
  | fill v =>
    simp only [MOp.heap, MOp.pure, Vec.fill, hdata, hcap, hl]
    rw [Vec.fillLoop_eq v s.len 0 _ (by omega)]
    simp only [Go.bind_ok]
    refine ⟨_, rfl, ?_⟩
    have := good_writeBack hv (List.replicate s.len v) (by simp) s.len (Nat.le_refl _)
    rw [List.take_of_length_le (by simp)] at this
    simpa using this
  | dedup deq =>
    simp only [MOp.heap, MOp.pure, Vec.dedup, hdata, hcap, hl]
    by_cases h1 : s.len ≤ 1
    · simp only [h1, if_true]
      exact ⟨_, rfl, Good.refl hv⟩
    · simp only [h1, if_false]
      obtain ⟨p', d, a, b, c⟩ := dedupLoop_length deq (s.len - 1) 1 0 (s.view h) (by omega) (by omega)
      simp only [a, Go.bind_ok]
      exact ⟨_, rfl, good_writeBack hv d (by omega) (p' + 1) (by omega)⟩
  | retain p =>
    simp only [MOp.heap, MOp.pure]
    rw [(C48_retain_fill_reverse g (s.toVec h) p default ()).1]
    refine ⟨_, rfl, ?_⟩
    have := retain_fold g p (s.view h) _ _ _ (good_make (h := h) (s := s) 0 s.len (Nat.zero_le _))
      (by simp; omega)
    simpa [hdata, hl, Vec.len] using this
  | sortBy cmp =>
    refine ⟨_, rfl, ?_⟩
    have hp := (S.stable_perm (Vec.less cmp) (s.view h)).length_eq
    have := good_writeBack hv (S.stable (Vec.less cmp) (s.view h)) (by omega) s.len (Nat.le_refl _)
    rwa [List.take_of_length_le (by omega)] at this

/-- Run an interleaved history of operations on two vectors in one heap (`false`: the first vector). -/
def runHeap2 (g : Growth) (S : SortLib) : List (Bool × MOp α) → SHeap α → Slice → Slice →
    Go (SHeap α × Slice × Slice)
  | [], h, s, t => .ok (h, s, t)
  | (false, op) :: ops, h, s, t => do
    let (h, s) ← op.heap g S h s
    runHeap2 g S ops h s t
  | (true, op) :: ops, h, s, t => do
    let (h, t) ← op.heap g S h t
    runHeap2 g S ops h s t

/-- The same history on two vectors that have nothing to do with each other. -/
def runPure2 (g : Growth) (S : SortLib) : List (Bool × MOp α) → Vec α → Vec α → Go (Vec α × Vec α)
  | [], v, w => .ok (v, w)
  | (false, op) :: ops, v, w => do
    let v ← op.pure g S v
    runPure2 g S ops v w
  | (true, op) :: ops, v, w => do
    let w ← op.pure g S w
    runPure2 g S ops v w

theorem toVec_frame {h h' : SHeap α} {t : Slice} (ht : h'[t.arr]? = h[t.arr]?) :
    t.toVec h' = t.toVec h ∧ (t.array h' = t.array h) := by
  have : t.array h' = t.array h := by unfold array; rw [ht]
  exact ⟨by unfold toVec view; rw [this], this⟩

/-- C55/C89: two vectors that do not share their array behave, under every interleaving of operations on
either of them, as two separate vectors. -/
theorem C89_disjoint_vecs_independent (g : Growth) (S : SortLib) (ops : List (Bool × MOp α)) (h : SHeap α)
    (s t : Slice) (hs : s.Valid h) (ht : t.Valid h) (hd : s.arr ≠ t.arr) :
    (match runHeap2 g S ops h s t with
      | .ok (h', s', t') => .ok (s'.toVec h', t'.toVec h')
      | .error e => .error e) = runPure2 g S ops (s.toVec h) (t.toVec h) := by
  induction ops generalizing h s t with
  | nil => rfl
  | cons o ops ih =>
    obtain ⟨b, op⟩ := o
    cases b with
    | false =>
      simp only [runHeap2, runPure2]
      have hg := op.heap_good g S hs
      cases hop : op.heap g S h s with
      | error e => rw [hop] at hg; simp only at hg; rw [hg]; rfl
      | ok r =>
        obtain ⟨h', s'⟩ := r
        rw [hop] at hg
        obtain ⟨v, hv, gv, he, hlen, harr, hframe⟩ := hg
        have hf := toVec_frame (hframe t.arr ht.1 (Ne.symm hd))
        rw [hv]
        simp only [Go.bind_ok]
        have := ih h' s' t gv ⟨by have := ht.1; omega, by rw [hf.2]; exact ht.2⟩
          (by rcases harr with e | e
              · rw [e]; exact hd
              · have := ht.1; omega)
        rw [he, hf.1] at this
        exact this
    | true =>
      simp only [runHeap2, runPure2]
      have hg := op.heap_good g S ht
      cases hop : op.heap g S h t with
      | error e => rw [hop] at hg; simp only at hg; rw [hg]; rfl
      | ok r =>
        obtain ⟨h', t'⟩ := r
        rw [hop] at hg
        obtain ⟨v, hv, gv, he, hlen, harr, hframe⟩ := hg
        have hf := toVec_frame (hframe s.arr hs.1 hd)
        rw [hv]
        simp only [Go.bind_ok]
        have := ih h' s t' ⟨by have := hs.1; omega, by rw [hf.2]; exact hs.2⟩ gv
          (by rcases harr with e | e
              · rw [e]; exact hd
              · have := hs.1; omega)
        rw [he, hf.1] at this
        exact this

/-- C55: Clone returns a vector with the cloned elements, changes nothing, and afterwards every
interleaved history of operations on the original and on the clone acts on them as on two separate
vectors: no operation on one is ever visible in the other. -/
theorem C55_clone_independent (g : Growth) (S : SortLib) (c : α → α) (h : SHeap α) (s : Slice)
    (hs : s.Valid h) (hlen : s.len < 2 ^ 63) :
    ∃ h' t, s.clone c h = .ok (h', t) ∧ s.toVec h' = s.toVec h ∧ t.view h' = (s.view h).map c ∧
      ∀ ops : List (Bool × MOp α),
        (match runHeap2 g S ops h' s t with
          | .ok (h'', s', t') => .ok (s'.toVec h'', t'.toVec h'')
          | .error e => .error e) =
        runPure2 g S ops (s.toVec h) ⟨(s.view h).map c, s.len⟩ := by
  have hl := view_length hs
  unfold Slice.clone
  simp only [makeLen, hlen, if_true, Go.bind_ok]
  rw [Vec.cloneLoop_eq c (s.view h) _ s.len 0 (by omega) (by simp; omega)]
  simp only [Go.bind_ok, List.take_zero, List.nil_append, List.drop_zero]
  have hf := toVec_frame (h' := h ++ [(s.view h).map c]) (t := s)
    (List.getElem?_append_left hs.1)
  have ht : (⟨h.length, s.len⟩ : Slice).toVec (h ++ [(s.view h).map c]) = ⟨(s.view h).map c, s.len⟩ := by
    unfold toVec
    simp only [view, array_push]
    congr 1
    · rw [List.take_of_length_le]; simpa [view] using Nat.le_of_eq hl
    · simpa [view] using hl
  refine ⟨_, _, rfl, hf.1, congrArg Vec.data ht, ?_⟩
  intro ops
  have := C89_disjoint_vecs_independent g S ops (h ++ [(s.view h).map c]) s ⟨h.length, s.len⟩
    ⟨by have := hs.1; simp; omega, by rw [hf.2]; exact hs.2⟩
    ⟨by simp, by rw [array_push]; simp [hl]⟩
    (by have := hs.1; simp only; omega)
  rw [ht, hf.1] at this
  exact this

/-- C89, full property: after `w := v` (a copy of the struct) operations on one variable never change the
elements of the other.  Proved: operations on `v` that only read or that move to a new array (Pop,
Clear, Retain, and Push on a full vector) leave the copy alone.  Missing: operations that
write in place, see `C89_copy_fails`. -/
theorem C89_copy_partial (g : Growth) (S : SortLib) (h h' : SHeap α) (s s' w : Slice) (hs : s.Valid h)
    (hw : w.Valid h) (op : MOp α)
    (hop : match op with
      | .pop | .clear | .retain _ => True
      | .push _ => s.len = (s.array h).length
      | _ => False)
    (he : op.heap g S h s = .ok (h', s')) : w.toVec h' = w.toVec h := by
  cases op with
  | pop =>
    simp only [MOp.heap] at he
    by_cases h0 : s.len = 0
    · simp only [h0, if_true] at he
      cases he; rfl
    · simp only [h0, if_false] at he
      rw [index_lt (by have := view_length hs; omega)] at he
      cases he; rfl
  | clear =>
    cases he
    exact (toVec_frame (List.getElem?_append_left hw.1)).1
  | retain p =>
    have g1 := retain_fold g p (s.view h) (h0 := h) (s0 := ⟨h.length, 0⟩) _ _ _
      (good_make (h := h) 0 s.len (Nat.zero_le _)) (by have := view_length hs; simp; omega)
    simp only [MOp.heap, Except.ok.injEq] at he
    have e : h' = ((s.view h).foldl (fun (h, s) a => if p a then s.goAppend g h [a] else (h, s))
        (Slice.make h 0 s.len)).1 := by rw [he]
    refine (toVec_frame ?_).1
    rw [e]
    exact g1.2.2.2.2 w.arr hw.1 (by have := hw.1; simp only; omega)
  | push v =>
    simp only at hop
    simp only [MOp.heap, Slice.goAppend, List.length_singleton] at he
    rw [if_neg (by omega)] at he
    cases he
    exact (toVec_frame (List.getElem?_append_left hw.1)).1
  | _ => exact absurd hop (by simp)

/-- C89 is violated whenever the array has room: two pushes through two copies of a vector end up in the
same element, so the first one is lost. -/
theorem C89_copy_fails (g : Growth) (S : SortLib) (h : SHeap α) (s : Slice) (hs : s.Valid h)
    (hroom : s.len < (s.array h).length) (a b : α) :
    ∃ h1 s1 h2 w1, (MOp.push a).heap g S h s = .ok (h1, s1) ∧
      (MOp.push b).heap g S h1 s = .ok (h2, w1) ∧
      s1.view h1 = s.view h ++ [a] ∧ s1.view h2 = s.view h ++ [b] := by
  have h1 := hs.1
  have e1 : s.goAppend g h [a] =
      (h.set s.arr ((s.array h).take s.len ++ [a] ++ (s.array h).drop (s.len + 1)), ⟨s.arr, s.len + 1⟩) := by
    unfold Slice.goAppend
    simp only [List.length_singleton]
    rw [if_pos (by omega)]
  have harr : s.array (h.set s.arr ((s.array h).take s.len ++ [a] ++ (s.array h).drop (s.len + 1))) =
      (s.array h).take s.len ++ [a] ++ (s.array h).drop (s.len + 1) := array_set h s h1 _ s.len
  refine ⟨_, _, _, _, congrArg Except.ok e1, rfl, ?_, ?_⟩
  · have := good_append g hs [a]
    rw [e1] at this
    exact congrArg Vec.data this.2.1
  · have hv : s.Valid (h.set s.arr ((s.array h).take s.len ++ [a] ++ (s.array h).drop (s.len + 1))) := by
      refine ⟨by simpa using h1, ?_⟩
      rw [harr]; simp; omega
    have := good_append g hv [b]
    have hr2 : (s.goAppend g (h.set s.arr ((s.array h).take s.len ++ [a] ++
        (s.array h).drop (s.len + 1))) [b]).2 = ⟨s.arr, s.len + 1⟩ := by
      unfold Slice.goAppend
      simp only [List.length_singleton, harr]
      rw [if_pos (by simp; omega)]
    have e := congrArg Vec.data this.2.1
    rw [hr2] at e
    refine Eq.trans e ?_
    simp only [Vec.goAppend_data]
    congr 1
    show s.view _ = s.view h
    unfold view
    rw [harr, List.append_assoc, List.take_append_of_le_length (by simp; omega)]
    simp [List.take_take]

/-- C45 at the level of arrays: `a.Append(&b)` leaves in `a` its elements and then those `b` had, whatever the two share
(also for `b` a copy of `a`), leaves `b` empty, changes no vector with another array, and afterwards the two share
nothing: every history on both is that of two independent lists. -/
theorem C45_append_shared (g : Growth) (S : SortLib) (h : SHeap α) (s o w : Slice) (hs : s.Valid h) (hw : w.Valid h)
    (hd : w.arr ≠ s.arr) :
    ∃ h' s' o', Slice.append g h s o = (h', s', o') ∧ s'.view h' = s.view h ++ o.view h ∧ o'.view h' = [] ∧
      w.toVec h' = w.toVec h ∧
      ∀ ops : List (Bool × MOp α),
        (match runHeap2 g S ops h' s' o' with
          | .ok (h'', s'', o'') => .ok (s''.toVec h'', o''.toVec h'')
          | .error e => .error e) = runPure2 g S ops (s'.toVec h') Vec.new := by
  have hg := good_append g hs (o.view h)
  have e1 : (s.goAppend g h (o.view h)).2.view (s.goAppend g h (o.view h)).1 = s.view h ++ o.view h := by
    rw [show (s.goAppend g h (o.view h)).2.view (s.goAppend g h (o.view h)).1 =
      ((s.goAppend g h (o.view h)).2.toVec (s.goAppend g h (o.view h)).1).data from rfl, hg.2.1, Vec.goAppend_data]
    rfl
  have hv := hg.1
  have hle := hg.2.2.1
  have hfr := hg.2.2.2.2
  have happ : Slice.append g h s o = ((s.goAppend g h (o.view h)).1 ++ [[]], (s.goAppend g h (o.view h)).2,
      ⟨(s.goAppend g h (o.view h)).1.length, 0⟩) := rfl
  generalize s.goAppend g h (o.view h) = r at *
  obtain ⟨k, t⟩ := r
  have ht : t.toVec (k ++ [[]]) = t.toVec k := (toVec_frame (List.getElem?_append_left hv.1)).1
  have htv : t.Valid (k ++ [[]]) := by
    refine ⟨by have : t.arr < k.length := hv.1; simp; omega, ?_⟩
    rw [(toVec_frame (List.getElem?_append_left hv.1)).2]
    exact hv.2
  refine ⟨_, _, _, happ, ?_, by simp [view], ?_, fun ops => ?_⟩
  · rw [← e1]; exact congrArg Vec.data ht
  · have h1 : k[w.arr]? = h[w.arr]? := hfr w.arr hw.1 hd
    have h2 : w.arr < k.length := Nat.lt_of_lt_of_le hw.1 hle
    exact (toVec_frame ((List.getElem?_append_left h2).trans h1)).1
  · have ho : (⟨k.length, 0⟩ : Slice).Valid (k ++ [[]]) := ⟨by simp, by simp⟩
    rw [C89_disjoint_vecs_independent g S ops _ t ⟨k.length, 0⟩ htv ho (by have : t.arr < k.length := hv.1; show t.arr ≠ k.length; omega)]
    congr 1
    simp [toVec, view, array, Vec.new]

/-- A vector appended to a copy of itself that shares its array. -/
example : Slice.append doubling [[1, 2, 0, 0, 0]] ⟨0, 2⟩ ⟨0, 2⟩ = ([[1, 2, 1, 2, 0], []], ⟨0, 4⟩, ⟨1, 0⟩) := by decide

/-- Clone of a slice with spare capacity, then pushes on both sides; and the same with a struct copy. -/
example :
    runHeap2 doubling mergeSortLib [(false, .push 7), (true, .push 8), (false, .setUnchecked 0 9)]
        ([[1, 2, 0, 0], [1, 2]] : SHeap Nat) ⟨0, 2⟩ ⟨1, 2⟩ =
      .ok ([[9, 2, 7, 0], [1, 2], [1, 2, 8, 0]], ⟨0, 3⟩, ⟨2, 3⟩) ∧
    runHeap2 doubling mergeSortLib [(false, .push 7), (true, .push 8)]
        ([[1, 2, 0, 0]] : SHeap Nat) ⟨0, 2⟩ ⟨0, 2⟩ = .ok ([[1, 2, 8, 0]], ⟨0, 3⟩, ⟨0, 3⟩) := by
  decide

end Gost
