import Verif.Props.IterHeap
/-
C138 for VecDeque and LinkedList: iterators that were taken before a change of the container.
-/
set_option linter.unusedSectionVars false
namespace Gost
open Spec VecDeque

variable {α : Type} [Inhabited α]

/-! ### VecDeque -/

/-- A history of a deque and an iterator taken from it: an event is an operation on the deque, or a call of Next (`none`). -/
def runDequeIter (S : SortLib) : List (Option (DMOp α)) → DHeap α → DVar → DIter →
    Go (List (Option α) × DHeap α × DVar × DIter)
  | [], h, x, it => .ok ([], h, x, it)
  | none :: es, h, x, it => do
    let (it, o) ← it.next h
    let (rs, z) ← runDequeIter S es h x it
    .ok (o.value :: rs, z)
  | some op :: es, h, x, it => do
    let (h, x, _) ← op.heap S h x
    runDequeIter S es h x it

/-- The operations alone. -/
def runDequeOps (S : SortLib) : List (Option (DMOp α)) → VecDeque α → Go (VecDeque α)
  | [], d => .ok d
  | none :: es, d => runDequeOps S es d
  | some op :: es, d => do
    let (d, _) ← op.pure S d
    runDequeOps S es d

theorem DIter.next_eq (h : DHeap α) (w : DVar) (p : Nat) (hi : (w.load h).Inv) (hp : p ≤ w.len) :
    DIter.next h ⟨w, p⟩ = .ok (⟨w, if p < w.len then p + 1 else p⟩, ⟨(w.load h).toList[p]?⟩) := by
  have hl := toList_length hi
  have hwl : (w.load h).len = w.len := rfl
  unfold DIter.next
  by_cases hlt : p < w.len
  · simp only
    rw [if_neg (by omega), if_pos hlt, VecDeque.get_eq hi]
    rfl
  · simp only
    rw [if_pos (by omega), if_neg hlt, List.getElem?_eq_none (by omega)]
    rfl

/-- What an operation does to the buffers: it writes into the buffer of the deque, of which the length stays, or it gives
the deque a new one and leaves all the others. -/
theorem DMOp.heap_frame (S : SortLib) (o : DMOp α) {h h' : DHeap α} {x x' : DVar} {r : Obs α}
    (he : o.heap S h x = .ok (h', x', r)) :
    ∃ d, o.pure S (x.load h) = .ok (d, r) ∧
    ((x'.buf = x.buf ∧ h' = h.set x.buf d.buffer ∧ d.buffer.length = (x.load h).buffer.length ∧ x'.len = d.len ∧
        x'.head = d.head ∧ o.clears = false) ∨
      (x'.buf = h.length ∧ ∃ b, h' = h ++ [b])) := by
  unfold DMOp.heap DVar.apply at he
  cases hp : o.pure S (x.load h) with
  | error e => rw [hp] at he; cases he
  | ok q =>
    obtain ⟨d, r'⟩ := q
    rw [hp] at he
    simp only [Go.bind_ok] at he
    by_cases hc : (o.clears || d.buffer.length != (x.load h).buffer.length) = true
    · rw [if_pos hc] at he
      cases he
      exact ⟨d, rfl, .inr ⟨rfl, _, rfl⟩⟩
    · rw [if_neg hc] at he
      cases he
      simp only [Bool.or_eq_true, bne_iff_ne, ne_eq, not_or, Bool.not_eq_true, Decidable.not_not] at hc
      exact ⟨d, rfl, .inl ⟨rfl, rfl, hc.2, rfl, rfl, hc.1⟩⟩

/-- No operation shrinks a buffer, so another variable stays well-formed. -/
theorem DMOp.heap_inv (S : SortLib) (o : DMOp α) {h h' : DHeap α} {x x' w : DVar} {r : Obs α} (hx : x.buf < h.length)
    (hw : w.buf < h.length) (hi : (w.load h).Inv) (he : o.heap S h x = .ok (h', x', r)) :
    x'.buf < h'.length ∧ w.buf < h'.length ∧ (w.load h').Inv := by
  obtain ⟨d, _, hf⟩ := o.heap_frame S he
  rcases hf with ⟨a, rfl, b, _⟩ | ⟨a, b, rfl⟩
  · refine ⟨by simpa [a] using hx, by simpa using hw, ?_⟩
    have : (w.load (h.set x.buf d.buffer)).buffer.length = (w.load h).buffer.length := by
      simp only [DVar.load, List.getD_eq_getElem?_getD] at b ⊢
      by_cases e : x.buf = w.buf
      · rw [← e, List.getElem?_set_self hx]
        simpa using b
      · rw [List.getElem?_set_ne e]
    obtain ⟨i1, i2, i3, i4⟩ := hi
    exact ⟨by rw [this]; exact i1, by rw [this]; exact i2, by rw [this]; exact i3, by rw [this]; exact i4⟩
  · refine ⟨by simp [a], by simp; omega, ?_⟩
    have : w.load (h ++ [b]) = w.load h := by
      simp only [DVar.load, List.getD_eq_getElem?_getD, List.getElem?_append_left hw]
    rw [this]
    exact hi

theorem runDequeIter_spec (S : SortLib) (es : List (Option (DMOp α))) (h : DHeap α) (x w : DVar) (p : Nat)
    (hx : x.buf < h.length) (hw : w.buf < h.length) (hi : (w.load h).Inv) (hp : p ≤ w.len) :
    match runDequeIter S es h x ⟨w, p⟩ with
    | .error e => runDequeOps S es (x.load h) = .error e
    | .ok (rs, h', x', _) => runDequeOps S es (x.load h) = .ok (x'.load h') ∧ rs.length = es.countP (·.isNone) ∧
        ∀ i, i < rs.length → ((rs[i]?).getD none).isSome = decide (p + i < w.len) := by
  induction es generalizing h x p with
  | nil => exact ⟨rfl, rfl, by simp⟩
  | cons e es ih =>
    cases e with
    | none =>
      simp only [runDequeIter, runDequeOps]
      rw [DIter.next_eq h w p hi hp]
      simp only [Go.bind_ok]
      have hvl : (w.load h).toList.length = w.len := toList_length hi
      have := ih h x (if p < w.len then p + 1 else p) hx hw hi (by split <;> omega)
      cases hr : runDequeIter S es h x ⟨w, if p < w.len then p + 1 else p⟩ with
      | error e => rw [hr] at this; exact this
      | ok q =>
        obtain ⟨rs, h', s', it⟩ := q
        rw [hr] at this
        obtain ⟨a1, a2, a3⟩ := this
        refine ⟨a1, by simp [a2], ?_⟩
        intro i hi
        cases i with
        | zero =>
          by_cases hlt : p < w.len
          · simp [hlt, hvl]
          · simp [hlt, hvl]
        | succ i =>
          simp only [List.getElem?_cons_succ]
          rw [a3 i (by simpa using hi)]
          by_cases hlt : p < w.len
          · rw [if_pos hlt]; congr 1; simp only [eq_iff_iff]; omega
          · rw [if_neg hlt]; congr 1; simp only [eq_iff_iff]; omega
    | some op =>
      simp only [runDequeIter, runDequeOps]
      have hg := op.heap_eq S h x hx
      cases hop : op.heap S h x with
      | error e =>
        cases hpu : op.pure S (x.load h) with
        | error e' => rw [hpu] at hg; simp only at hg; rw [hop] at hg; cases hg; rfl
        | ok q => rw [hpu] at hg; obtain ⟨_, _, hg, _⟩ := hg; rw [hop] at hg; cases hg
      | ok q =>
        obtain ⟨h1, x1, r⟩ := q
        cases hpu : op.pure S (x.load h) with
        | error e' => rw [hpu] at hg; simp only at hg; rw [hop] at hg; cases hg
        | ok q =>
          obtain ⟨d, r'⟩ := q
          rw [hpu] at hg
          obtain ⟨_, _, e1, e2, _⟩ := hg
          rw [hop] at e1
          cases e1
          simp only [Go.bind_ok]
          obtain ⟨a, b, c⟩ := op.heap_inv S hx hw hi hop
          have := ih h1 x1 p a b c hp
          rw [e2] at this
          simpa using this

/-- C138: whatever is done to the deque between the calls of Next, the iterator gives exactly as many elements as the deque
had when it was taken, then None for ever; Next never panics and does not change the deque. -/
theorem C138_deque_count (S : SortLib) (es : List (Option (DMOp α))) (h : DHeap α) (x : DVar) (hx : x.buf < h.length)
    (hi : (x.load h).Inv) :
    match runDequeIter S es h x x.intoIter with
    | .error e => runDequeOps S es (x.load h) = .error e
    | .ok (rs, h', x', _) => runDequeOps S es (x.load h) = .ok (x'.load h') ∧
        rs.length = es.countP (·.isNone) ∧
        ∀ i, i < rs.length → ((rs[i]?).getD none).isSome = decide (i < x.len) := by
  have := runDequeIter_spec S es h x x 0 hx hx hi (Nat.zero_le _)
  unfold DVar.intoIter
  cases hr : runDequeIter S es h x ⟨x, 0⟩ with
  | error e => rw [hr] at this; exact this
  | ok q =>
    obtain ⟨rs, h', s', it⟩ := q
    rw [hr] at this
    obtain ⟨a1, a2, a3⟩ := this
    exact ⟨a1, a2, by simpa using a3⟩

/-! Lengths of buffers. -/

theorem copyRange_length {l l' : List α} {a b n : Nat} (h : copyRange l a b n = .ok l') : l'.length = l.length := by
  unfold copyRange at h
  split at h
  · next hc =>
    cases h
    simp
    omega
  · cases h

theorem handleCapacityIncrease_length {d d' : VecDeque α} {c : Nat} (h : d.handleCapacityIncrease c = .ok d') :
    d'.buffer.length = d.buffer.length := by
  unfold handleCapacityIncrease at h
  simp only at h
  split at h
  · cases h
  · split at h
    · cases h; rfl
    · split at h
      · cases hc : copyRange d.buffer 0 c (usizeSub d.len (usizeSub c d.head)) with
        | error e => rw [hc] at h; cases h
        | ok b => rw [hc] at h; cases h; exact copyRange_length hc
      · cases hc : copyRange d.buffer d.head (usizeSub d.buffer.length (usizeSub c d.head)) (usizeSub c d.head) with
        | error e => rw [hc] at h; cases h
        | ok b => rw [hc] at h; cases h; exact copyRange_length hc

theorem remake_length {b b' : List α} {n : Nat} (h : remake b n = .ok b') : b'.length = n := by
  unfold remake at h
  cases hm : makeLen n with
  | error e => rw [hm] at h; cases h
  | ok u =>
    rw [hm] at h
    cases h
    simp
    omega

theorem growIfFull_length {d d' : VecDeque α} (hs : d.buffer.length < 2 ^ 63) (h : d.growIfFull = .ok d') :
    (d.len = d.buffer.length ∧ d'.buffer.length = 2 * d.buffer.length) ∨ (d.len ≠ d.buffer.length ∧ d' = d) := by
  unfold growIfFull at h
  by_cases hf : d.len = d.buffer.length
  · left
    refine ⟨hf, ?_⟩
    rw [if_pos (by simp [hf])] at h
    unfold grow at h
    rw [if_neg (by simp [hf])] at h
    simp only at h
    cases hr : remake d.buffer (usize (d.buffer.length * 2)) with
    | error e => rw [hr] at h; cases h
    | ok b =>
      rw [hr] at h
      simp only [Go.bind_ok] at h
      cases hh : ({ d with buffer := b } : VecDeque α).handleCapacityIncrease d.buffer.length with
      | error e => rw [hh] at h; cases h
      | ok e =>
        rw [hh] at h
        simp only [Go.bind_ok] at h
        split at h
        · cases h
        · cases h
          rw [handleCapacityIncrease_length hh]
          simp only
          rw [remake_length hr]
          unfold usize
          omega
  · right
    refine ⟨hf, ?_⟩
    rw [if_neg (by simp [hf])] at h
    cases h
    rfl

theorem reserve_length {d d' : VecDeque α} {n : Nat} (h : d.reserve n = .ok d') :
    d' = d ∨ d.buffer.length < d'.buffer.length := by
  unfold reserve at h
  simp only at h
  split at h
  · next hc =>
    right
    cases hr : remake d.buffer (usize (d.capacity + n)) with
    | error e => rw [hr] at h; cases h
    | ok b =>
      rw [hr] at h
      simp only [Go.bind_ok] at h
      rw [handleCapacityIncrease_length h]
      simp only
      rw [remake_length hr]
      exact hc
  · left; cases h; rfl

theorem pushBack_length {d d' : VecDeque α} {v : α} (hs : d.buffer.length < 2 ^ 63) (h : d.pushBack v = .ok d') :
    d.buffer.length ≤ d'.buffer.length := by
  unfold pushBack at h
  cases hg : d.growIfFull with
  | error e => rw [hg] at h; cases h
  | ok e =>
    rw [hg] at h
    simp only [Go.bind_ok] at h
    have hl : d.buffer.length ≤ e.buffer.length := by
      rcases growIfFull_length hs hg with ⟨_, a⟩ | ⟨_, rfl⟩ <;> omega
    by_cases hi : e.toPhysicalIndex e.len < e.buffer.length
    · rw [setIndex_lt hi] at h
      cases h
      simpa using hl
    · rw [setIndex_ge (by omega)] at h
      cases h

theorem growIfFull_small {d d' : VecDeque α} (h : d.growIfFull = .ok d') :
    d' = d ∨ d'.buffer.length < 2 ^ 63 := by
  unfold growIfFull at h
  by_cases hf : d.len = d.buffer.length
  · rw [if_pos (by simp [hf])] at h
    right
    unfold grow at h
    rw [if_neg (by simp [hf])] at h
    simp only at h
    cases hr : remake d.buffer (usize (d.buffer.length * 2)) with
    | error e => rw [hr] at h; cases h
    | ok b =>
      rw [hr] at h
      simp only [Go.bind_ok] at h
      cases hh : ({ d with buffer := b } : VecDeque α).handleCapacityIncrease d.buffer.length with
      | error e => rw [hh] at h; cases h
      | ok e =>
        rw [hh] at h
        simp only [Go.bind_ok] at h
        split at h
        · cases h
        · cases h
          rw [handleCapacityIncrease_length hh]
          simp only
          rw [remake_length hr]
          unfold remake makeLen at hr
          split at hr
          · assumption
          · cases hr
  · rw [if_neg (by simp [hf])] at h
    cases h
    exact .inl rfl

theorem pushBack_small {d d' : VecDeque α} {v : α} (hs : d.buffer.length < 2 ^ 63) (h : d.pushBack v = .ok d') :
    d'.buffer.length < 2 ^ 63 := by
  unfold pushBack at h
  cases hg : d.growIfFull with
  | error e => rw [hg] at h; cases h
  | ok e =>
    rw [hg] at h
    simp only [Go.bind_ok] at h
    have hl : e.buffer.length < 2 ^ 63 := by
      rcases growIfFull_small hg with rfl | a <;> assumption
    by_cases hi : e.toPhysicalIndex e.len < e.buffer.length
    · rw [setIndex_lt hi] at h
      cases h
      simpa using hl
    · rw [setIndex_ge (by omega)] at h
      cases h

theorem reserve_small {d d' : VecDeque α} {n : Nat} (hs : d.buffer.length < 2 ^ 63) (h : d.reserve n = .ok d') :
    d'.buffer.length < 2 ^ 63 := by
  unfold reserve at h
  simp only at h
  split at h
  · cases hr : remake d.buffer (usize (d.capacity + n)) with
    | error e => rw [hr] at h; cases h
    | ok b =>
      rw [hr] at h
      simp only [Go.bind_ok] at h
      rw [handleCapacityIncrease_length h]
      simp only
      rw [remake_length hr]
      unfold remake makeLen at hr
      split at hr
      · assumption
      · cases hr
  · cases h; exact hs

theorem appendLoop_length {o d d' : VecDeque α} (n i : Nat) (hs : d.buffer.length < 2 ^ 63)
    (h : appendLoop o n i d = .ok d') : d.buffer.length ≤ d'.buffer.length := by
  induction n generalizing d i with
  | zero => cases h; exact Nat.le_refl _
  | succ n ih =>
    simp only [appendLoop] at h
    cases hg : o.getUnchecked i with
    | error e => rw [hg] at h; cases h
    | ok v =>
      rw [hg] at h
      simp only [Go.bind_ok] at h
      cases hb : d.pushBack v with
      | error e => rw [hb] at h; cases h
      | ok e =>
        rw [hb] at h
        simp only [Go.bind_ok] at h
        have := ih (i + 1) (pushBack_small hs hb) h
        have := pushBack_length hs hb
        omega

/-- Append moves the deque to a new buffer, unless there is nothing to append. -/
theorem append_length {o d d' o' : VecDeque α} (hs : d.buffer.length < 2 ^ 63) (ho : o.len ≤ 2 ^ 63)
    (h : d.append o = .ok (d', o')) : d' = d ∨ d.buffer.length < d'.buffer.length := by
  unfold append at h
  cases hr : d.reserve o.len with
  | error e => rw [hr] at h; cases h
  | ok e =>
    rw [hr] at h
    simp only [Go.bind_ok] at h
    cases ha : appendLoop o o.len 0 e with
    | error e => rw [ha] at h; cases h
    | ok f =>
      rw [ha] at h
      cases h
      by_cases h0 : o.len = 0
      · rw [h0] at ha hr
        cases ha
        exact reserve_length hr
      · have h1 : d.buffer.length < e.buffer.length := by
          rcases reserve_length hr with rfl | a
          · exfalso
            unfold reserve at hr
            simp only at hr
            rw [if_pos (by unfold usize; simp only [capacity]; omega)] at hr
            cases hm : remake e.buffer (usize (e.capacity + o.len)) with
            | error e => rw [hm] at hr; cases hr
            | ok b =>
              rw [hm] at hr
              simp only [Go.bind_ok] at hr
              have h2 := handleCapacityIncrease_length hr
              simp only at h2
              rw [remake_length hm] at h2
              unfold usize at h2
              simp only [capacity] at h2
              omega
          · exact a
        have := appendLoop_length _ _ (reserve_small hs hr) ha
        right
        omega

/-- Histories that an iterator over a deque of `n` elements does not notice.  `own`: has Clear given the deque a new
buffer?  `f` and `b`: how many more elements it has at the front and at the back than the iterator.  With a buffer
of its own everything is harmless; before that the reading operations, Reserve, Append, PopFront and PopBack always, and
PushFront and PushBack as long as none of the old elements is gone. -/
def Spec.dequeQuiet (n : Nat) : Bool → Int → Int → List (Option (DMOp α)) → Bool
  | _, _, _, [] => true
  | own, f, b, none :: es => dequeQuiet n own f b es
  | true, f, b, some _ :: es => dequeQuiet n true f b es
  | false, f, b, some (.basic op) :: es =>
    match op with
    | .pushFront _ => decide (0 ≤ f ∧ 0 ≤ b) && dequeQuiet n false (f + 1) b es
    | .pushBack _ => decide (0 ≤ f ∧ 0 ≤ b) && dequeQuiet n false f (b + 1) es
    | .popFront => dequeQuiet n false (if (n : Int) + f + b = 0 then f else f - 1) b es
    | .popBack => dequeQuiet n false f (if (n : Int) + f + b = 0 then b else b - 1) es
    | .front | .back | .get _ | .getUnchecked _ | .len | .isEmpty | .reserve _ => dequeQuiet n false f b es
    | .append o => decide (o.len ≤ 2 ^ 63) && dequeQuiet n false f b es
    | .clear => dequeQuiet n true f b es
    | .set _ _ | .setUnchecked _ _ | .swap _ _ | .retain _ => false
  | false, _, _, some _ :: _ => false

/-- Where the deque `x` is relative to the iterator's copy `w` in the buffer they share. -/
structure Rel (h : DHeap α) (x w : DVar) (f b : Int) : Prop where
  buf : x.buf = w.buf
  inv : (x.load h).Inv
  len : (x.len : Int) = w.len + f + b
  front : (w.len : Int) + f ≤ (w.load h).buffer.length
  back : (w.len : Int) + b ≤ (w.load h).buffer.length
  head : (x.head : Int) = w.head - f ∨ (x.head : Int) = w.head - f + (w.load h).buffer.length ∨
    (x.head : Int) = w.head - f - (w.load h).buffer.length

/-- A write outside the window of the iterator's copy leaves its elements. -/
theorem load_set_outside {h : DHeap α} {w : DVar} (hw : w.buf < h.length) (hi : (w.load h).Inv) (p : Nat) (v : α)
    (hp : ∀ i, i < w.len → phys (w.load h).buffer.length w.head i ≠ p) :
    (w.load (h.set w.buf ((w.load h).buffer.set p v))).toList = (w.load h).toList := by
  have e : w.load (h.set w.buf ((w.load h).buffer.set p v)) = ⟨(w.load h).buffer.set p v, w.len, w.head⟩ := by
    simp only [DVar.load, List.getD_eq_getElem?_getD, List.getElem?_set_self hw]
    rfl
  obtain ⟨i1, i2, i3, i4⟩ := hi
  have hi' : (⟨(w.load h).buffer.set p v, w.len, w.head⟩ : VecDeque α).Inv :=
    ⟨by simpa using i1, by simpa using i2, by rw [List.length_set]; exact i3, by rw [List.length_set]; exact i4⟩
  rw [e]
  refine toList_eq hi' (toList_length ⟨i1, i2, i3, i4⟩) ?_
  intro i hil
  simp only at hil ⊢
  rw [toList_getElem? ⟨i1, i2, i3, i4⟩ hil, List.length_set, List.getElem?_set_ne (Ne.symm (hp i hil))]
  rfl

theorem dequeQuiet_tail (n : Nat) (own : Bool) (f b : Int) (op : DMOp α) (es : List (Option (DMOp α)))
    (hq : Spec.dequeQuiet n own f b (some op :: es) = true) :
    ∃ own' f' b', Spec.dequeQuiet n own' f' b' es = true := by
  cases own with
  | true => exact ⟨true, f, b, hq⟩
  | false =>
    cases op with
    | basic o =>
      cases o <;> simp only [Spec.dequeQuiet, Bool.and_eq_true, Bool.false_eq_true] at hq
      all_goals first
        | exact ⟨_, _, _, hq⟩
        | exact ⟨_, _, _, hq.2⟩
    | _ => simp [Spec.dequeQuiet] at hq

theorem popFront_fields {d d' : VecDeque α} {r : Opt α} (hi : d.Inv) (h : d.popFront = .ok (d', r)) :
    (d.len = 0 ∧ d' = d) ∨ (0 < d.len ∧ d' = ⟨d.buffer, d.len - 1, phys d.buffer.length d.head 1⟩) := by
  have hp := hi.pos
  have hs := hi.small
  have hle := hi.len_le
  unfold popFront isEmpty at h
  by_cases h0 : d.len = 0
  · rw [if_pos (by simp [h0])] at h
    cases h
    exact .inl ⟨h0, rfl⟩
  · rw [if_neg (by simp [h0])] at h
    simp only at h
    cases hx : index d.buffer d.head with
    | error e => rw [hx] at h; cases h
    | ok v =>
      rw [hx] at h
      cases h
      refine .inr ⟨by omega, ?_⟩
      rw [toPhysicalIndex_eq hi (by omega)]
      have : usizeSub d.len 1 = d.len - 1 := by unfold usizeSub; omega
      rw [this]

theorem popBack_fields {d d' : VecDeque α} {r : Opt α} (hi : d.Inv) (h : d.popBack = .ok (d', r)) :
    (d.len = 0 ∧ d' = d) ∨ (0 < d.len ∧ d' = ⟨d.buffer, d.len - 1, d.head⟩) := by
  have hs := hi.small
  have hle := hi.len_le
  unfold popBack isEmpty at h
  have u : 0 < d.len → usizeSub d.len 1 = d.len - 1 := by intro _; unfold usizeSub; omega
  by_cases h0 : d.len = 0
  · rw [if_pos (by simp [h0])] at h
    cases h
    exact .inl ⟨h0, rfl⟩
  · rw [if_neg (by simp [h0])] at h
    simp only at h
    rw [u (by omega)] at h
    generalize hq : index d.buffer _ = q at h
    cases q with
    | error e => cases h
    | ok v => cases h; exact .inr ⟨by omega, rfl⟩

theorem pushBack_fields {d d' : VecDeque α} {v : α} (hi : d.Inv) (hl : d'.buffer.length = d.buffer.length)
    (h : d.pushBack v = .ok d') :
    d.len < d.buffer.length ∧ d' = ⟨d.buffer.set (phys d.buffer.length d.head d.len) v, d.len + 1, d.head⟩ := by
  have hp := hi.pos
  have hs := hi.small
  have hle := hi.len_le
  unfold pushBack at h
  cases hg : d.growIfFull with
  | error e => rw [hg] at h; cases h
  | ok e =>
    rw [hg] at h
    simp only [Go.bind_ok] at h
    rcases growIfFull_length hs hg with ⟨_, a⟩ | ⟨a, rfl⟩
    · exfalso
      by_cases hx : e.toPhysicalIndex e.len < e.buffer.length
      · rw [setIndex_lt hx] at h
        cases h
        simp only [List.length_set] at hl
        omega
      · rw [setIndex_ge (by omega)] at h
        cases h
    · rw [toPhysicalIndex_eq hi (by omega), setIndex_lt (phys_lt hi (by omega))] at h
      cases h
      refine ⟨by omega, ?_⟩
      have : usize (e.len + 1) = e.len + 1 := by unfold usize; omega
      rw [this]

theorem pushFront_fields {d d' : VecDeque α} {v : α} (hi : d.Inv) (hl : d'.buffer.length = d.buffer.length)
    (h : d.pushFront v = .ok d') :
    d.len < d.buffer.length ∧ ∃ p, p = (if d.head = 0 then d.buffer.length - 1 else d.head - 1) ∧
      d' = ⟨d.buffer.set p v, d.len + 1, p⟩ := by
  have hp := hi.pos
  have hs := hi.small
  have hle := hi.len_le
  have hhd := hi.head_lt
  unfold pushFront at h
  cases hg : d.growIfFull with
  | error e => rw [hg] at h; cases h
  | ok e =>
    rw [hg] at h
    simp only [Go.bind_ok] at h
    rcases growIfFull_length hs hg with ⟨_, a⟩ | ⟨a, rfl⟩
    · exfalso
      by_cases hx : e.wrapSub e.head 1 < e.buffer.length
      · rw [setIndex_lt hx] at h
        cases h
        simp only [List.length_set] at hl
        omega
      · rw [setIndex_ge (by omega)] at h
        cases h
    · have hw : e.wrapSub e.head 1 = if e.head = 0 then e.buffer.length - 1 else e.head - 1 := by
        unfold wrapSub wrapIndex usize usizeSub
        by_cases h0 : e.head = 0
        · have e1 : ((e.head + 2 ^ 64 - 1) % 2 ^ 64 + e.buffer.length) % 2 ^ 64 = e.buffer.length - 1 := by omega
          rw [e1, if_neg (by omega), if_pos h0]
        · have e1 : ((e.head + 2 ^ 64 - 1) % 2 ^ 64 + e.buffer.length) % 2 ^ 64 = e.head - 1 + e.buffer.length := by
            omega
          rw [e1, if_pos (by omega), if_neg h0]
          omega
      rw [setIndex_lt (by rw [hw]; split <;> omega)] at h
      cases h
      refine ⟨by omega, _, hw, ?_⟩
      have : usize (e.len + 1) = e.len + 1 := by unfold usize; omega
      rw [this]

/-- One harmless step. -/
theorem dequeQuiet_step (S : SortLib) (op : DMOp α) {h h' : DHeap α} {x x' w : DVar} {r : Obs α}
    (hw : w.buf < h.length) (hi : (w.load h).Inv) (he : op.heap S h x = .ok (h', x', r)) (own : Bool)
    (f b : Int) (es : List (Option (DMOp α))) (hq : Spec.dequeQuiet w.len own f b (some op :: es) = true)
    (hinv : x.buf ≠ w.buf ∨ (own = false ∧ Rel h x w f b)) :
    (w.load h').toList = (w.load h).toList ∧ ∃ own' f' b', Spec.dequeQuiet w.len own' f' b' es = true ∧
      (x'.buf ≠ w.buf ∨ (own' = false ∧ Rel h' x' w f' b')) := by
  obtain ⟨d, hp, hf⟩ := op.heap_frame S he
  rcases hf with ⟨a1, rfl, a3, a4, a5, a6⟩ | ⟨a1, a2, rfl⟩
  · by_cases hne : x.buf = w.buf
    · rcases hinv with hinv | ⟨rfl, rel⟩
      · exact absurd hne hinv
      · have hxl : (x.load h).buffer = (w.load h).buffer := by simp only [DVar.load, hne]
        have hlx : (x.load h).len = x.len := rfl
        have hhx : (x.load h).head = x.head := rfl
        have hlw : (w.load h).len = w.len := rfl
        have hhw : (w.load h).head = w.head := rfl
        rw [hxl] at a3
        rw [hne]
        have ri := rel.inv
        obtain ⟨i1, i2, i3, i4⟩ := rel.inv
        obtain ⟨j1, j2, j3, j4⟩ := hi
        rw [hxl] at i1 i2 i3 i4
        rw [hlx] at i3
        rw [hhx] at i4
        rw [hlw] at j3
        rw [hhw] at j4
        have r1 := rel.len
        have r2 := rel.front
        have r3 := rel.back
        have r4 := rel.head
        -- the loads afterwards
        have lw : w.load (h.set w.buf d.buffer) = ⟨d.buffer, w.len, w.head⟩ := by
          simp only [DVar.load, List.getD_eq_getElem?_getD, List.getElem?_set_self hw]
          rfl
        have lx : x'.load (h.set w.buf d.buffer) = d := by
          simp only [DVar.load, List.getD_eq_getElem?_getD, a1, hne, List.getElem?_set_self hw, a4, a5]
          rfl
        have mk : ∀ f' b' : Int, d.Inv → (d.len : Int) = w.len + f' + b' → (w.len : Int) + f' ≤ d.buffer.length →
            (w.len : Int) + b' ≤ d.buffer.length →
            ((d.head : Int) = w.head - f' ∨ (d.head : Int) = w.head - f' + d.buffer.length ∨
              (d.head : Int) = w.head - f' - d.buffer.length) →
            Rel (h.set w.buf d.buffer) x' w f' b' := by
          intro f' b' c1 c2 c3 c4 c5
          refine ⟨by omega, by rw [lx]; exact c1, by rw [a4]; exact c2, ?_, ?_, ?_⟩
          · rw [lw]; exact c3
          · rw [lw]; exact c4
          · rw [lw, a5]; exact c5
        have same : d = x.load h → (w.load (h.set w.buf d.buffer)).toList = (w.load h).toList ∧
            Rel (h.set w.buf d.buffer) x' w f b := by
          intro hd
          constructor
          · rw [lw, hd, hxl]; rfl
          · apply mk f b
            · rw [hd]; exact ri
            · rw [hd]; exact r1
            · rw [a3]; exact r2
            · rw [a3]; exact r3
            · rw [a3, hd]; exact r4
        have still : d.buffer = (x.load h).buffer →
            (w.load (h.set w.buf d.buffer)).toList = (w.load h).toList := by
          intro hd
          rw [lw, hd, hxl]; rfl
        cases op with
        | basic o =>
          cases o with
          | pushFront v =>
            simp only [Spec.dequeQuiet, Bool.and_eq_true, decide_eq_true_eq] at hq
            obtain ⟨⟨q1, q2⟩, hq⟩ := hq
            simp only [DMOp.pure, VecDeque.step] at hp
            cases hpf : (x.load h).pushFront v with
            | error e => rw [hpf] at hp; cases hp
            | ok d' =>
              rw [hpf] at hp
              cases hp
              obtain ⟨c1, p, c2, c3⟩ := pushFront_fields ri (by rw [hxl]; exact a3) hpf
              rw [hxl, hhx] at c2
              rw [hxl, hlx] at c1
              rw [hxl, hlx] at c3
              have hpl : p < (w.load h).buffer.length := by rw [c2]; split <;> omega
              refine ⟨?_, false, f + 1, b, hq, .inr ⟨rfl, ?_⟩⟩
              · rw [c3]
                apply load_set_outside hw ⟨j1, j2, j3, j4⟩
                intro i hil
                rw [c2]
                unfold phys
                by_cases g1 : x.head = 0
                · rw [if_pos g1]; split <;> omega
                · rw [if_neg g1]; split <;> omega
              · apply mk (f + 1) b
                · rw [c3]
                  exact ⟨by simpa using i1, by simpa using i2, by simp; omega, by simpa using hpl⟩
                · rw [c3]; simp only; omega
                · rw [a3]; omega
                · rw [a3]; omega
                · rw [a3, c3]
                  simp only
                  rw [c2]
                  by_cases g1 : x.head = 0
                  · rw [if_pos g1]; omega
                  · rw [if_neg g1]; omega
          | pushBack v =>
            simp only [Spec.dequeQuiet, Bool.and_eq_true, decide_eq_true_eq] at hq
            obtain ⟨⟨q1, q2⟩, hq⟩ := hq
            simp only [DMOp.pure, VecDeque.step] at hp
            cases hpf : (x.load h).pushBack v with
            | error e => rw [hpf] at hp; cases hp
            | ok d' =>
              rw [hpf] at hp
              cases hp
              obtain ⟨c1, c3⟩ := pushBack_fields ri (by rw [hxl]; exact a3) hpf
              rw [hxl, hlx] at c1
              rw [hxl, hlx, hhx] at c3
              refine ⟨?_, false, f, b + 1, hq, .inr ⟨rfl, ?_⟩⟩
              · rw [c3]
                apply load_set_outside hw ⟨j1, j2, j3, j4⟩
                intro i hil
                unfold phys
                split <;> split <;> omega
              · apply mk f (b + 1)
                · rw [c3]
                  exact ⟨by simpa using i1, by simpa using i2, by simp; omega, by simpa using i4⟩
                · rw [c3]; simp only; omega
                · rw [a3]; omega
                · rw [a3]; omega
                · rw [a3, c3]; exact r4
          | popFront =>
            simp only [Spec.dequeQuiet] at hq
            simp only [DMOp.pure, VecDeque.step] at hp
            cases hpf : (x.load h).popFront with
            | error e => rw [hpf] at hp; cases hp
            | ok q =>
              obtain ⟨d', o⟩ := q
              rw [hpf] at hp
              cases hp
              rcases popFront_fields ri hpf with ⟨c1, c2⟩ | ⟨c1, c2⟩
              · rw [hlx] at c1
                rw [if_pos (by omega)] at hq
                exact ⟨(same c2).1, false, f, b, hq, .inr ⟨rfl, (same c2).2⟩⟩
              · rw [hlx] at c1
                rw [if_neg (by omega)] at hq
                rw [hxl, hlx, hhx] at c2
                refine ⟨still (by rw [c2, hxl]), false, f - 1, b, hq, .inr ⟨rfl, ?_⟩⟩
                have hph : phys (w.load h).buffer.length x.head 1 < (w.load h).buffer.length := by
                  unfold phys; split <;> omega
                apply mk (f - 1) b
                · rw [c2]; exact ⟨i1, i2, by simp only; omega, hph⟩
                · rw [c2]; simp only; omega
                · rw [a3]; omega
                · rw [a3]; omega
                · rw [a3, c2]
                  simp only
                  unfold phys
                  split <;> omega
          | popBack =>
            simp only [Spec.dequeQuiet] at hq
            simp only [DMOp.pure, VecDeque.step] at hp
            cases hpf : (x.load h).popBack with
            | error e => rw [hpf] at hp; cases hp
            | ok q =>
              obtain ⟨d', o⟩ := q
              rw [hpf] at hp
              cases hp
              rcases popBack_fields ri hpf with ⟨c1, c2⟩ | ⟨c1, c2⟩
              · rw [hlx] at c1
                rw [if_pos (by omega)] at hq
                exact ⟨(same c2).1, false, f, b, hq, .inr ⟨rfl, (same c2).2⟩⟩
              · rw [hlx] at c1
                rw [if_neg (by omega)] at hq
                rw [hxl, hlx, hhx] at c2
                refine ⟨still (by rw [c2, hxl]), false, f, b - 1, hq, .inr ⟨rfl, ?_⟩⟩
                apply mk f (b - 1)
                · rw [c2]; exact ⟨i1, i2, by simp only; omega, i4⟩
                · rw [c2]; simp only; omega
                · rw [a3]; omega
                · rw [a3]; omega
                · rw [a3, c2]; exact r4
          | front =>
            simp only [Spec.dequeQuiet] at hq
            simp only [DMOp.pure, VecDeque.step] at hp
            cases hpf : (x.load h).front with
            | error e => rw [hpf] at hp; cases hp
            | ok q =>
              rw [hpf] at hp; cases hp
              exact ⟨(same rfl).1, false, f, b, hq, .inr ⟨rfl, (same rfl).2⟩⟩
          | back =>
            simp only [Spec.dequeQuiet] at hq
            simp only [DMOp.pure, VecDeque.step] at hp
            cases hpf : (x.load h).back with
            | error e => rw [hpf] at hp; cases hp
            | ok q =>
              rw [hpf] at hp; cases hp
              exact ⟨(same rfl).1, false, f, b, hq, .inr ⟨rfl, (same rfl).2⟩⟩
          | get i =>
            simp only [Spec.dequeQuiet] at hq
            simp only [DMOp.pure, VecDeque.step] at hp
            cases hpf : (x.load h).get i with
            | error e => rw [hpf] at hp; cases hp
            | ok q =>
              rw [hpf] at hp; cases hp
              exact ⟨(same rfl).1, false, f, b, hq, .inr ⟨rfl, (same rfl).2⟩⟩
          | getUnchecked i =>
            simp only [Spec.dequeQuiet] at hq
            simp only [DMOp.pure, VecDeque.step] at hp
            cases hpf : (x.load h).getUnchecked i with
            | error e => rw [hpf] at hp; cases hp
            | ok q =>
              rw [hpf] at hp; cases hp
              exact ⟨(same rfl).1, false, f, b, hq, .inr ⟨rfl, (same rfl).2⟩⟩
          | len =>
            simp only [Spec.dequeQuiet] at hq
            simp only [DMOp.pure, VecDeque.step] at hp
            cases hp
            exact ⟨(same rfl).1, false, f, b, hq, .inr ⟨rfl, (same rfl).2⟩⟩
          | isEmpty =>
            simp only [Spec.dequeQuiet] at hq
            simp only [DMOp.pure, VecDeque.step] at hp
            cases hp
            exact ⟨(same rfl).1, false, f, b, hq, .inr ⟨rfl, (same rfl).2⟩⟩
          | reserve n =>
            simp only [Spec.dequeQuiet] at hq
            simp only [DMOp.pure, VecDeque.step] at hp
            cases hpf : (x.load h).reserve n with
            | error e => rw [hpf] at hp; cases hp
            | ok q =>
              rw [hpf] at hp; cases hp
              rcases reserve_length hpf with c | c
              · exact ⟨(same c).1, false, f, b, hq, .inr ⟨rfl, (same c).2⟩⟩
              · rw [hxl] at c; omega
          | append o =>
            simp only [Spec.dequeQuiet, Bool.and_eq_true, decide_eq_true_eq] at hq
            simp only [DMOp.pure, VecDeque.step] at hp
            cases hpf : (x.load h).append o with
            | error e => rw [hpf] at hp; cases hp
            | ok q =>
              obtain ⟨q1, q2⟩ := q
              rw [hpf] at hp; cases hp
              rcases append_length ri.small hq.1 hpf with c | c
              · exact ⟨(same c).1, false, f, b, hq.2, .inr ⟨rfl, (same c).2⟩⟩
              · rw [hxl] at c
                have a3' : q1.buffer.length = (w.load h).buffer.length := a3
                omega
          | clear => cases a6
          | set i v => simp [Spec.dequeQuiet] at hq
          | setUnchecked i v => simp [Spec.dequeQuiet] at hq
          | swap i j => simp [Spec.dequeQuiet] at hq
          | retain p => simp [Spec.dequeQuiet] at hq
        | _ => simp [Spec.dequeQuiet] at hq
    · obtain ⟨own', f', b', hq'⟩ := dequeQuiet_tail _ _ _ _ _ _ hq
      refine ⟨?_, own', f', b', hq', .inl (by omega)⟩
      have : w.load (h.set x.buf d.buffer) = w.load h := by
        simp only [DVar.load, List.getD_eq_getElem?_getD, List.getElem?_set_ne hne]
      rw [this]
  · obtain ⟨own', f', b', hq'⟩ := dequeQuiet_tail _ _ _ _ _ _ hq
    refine ⟨?_, own', f', b', hq', .inl (by omega)⟩
    have : w.load (h ++ [a2]) = w.load h := by
      simp only [DVar.load, List.getD_eq_getElem?_getD, List.getElem?_append_left hw]
    rw [this]

theorem runDequeIter_quiet (S : SortLib) (es : List (Option (DMOp α))) (h : DHeap α) (x w : DVar) (p : Nat)
    (hx : x.buf < h.length) (hw : w.buf < h.length) (hi : (w.load h).Inv) (hp : p ≤ w.len) (own : Bool) (f b : Int)
    (hq : Spec.dequeQuiet w.len own f b es = true) (hinv : x.buf ≠ w.buf ∨ (own = false ∧ Rel h x w f b))
    (rs : List (Option α)) (z : DHeap α × DVar × DIter) (hr : runDequeIter S es h x ⟨w, p⟩ = .ok (rs, z)) :
    rs = Spec.yields ((w.load h).toList.drop p) rs.length := by
  induction es generalizing h x p own f b rs z with
  | nil => cases hr; rfl
  | cons e es ih =>
    cases e with
    | none =>
      simp only [runDequeIter] at hr
      rw [DIter.next_eq h w p hi hp] at hr
      simp only [Go.bind_ok] at hr
      have hvl : (w.load h).toList.length = w.len := toList_length hi
      cases hc : runDequeIter S es h x ⟨w, if p < w.len then p + 1 else p⟩ with
      | error e => rw [hc] at hr; cases hr
      | ok q =>
        obtain ⟨rs', z'⟩ := q
        rw [hc] at hr
        simp only [Go.bind_ok, Except.ok.injEq, Prod.mk.injEq] at hr
        obtain ⟨rfl, rfl⟩ := hr
        have := ih h x (if p < w.len then p + 1 else p) hx hw hi (by split <;> omega) own f b
          (by cases own <;> simpa [Spec.dequeQuiet] using hq) hinv rs' z' hc
        unfold Spec.yields at this ⊢
        rw [List.length_cons, List.range_succ_eq_map, List.map_cons, List.map_map]
        congr 1
        · simp
        · rw [this]
          simp only [List.length_map, List.length_range]
          apply List.map_congr_left
          intro i _
          simp only [Function.comp, List.getElem?_drop]
          by_cases hlt : p < w.len
          · rw [if_pos hlt]; congr 1; omega
          · rw [if_neg hlt, List.getElem?_eq_none (by omega), List.getElem?_eq_none (by omega)]
    | some op =>
      simp only [runDequeIter] at hr
      cases hop : op.heap S h x with
      | error e => rw [hop] at hr; cases hr
      | ok q =>
        obtain ⟨h1, x1, r⟩ := q
        rw [hop] at hr
        simp only [Go.bind_ok] at hr
        obtain ⟨hview, own', f', b', hq', hinv'⟩ := dequeQuiet_step S op hw hi hop own f b es hq hinv
        obtain ⟨k1, k2, k3⟩ := op.heap_inv S hx hw hi hop
        have := ih h1 x1 p k1 k2 k3 hp own' f' b' hq' hinv' rs z hr
        rw [hview] at this
        exact this

/-- C138, full property: an iterator gives the elements the deque had when the iterator was taken, whatever is done to the
deque in between.  Proved for the histories of `Spec.dequeQuiet`: reading, Reserve, Append, PopFront and PopBack, any
number of PushFront and PushBack while all old elements are still in the deque, and everything after a
Clear.  Missing: Set, Swap, Fill, Dedup, Retain, Sort, and pushes after pops, see `C138_deque_fails`. -/
theorem C138_deque_partial (S : SortLib) (es : List (Option (DMOp α))) (h : DHeap α) (x : DVar)
    (hx : x.buf < h.length) (hi : (x.load h).Inv) (hq : Spec.dequeQuiet x.len false 0 0 es = true)
    (rs : List (Option α)) (z : DHeap α × DVar × DIter) (hr : runDequeIter S es h x x.intoIter = .ok (rs, z)) :
    rs = Spec.yields (x.load h).toList rs.length := by
  have hle := hi.len_le
  have hlx : (x.load h).len = x.len := rfl
  rw [hlx] at hle
  have rel : Rel h x x 0 0 := ⟨rfl, hi, by omega, by omega, by omega, .inl (by omega)⟩
  have := runDequeIter_quiet S es h x x 0 hx hx hi (Nat.zero_le _) false 0 0 hq (.inr ⟨rfl, rel⟩) rs z hr
  simpa using this

theorem runDequeIter_nones (S : SortLib) (n : Nat) (h : DHeap α) (x w : DVar) (p : Nat) (hw : (w.load h).Inv)
    (hp : p ≤ w.len) :
    ∃ z, runDequeIter S (List.replicate n none) h x ⟨w, p⟩ = .ok (Spec.yields ((w.load h).toList.drop p) n, z) := by
  have hvl : (w.load h).toList.length = w.len := toList_length hw
  induction n generalizing p with
  | zero => exact ⟨_, rfl⟩
  | succ n ih =>
    obtain ⟨z, hz⟩ := ih (if p < w.len then p + 1 else p) (by split <;> omega)
    refine ⟨z, ?_⟩
    simp only [List.replicate_succ, runDequeIter]
    rw [DIter.next_eq h w p hw hp]
    simp only [Go.bind_ok]
    rw [hz]
    simp only [Go.bind_ok, Except.ok.injEq, Prod.mk.injEq, and_true]
    unfold Spec.yields
    rw [List.range_succ_eq_map, List.map_cons, List.map_map]
    congr 1
    · simp
    · apply List.map_congr_left
      intro i _
      simp only [Function.comp, List.getElem?_drop]
      by_cases hlt : p < w.len
      · rw [if_pos hlt]; congr 1; omega
      · rw [if_neg hlt, List.getElem?_eq_none (by omega), List.getElem?_eq_none (by omega)]

/-- C138 is violated by every nonempty deque: an iterator taken before Set gives the new element. -/
theorem C138_deque_fails (S : SortLib) (h : DHeap α) (x : DVar) (hx : x.buf < h.length) (hi : (x.load h).Inv) (i : Nat)
    (hil : i < x.len) (v : α) (n : Nat) :
    ∃ z, runDequeIter S (some (.basic (.set i v)) :: List.replicate n none) h x x.intoIter =
      .ok (Spec.yields ((x.load h).toList.set i v) n, z) := by
  obtain ⟨p1, p2, p3, p4, p5⟩ := put_eq hi (k := i) hil v
  have hp : DMOp.pure S (.basic (.set i v)) (x.load h) = .ok ((x.load h).put i v, .opt none) := by
    simp only [DMOp.pure, VecDeque.step, VecDeque.set]
    rw [if_neg (by show ¬ i ≥ x.len; omega)]
    unfold setUnchecked at p1
    cases hs : setIndex (x.load h).buffer ((x.load h).toPhysicalIndex i) v with
    | error e => rw [hs] at p1; cases p1
    | ok b => rw [hs] at p1; cases p1; rfl
  have hop : DMOp.heap S (.basic (.set i v)) h x = .ok (h.set x.buf ((x.load h).put i v).buffer, x, .opt none) := by
    simp only [DMOp.heap, DVar.apply, hp, Go.bind_ok]
    rw [if_neg (by simp [DMOp.clears, p5])]
    rfl
  have hload : x.load (h.set x.buf ((x.load h).put i v).buffer) = (x.load h).put i v := by
    simp only [DVar.load, List.getD_eq_getElem?_getD, List.getElem?_set_self hx]
    rfl
  obtain ⟨z, hz⟩ := runDequeIter_nones S n (h.set x.buf ((x.load h).put i v).buffer) x x 0 (by rw [hload]; exact p2)
    (Nat.zero_le _)
  refine ⟨z, ?_⟩
  simp only [runDequeIter, DVar.intoIter]
  rw [hop]
  simp only [Go.bind_ok]
  rw [hz, hload, p3]
  rfl

example :
    (runDequeIter mergeSortLib [none, some (.basic (.pushFront 7)), some (.basic (.pushBack 8)), none, some (.basic .popFront),
        none, none] ([[3, 0, 0, 1, 2]] : DHeap Nat) ⟨0, 3, 3⟩ (DVar.intoIter ⟨0, 3, 3⟩)).toOption.map (·.1) =
      some [some 1, some 2, some 3, none] ∧
    Spec.dequeQuiet 3 false 0 0 [none, some (.basic (.pushFront 7)), some (.basic (.pushBack 8)), none,
        some (.basic .popFront), none, (none : Option (DMOp Nat))] = true := by decide

/-- Pop and push: the iterator gives the new last element. -/
example :
    (runDequeIter mergeSortLib [none, some (.basic .popBack), some (.basic (.pushBack 8)), none, none, none]
        ([[3, 0, 0, 1, 2]] : DHeap Nat) ⟨0, 3, 3⟩ (DVar.intoIter ⟨0, 3, 3⟩)).toOption.map (·.1) =
      some [some 1, some 2, some 8, none] := by decide

end Gost
