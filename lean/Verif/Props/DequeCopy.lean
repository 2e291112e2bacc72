import Verif.Props.DequeHeap
/-
C91: what a copy of a deque variable may still do without changing the original.
-/
set_option linter.unusedSectionVars false
namespace Gost
open Spec VecDeque

variable {α : Type} [Inhabited α]

/-- The operations that only add elements at the ends, look, or make a new buffer: PushFront, PushBack,
Append (of a separate deque), Reserve (of a machine integer), Clear, Front, Back, Get, GetUnchecked, Len and
IsEmpty. -/
def DMOp.Adds : DMOp α → Prop
  | .basic (.append o) => o.Inv
  | .basic (.reserve n) => n < 2 ^ 64
  | .basic (.pushFront _) | .basic (.pushBack _) | .basic .front | .basic .back | .basic (.get _)
  | .basic (.getUnchecked _) | .basic .clear | .basic .len | .basic .isEmpty => True
  | _ => False

namespace VecDeque

/-- The ring of `e` runs over all the slots of the ring of `d`, which hold what they held. -/
def Keeps (d e : VecDeque α) : Prop :=
  e.buffer.length = d.buffer.length ∧ ∃ k, k + d.len ≤ e.len ∧ ∀ i, i < d.len →
    phys d.buffer.length e.head (k + i) = phys d.buffer.length d.head i ∧
    e.buffer[phys d.buffer.length d.head i]? = d.buffer[phys d.buffer.length d.head i]?

theorem Keeps.refl (d : VecDeque α) : Keeps d d := ⟨rfl, 0, by omega, fun i _ => ⟨by rw [Nat.zero_add], rfl⟩⟩

theorem Keeps.trans {d e f : VecDeque α} (h1 : Keeps d e) (h2 : Keeps e f) : Keeps d f := by
  obtain ⟨l1, k1, b1, g1⟩ := h1
  obtain ⟨l2, k2, b2, g2⟩ := h2
  refine ⟨l2.trans l1, k2 + k1, by omega, fun i hi => ?_⟩
  obtain ⟨p1, q1⟩ := g1 i hi
  obtain ⟨p2, q2⟩ := g2 (k1 + i) (by omega)
  rw [l1] at p2 q2
  rw [p1] at p2 q2
  exact ⟨by rw [Nat.add_assoc]; exact p2, q2.trans q1⟩

/-- A deque shown by the same slots has the same elements. -/
theorem Keeps.toList {d e : VecDeque α} (hd : d.Inv) (hk : Keeps d e) :
    (⟨e.buffer, d.len, d.head⟩ : VecDeque α).toList = d.toList := by
  obtain ⟨l, k, b, g⟩ := hk
  have hi : (⟨e.buffer, d.len, d.head⟩ : VecDeque α).Inv := by
    obtain ⟨a1, a2, a3, a4⟩ := hd
    exact ⟨by simp only; omega, by simp only; omega, by simp only; omega, by simp only; omega⟩
  refine toList_eq hi (toList_length hd) ?_
  intro i h
  simp only at h ⊢
  rw [toList_getElem? hd h, l, (g i h).2]

/-- What a push that succeeds does: a longer buffer, or the old slots stay. -/
theorem pushBack_keeps {d d' : VecDeque α} (h : d.Inv) {v : α} (e : d.pushBack v = .ok d') :
    d'.Inv ∧ (d.buffer.length < d'.buffer.length ∨ Keeps d d') := by
  have h1 := h.pos
  have h3 := h.len_le
  have h2 := h.small
  have h4 := h.head_lt
  by_cases hs : d.len < d.buffer.length ∨ 2 * d.len < 2 ^ 63
  · obtain ⟨d1, e1, i1, t1, c1⟩ := pushBack_eq h hs v
    rw [e1] at e; cases e
    refine ⟨i1, ?_⟩
    by_cases hf : d.len = d.buffer.length
    · rw [if_pos hf] at c1; left; omega
    · right
      unfold pushBack growIfFull at e1
      rw [if_neg (by simp [hf])] at e1
      have hp := toPhysicalIndex_eq h (i := d.len) (by omega)
      have hpl := phys_lt h (i := d.len) (by omega)
      simp only [Go.bind_ok] at e1
      rw [setIndex_lt (by rw [hp]; exact hpl)] at e1
      cases e1
      have u : usize (d.len + 1) = d.len + 1 := by unfold usize; omega
      refine ⟨by simp, 0, by simp only; omega, fun i hi => ⟨by simp, ?_⟩⟩
      simp only
      rw [hp, List.getElem?_set_ne]
      unfold phys
      split <;> split <;> omega
  · exfalso
    have : d.isFull = true := by simp; omega
    unfold pushBack growIfFull at e
    rw [if_pos this, grow_alloc (by omega) h2 (by omega)] at e
    cases e

theorem wrapSub_one {d : VecDeque α} (h : d.Inv) :
    d.wrapSub d.head 1 = if d.head = 0 then d.buffer.length - 1 else d.head - 1 := by
  obtain ⟨h1, h2, h3, h4⟩ := h
  unfold wrapSub wrapIndex usize usizeSub
  by_cases h0 : d.head = 0
  · have e1 : ((d.head + 2 ^ 64 - 1) % 2 ^ 64 + d.buffer.length) % 2 ^ 64 = d.buffer.length - 1 := by omega
    rw [e1, if_neg (by omega), if_pos h0]
  · have e1 : ((d.head + 2 ^ 64 - 1) % 2 ^ 64 + d.buffer.length) % 2 ^ 64 =
        d.head - 1 + d.buffer.length := by omega
    rw [e1, if_pos (by omega), if_neg h0]
    omega

theorem pushFront_keeps {d d' : VecDeque α} (h : d.Inv) {v : α} (e : d.pushFront v = .ok d') :
    d'.Inv ∧ (d.buffer.length < d'.buffer.length ∨ Keeps d d') := by
  have h1 := h.pos
  have h3 := h.len_le
  have h2 := h.small
  have h4 := h.head_lt
  by_cases hs : d.len < d.buffer.length ∨ 2 * d.len < 2 ^ 63
  · obtain ⟨d1, e1, i1, t1, c1⟩ := pushFront_eq h hs v
    rw [e1] at e; cases e
    refine ⟨i1, ?_⟩
    by_cases hf : d.len = d.buffer.length
    · rw [if_pos hf] at c1; left; omega
    · right
      have hw := wrapSub_one h
      unfold pushFront growIfFull at e1
      rw [if_neg (by simp [hf])] at e1
      simp only [Go.bind_ok] at e1
      rw [setIndex_lt (by rw [hw]; split <;> omega)] at e1
      cases e1
      have u : usize (d.len + 1) = d.len + 1 := by unfold usize; omega
      refine ⟨by simp, 1, by simp only; omega, fun i hi => ⟨?_, ?_⟩⟩
      · simp only [hw]
        unfold phys
        split <;> split <;> split <;> omega
      · simp only [hw]
        rw [List.getElem?_set_ne]
        unfold phys
        split <;> split <;> omega
  · exfalso
    have : d.isFull = true := by simp; omega
    unfold pushFront growIfFull at e
    rw [if_pos this, grow_alloc (by omega) h2 (by omega)] at e
    cases e

/-- Reserve that succeeds: nothing, or a longer buffer. -/
theorem reserve_keeps {d d' : VecDeque α} (h : d.Inv) {n : Nat} (hn : n < 2 ^ 64) (e : d.reserve n = .ok d') :
    d'.Inv ∧ (d.buffer.length < d'.buffer.length ∨ (d' = d ∧ (n = 0 ∨ 2 ^ 63 ≤ n))) := by
  have h2 := h.small
  by_cases hs : d.buffer.length + n < 2 ^ 63
  · obtain ⟨d1, e1, i1, t1, c1⟩ := reserve_eq h n hs
    rw [e1] at e; cases e
    refine ⟨i1, ?_⟩
    by_cases h0 : n = 0
    · subst h0
      right
      unfold reserve capacity usize at e1
      simp only at e1
      rw [if_neg (by omega)] at e1
      cases e1
      exact ⟨rfl, .inl rfl⟩
    · left; omega
  · unfold reserve capacity at e
    simp only at e
    by_cases hc : usize (d.buffer.length + n) > d.buffer.length
    · rw [if_pos hc] at e
      exfalso
      unfold remake makeLen at e
      rw [if_neg (by unfold usize at hc ⊢; omega)] at e
      cases e
    · rw [if_neg hc] at e
      cases e
      refine ⟨h, .inr ⟨rfl, .inr ?_⟩⟩
      unfold usize at hc
      omega

theorem appendLoop_keeps {o : VecDeque α} (n i : Nat) {d d' : VecDeque α} (h : d.Inv)
    (e : appendLoop o n i d = .ok d') : d'.Inv ∧ d.buffer.length ≤ d'.buffer.length := by
  induction n generalizing i d with
  | zero => cases e; exact ⟨h, Nat.le_refl _⟩
  | succ n ih =>
    simp only [appendLoop] at e
    cases hg : o.getUnchecked i with
    | error p => rw [hg] at e; cases e
    | ok v =>
      rw [hg] at e
      simp only [Go.bind_ok] at e
      cases hp : d.pushBack v with
      | error p => rw [hp] at e; cases e
      | ok d1 =>
        rw [hp] at e
        simp only [Go.bind_ok] at e
        obtain ⟨i1, k1⟩ := pushBack_keeps h hp
        obtain ⟨i2, l2⟩ := ih _ i1 e
        refine ⟨i2, ?_⟩
        rcases k1 with k1 | k1
        · omega
        · have := k1.1; omega

theorem append_keeps {d d' o o' : VecDeque α} (h : d.Inv) (ho : o.Inv) (e : d.append o = .ok (d', o')) :
    d'.Inv ∧ (d.buffer.length < d'.buffer.length ∨ Keeps d d') := by
  have h2 := ho.small
  have h3 := ho.len_le
  unfold append at e
  cases hr : d.reserve o.len with
  | error p => rw [hr] at e; cases e
  | ok d1 =>
    rw [hr] at e
    simp only [Go.bind_ok] at e
    obtain ⟨i1, k1⟩ := reserve_keeps h (by omega) hr
    cases hl : appendLoop o o.len 0 d1 with
    | error p => rw [hl] at e; cases e
    | ok d2 =>
      rw [hl] at e
      cases e
      obtain ⟨i2, l2⟩ := appendLoop_keeps _ _ i1 hl
      refine ⟨i2, ?_⟩
      rcases k1 with k1 | ⟨k1, k0⟩
      · left; omega
      · right
        subst k1
        have h0 : o.len = 0 := by omega
        rw [h0] at hl
        cases hl
        exact Keeps.refl _

end VecDeque

/-- Every operation of `Adds` that succeeds either gives the variable a new buffer or keeps the slots. -/
theorem DMOp.adds_step (S : SortLib) {o : DMOp α} (ho : o.Adds) {d d' : VecDeque α} {r : Obs α} (hi : d.Inv)
    (e : o.pure S d = .ok (d', r)) :
    d'.Inv ∧ (o.clears = true ∨ d'.buffer.length ≠ d.buffer.length ∨ Keeps d d') := by
  have wk : ∀ {d1 : VecDeque α}, d1.Inv ∧ (d.buffer.length < d1.buffer.length ∨ Keeps d d1) →
      d1.Inv ∧ (o.clears = true ∨ d1.buffer.length ≠ d.buffer.length ∨ Keeps d d1) := by
    rintro d1 ⟨a, b | b⟩
    · exact ⟨a, .inr (.inl (by omega))⟩
    · exact ⟨a, .inr (.inr b)⟩
  cases o with
  | basic o =>
    simp only [DMOp.pure] at e
    cases o <;> simp only [DMOp.Adds] at ho <;> simp only [VecDeque.step] at e
    case pushFront v =>
      cases hp : d.pushFront v with
      | error p => rw [hp] at e; cases e
      | ok d1 => rw [hp] at e; cases e; exact wk (pushFront_keeps hi hp)
    case pushBack v =>
      cases hp : d.pushBack v with
      | error p => rw [hp] at e; cases e
      | ok d1 => rw [hp] at e; cases e; exact wk (pushBack_keeps hi hp)
    case front =>
      cases hp : d.front with
      | error p => rw [hp] at e; cases e
      | ok d1 => rw [hp] at e; cases e; exact ⟨hi, .inr (.inr (Keeps.refl _))⟩
    case back =>
      cases hp : d.back with
      | error p => rw [hp] at e; cases e
      | ok d1 => rw [hp] at e; cases e; exact ⟨hi, .inr (.inr (Keeps.refl _))⟩
    case get i =>
      cases hp : d.get i with
      | error p => rw [hp] at e; cases e
      | ok d1 => rw [hp] at e; cases e; exact ⟨hi, .inr (.inr (Keeps.refl _))⟩
    case getUnchecked i =>
      cases hp : d.getUnchecked i with
      | error p => rw [hp] at e; cases e
      | ok d1 => rw [hp] at e; cases e; exact ⟨hi, .inr (.inr (Keeps.refl _))⟩
    case append o =>
      cases hp : d.append o with
      | error p => rw [hp] at e; cases e
      | ok d1 => rw [hp] at e; cases e; exact wk (append_keeps hi ho hp)
    case reserve n =>
      cases hp : d.reserve n with
      | error p => rw [hp] at e; cases e
      | ok d1 =>
        rw [hp] at e; cases e
        obtain ⟨a, b | ⟨b, _⟩⟩ := reserve_keeps hi ho hp
        · exact wk ⟨a, .inl b⟩
        · subst b; exact wk ⟨a, .inr (Keeps.refl _)⟩
    case clear =>
      cases e
      exact ⟨⟨by simp [VecDeque.clear], by simp [VecDeque.clear], by simp [VecDeque.clear],
        by simp [VecDeque.clear]⟩, .inl rfl⟩
    case len => cases e; exact ⟨hi, .inr (.inr (Keeps.refl _))⟩
    case isEmpty => cases e; exact ⟨hi, .inr (.inr (Keeps.refl _))⟩
  | _ => exact absurd ho (by simp [DMOp.Adds])

/-- A history of operations on one variable. -/
def runVar (S : SortLib) : List (DMOp α) → DHeap α → DVar → Go (List (Obs α) × DHeap α × DVar)
  | [], h, x => .ok ([], h, x)
  | o :: ops, h, x => do
    let (h, x, r) ← o.heap S h x
    let (rs, z) ← runVar S ops h x
    .ok (r :: rs, z)

/-- The same history on a deque that has nothing to do with any other. -/
def runDeque (S : SortLib) : List (DMOp α) → VecDeque α → Go (List (Obs α) × VecDeque α)
  | [], d => .ok ([], d)
  | o :: ops, d => do
    let (d, r) ← o.pure S d
    let (rs, z) ← runDeque S ops d
    .ok (r :: rs, z)

theorem runVar_eq (S : SortLib) (ops : List (DMOp α)) (h : DHeap α) (y : DVar) (hy : y.buf < h.length) :
    (match runVar S ops h y with
      | .ok (rs, h', y') => .ok (rs, y'.load h')
      | .error e => .error e) = runDeque S ops (y.load h) := by
  induction ops generalizing h y with
  | nil => rfl
  | cons o ops ih =>
    simp only [runVar, runDeque]
    have hg := o.heap_eq S h y hy
    cases hp : o.pure S (y.load h) with
    | error e => rw [hp] at hg; simp only at hg; rw [hg]; rfl
    | ok p =>
      obtain ⟨d, r⟩ := p
      rw [hp] at hg
      obtain ⟨h', y', e1, e2, e3, e4, e5, e6⟩ := hg
      have := ih h' y' e3
      rw [e2] at this
      rw [e1]
      simp only [Go.bind_ok]
      rw [← this]
      cases runVar S ops h' y' with
      | error e => rfl
      | ok q => rfl

theorem copy_adds (S : SortLib) (ops : List (DMOp α)) (ho : ∀ o, o ∈ ops → o.Adds) (d0 : VecDeque α)
    (hd : d0.Inv) (x : DVar) (hxl : d0.len = x.len) (hxh : d0.head = x.head)
    (h : DHeap α) (y : DVar) (hx : x.buf < h.length) (hy : y.buf < h.length) (hi : (y.load h).Inv)
    (hc : (y.buf ≠ x.buf ∧ (x.load h).toList = d0.toList) ∨ (y.buf = x.buf ∧ Keeps d0 (y.load h)))
    (rs : List (Obs α)) (h' : DHeap α) (y' : DVar) (e : runVar S ops h y = .ok (rs, h', y')) :
    (x.load h').toList = d0.toList := by
  induction ops generalizing h y rs with
  | nil =>
    cases e
    rcases hc with hc | ⟨hb, hk⟩
    · exact hc.2
    · have := hk.toList hd
      rw [hxl, hxh] at this
      simpa only [DVar.load, hb] using this
  | cons o ops ih =>
    simp only [runVar] at e
    cases hp : o.pure S (y.load h) with
    | error p => simp only [DMOp.heap, DVar.apply, hp] at e; cases e
    | ok p =>
      obtain ⟨d1, r⟩ := p
      obtain ⟨i1, k1⟩ := DMOp.adds_step S (ho o (by simp)) hi hp
      simp only [DMOp.heap, DVar.apply, hp, Go.bind_ok] at e
      by_cases hn : (o.clears || d1.buffer.length != (y.load h).buffer.length) = true
      · rw [if_pos hn] at e
        simp only [DVar.alloc, Go.bind_ok] at e
        cases hr : runVar S ops (h ++ [d1.buffer]) ⟨h.length, d1.len, d1.head⟩ with
        | error p => rw [hr] at e; cases e
        | ok q =>
          obtain ⟨rs1, h1, y1⟩ := q
          rw [hr] at e
          cases e
          have hl : ({ buf := h.length, len := d1.len, head := d1.head } : DVar).load (h ++ [d1.buffer]) = d1 := by
            simp [DVar.load]
          refine ih (fun o' h' => ho o' (by simp [h'])) _ _ (by simp; omega) (by simp) (by rw [hl]; exact i1)
            (.inl ⟨by simp only; omega, ?_⟩) _ hr
          have hxe : x.load (h ++ [d1.buffer]) = x.load h := by
            simp only [DVar.load, List.getD_eq_getElem?_getD, List.getElem?_append_left hx]
          rw [hxe]
          rcases hc with hc | ⟨hb, hk⟩
          · exact hc.2
          · have := hk.toList hd
            rw [hxl, hxh] at this
            simpa only [DVar.load, hb] using this
      · rw [if_neg hn] at e
        simp only [Go.bind_ok] at e
        cases hr : runVar S ops (h.set y.buf d1.buffer) ⟨y.buf, d1.len, d1.head⟩ with
        | error p => rw [hr] at e; cases e
        | ok q =>
          obtain ⟨rs1, h1, y1⟩ := q
          rw [hr] at e
          cases e
          have hl : ({ buf := y.buf, len := d1.len, head := d1.head } : DVar).load (h.set y.buf d1.buffer) = d1 := by
            simp [DVar.load, List.getD_eq_getElem?_getD, List.getElem?_set_self hy]
          simp only [Bool.not_eq_true, Bool.or_eq_false_iff, bne_eq_false_iff_eq] at hn
          have hkd : Keeps (y.load h) d1 := by
            rcases k1 with k1 | k1 | k1
            · rw [hn.1] at k1; cases k1
            · exact absurd hn.2 k1
            · exact k1
          refine ih (fun o' h' => ho o' (by simp [h'])) _ _ (by simpa using hx) (by simpa using hy)
            (by rw [hl]; exact i1) ?_ _ hr
          rcases hc with ⟨hb, ht⟩ | ⟨hb, hk⟩
          · refine .inl ⟨hb, ?_⟩
            have hxe : x.load (h.set y.buf d1.buffer) = x.load h := by
              simp only [DVar.load, List.getD_eq_getElem?_getD, List.getElem?_set_ne hb]
            rw [hxe]; exact ht
          · exact .inr ⟨hb, by rw [hl]; exact hk.trans hkd⟩

/-- C91, the part that holds: after `e := d`, any history of PushFront, PushBack, Append, Reserve, Clear and
reads through `e` leaves the contents of `d` as they were, and `e` itself gives the results and ends with the
contents of a deque of its own.  Full property: any history of operations through `e`.  Missing: Set, Swap,
Fill, Sort, Dedup and Retain change the shared elements (C91_copy_fails), and after a Pop a Push does
(C91_pop_push_fails). -/
theorem C91_copy_adds_partial (S : SortLib) (ops : List (DMOp α)) (ho : ∀ o, o ∈ ops → o.Adds) (h : DHeap α)
    (x : DVar) (hx : x.buf < h.length) (hi : (x.load h).Inv) (rs : List (Obs α)) (h' : DHeap α) (y' : DVar)
    (e : runVar S ops h x = .ok (rs, h', y')) :
    (x.load h').toList = (x.load h).toList ∧ runDeque S ops (x.load h) = .ok (rs, y'.load h') := by
  refine ⟨copy_adds S ops ho (x.load h) hi x rfl rfl h x hx hx hi (.inr ⟨rfl, Keeps.refl _⟩) rs h' y' e, ?_⟩
  have := runVar_eq S ops h x hx
  rw [e] at this
  exact this.symm

/-- `x` is ⟨1, 2⟩ in a ring of four; the copy gets 0 in front, 3 and 4 behind (the last makes it grow), and
Clear: the original still is ⟨1, 2⟩. -/
example : ∃ rs h' y', runVar mergeSortLib [.basic (.pushFront 0), .basic (.pushBack 3), .basic (.pushBack 4),
      .basic (.get 0), .basic .clear] [[2, 9, 9, 1]] ⟨0, 2, 3⟩ = .ok (rs, h', y') ∧
    ((⟨0, 2, 3⟩ : DVar).load h').toList = [1, 2] ∧ h'[0]? = some [2, 3, 0, 1] := ⟨_, _, _, rfl, rfl, rfl⟩

/-- C91 is violated also by PopFront followed by PushFront through the copy, for every nonempty deque: the
first element of the original is overwritten. -/
theorem C91_pop_push_fails (h : DHeap α) (x : DVar) (hx : x.buf < h.length) (hi : (x.load h).Inv)
    (hne : (x.load h).toList ≠ []) (v : α) :
    ∃ rs h' y', runVar mergeSortLib [.basic .popFront, .basic (.pushFront v)] h x = .ok (rs, h', y') ∧
      (x.load h').toList = v :: (x.load h).toList.tail := by
  have hlen := toList_length hi
  have h0 : 0 < (x.load h).len := by rw [← hlen]; exact List.length_pos_iff.2 hne
  generalize hd : x.load h = d at *
  have h3 := hi.len_le
  have h4 := hi.head_lt
  have h2 := hi.small
  have hp0 : d.toPhysicalIndex 0 = d.head := by
    rw [toPhysicalIndex_eq hi (by omega)]; unfold phys; rw [if_neg (by omega)]; rfl
  have hp1 := toPhysicalIndex_eq hi (i := 1) (by omega)
  have u : usizeSub d.len 1 = d.len - 1 := by unfold usizeSub; omega
  have p : DMOp.pure mergeSortLib (.basic .popFront) d =
      .ok (⟨d.buffer, d.len - 1, d.toPhysicalIndex 1⟩, .opt (some d.buffer[d.head])) := by
    have he : d.popFront = .ok (⟨d.buffer, d.len - 1, d.toPhysicalIndex 1⟩, Opt.some d.buffer[d.head]) := by
      unfold popFront isEmpty
      rw [if_neg (by simp; omega)]
      simp only [index_lt h4, Go.bind_ok, u]
    simp only [DMOp.pure, VecDeque.step, he, Go.bind_ok]
    rfl
  have hi1 : (⟨d.buffer, d.len - 1, d.toPhysicalIndex 1⟩ : VecDeque α).Inv :=
    ⟨hi.pos, hi.small, by simp only; omega, by simp only; rw [hp1]; exact phys_lt hi (by omega)⟩
  have hw := wrapSub_one hi1
  simp only at hw
  have hw' : (⟨d.buffer, d.len - 1, d.toPhysicalIndex 1⟩ : VecDeque α).wrapSub (d.toPhysicalIndex 1) 1 =
      d.head := by
    rw [hw, hp1]
    unfold phys
    split <;> split <;> omega
  have u2 : usize (d.len - 1 + 1) = d.len := by unfold usize; omega
  have q : DMOp.pure mergeSortLib (.basic (.pushFront v)) ⟨d.buffer, d.len - 1, d.toPhysicalIndex 1⟩ =
      .ok (⟨d.buffer.set d.head v, d.len, d.head⟩, .unit) := by
    simp only [DMOp.pure, VecDeque.step, VecDeque.pushFront, growIfFull]
    rw [if_neg (by simp; omega)]
    simp only [Go.bind_ok, hw']
    rw [setIndex_lt h4]
    simp only [Go.bind_ok, u2]
  have hb : (x.load h).buffer = d.buffer := by rw [hd]
  have e1 : DMOp.heap mergeSortLib (.basic .popFront) h x =
      .ok (h.set x.buf d.buffer, ⟨x.buf, d.len - 1, d.toPhysicalIndex 1⟩, .opt (some d.buffer[d.head])) := by
    simp only [DMOp.heap, DVar.apply, hd, p, Go.bind_ok]
    rw [if_neg (by simp [DMOp.clears])]
  have l1 : (⟨x.buf, d.len - 1, d.toPhysicalIndex 1⟩ : DVar).load (h.set x.buf d.buffer) =
      ⟨d.buffer, d.len - 1, d.toPhysicalIndex 1⟩ := by
    simp [DVar.load, List.getD_eq_getElem?_getD, List.getElem?_set_self hx]
  have e2 : DMOp.heap mergeSortLib (.basic (.pushFront v)) (h.set x.buf d.buffer)
      ⟨x.buf, d.len - 1, d.toPhysicalIndex 1⟩ =
      .ok ((h.set x.buf d.buffer).set x.buf (d.buffer.set d.head v), ⟨x.buf, d.len, d.head⟩, .unit) := by
    simp only [DMOp.heap, DVar.apply, l1, q, Go.bind_ok]
    rw [if_neg (by simp [DMOp.clears])]
  refine ⟨[.opt (some d.buffer[d.head]), .unit], (h.set x.buf d.buffer).set x.buf (d.buffer.set d.head v),
    ⟨x.buf, d.len, d.head⟩, ?_, ?_⟩
  · simp only [runVar, e1, e2, Go.bind_ok]
  · have l2 : x.load ((h.set x.buf d.buffer).set x.buf (d.buffer.set d.head v)) =
        { d with buffer := d.buffer.set (d.toPhysicalIndex 0) v } := by
      rw [hp0, ← hd]
      simp [DVar.load, List.getD_eq_getElem?_getD, List.getElem?_set_self hx]
    rw [l2, (set_phys hi h0 v).2]
    cases hl : d.toList with
    | nil => exact absurd hl hne
    | cons a t => rfl

example : runVar mergeSortLib [.basic .popFront, .basic (.pushFront 8)] [[2, 9, 9, 1]] ⟨0, 2, 3⟩ =
    .ok ([.opt (some 1), .unit], [[2, 9, 9, 8]], ⟨0, 2, 3⟩) := rfl

end Gost
