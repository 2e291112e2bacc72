import Verif.Model.DequeHeap
import Verif.Props.VecDeque
/-
C62 (independence of a clone), C90 (a deque appended to itself), C91 (copies of a deque variable).
-/
set_option linter.unusedSectionVars false
namespace Gost
open Spec VecDeque

variable {α : Type} [Inhabited α]

/-- The operations on deque variables: those of C56, Fill, Dedup and Sort. -/
inductive DMOp (α : Type) where
  | basic (o : DequeOp α) | fill (v : α) | dedup (eqT : Option (α → α → Bool))
  | sort (cmp : Option (α → α → Ordering)) | sortUnstable (cmp : Option (α → α → Ordering))

def DMOp.pure (S : SortLib) : DMOp α → VecDeque α → Go (VecDeque α × Obs α)
  | .basic o, d => VecDeque.step o d
  | .fill v, d => do let d ← d.fill v; .ok (d, .unit)
  | .dedup e, d => do let d ← d.dedup e; .ok (d, .unit)
  | .sort c, d => do let d ← d.sort S c; .ok (d, .unit)
  | .sortUnstable c, d => do let d ← d.sortUnstable S c; .ok (d, .unit)

def DMOp.clears : DMOp α → Bool
  | .basic .clear => true
  | _ => false

def DMOp.heap (S : SortLib) (o : DMOp α) (h : DHeap α) (x : DVar) : Go (DHeap α × DVar × Obs α) :=
  DVar.apply o.clears (o.pure S) h x

/-- A history of operations on two variables (`false` is the first): the results, and the final heap and
variables, or the first panic. -/
def runVars2 (S : SortLib) : List (Bool × DMOp α) → DHeap α → DVar → DVar →
    Go (List (Obs α) × DHeap α × DVar × DVar)
  | [], h, x, y => .ok ([], h, x, y)
  | (false, o) :: ops, h, x, y => do
    let (h, x, r) ← o.heap S h x
    let (rs, z) ← runVars2 S ops h x y
    .ok (r :: rs, z)
  | (true, o) :: ops, h, x, y => do
    let (h, y, r) ← o.heap S h y
    let (rs, z) ← runVars2 S ops h x y
    .ok (r :: rs, z)

/-- The same history on two deques that have nothing to do with each other. -/
def runDeques2 (S : SortLib) : List (Bool × DMOp α) → VecDeque α → VecDeque α →
    Go (List (Obs α) × VecDeque α × VecDeque α)
  | [], d, e => .ok ([], d, e)
  | (false, o) :: ops, d, e => do
    let (d, r) ← o.pure S d
    let (rs, z) ← runDeques2 S ops d e
    .ok (r :: rs, z)
  | (true, o) :: ops, d, e => do
    let (e, r) ← o.pure S e
    let (rs, z) ← runDeques2 S ops d e
    .ok (r :: rs, z)

theorem DMOp.heap_eq (S : SortLib) (o : DMOp α) (h : DHeap α) (x : DVar) (hx : x.buf < h.length) :
    match o.pure S (x.load h) with
    | .error e => o.heap S h x = .error e
    | .ok (d, r) => ∃ h' x', o.heap S h x = .ok (h', x', r) ∧ x'.load h' = d ∧ x'.buf < h'.length ∧
        h.length ≤ h'.length ∧ (x'.buf = x.buf ∨ x'.buf = h.length) ∧
        ∀ i, i < h.length → i ≠ x.buf → h'[i]? = h[i]? := by
  cases hp : o.pure S (x.load h) with
  | error e => simp [DMOp.heap, DVar.apply, hp]
  | ok p =>
    obtain ⟨d, r⟩ := p
    simp only [DMOp.heap, DVar.apply, hp, Go.bind_ok]
    by_cases hc : (o.clears || d.buffer.length != (x.load h).buffer.length) = true
    · rw [if_pos hc]
      refine ⟨_, _, rfl, ?_, by simp [DVar.alloc], by simp [DVar.alloc], .inr rfl, ?_⟩
      · simp [DVar.load, DVar.alloc]
      · intro i hi _
        simp [DVar.alloc, List.getElem?_append_left hi]
    · rw [if_neg hc]
      refine ⟨_, _, rfl, ?_, by simpa using hx, by simp, .inl rfl, ?_⟩
      · simp [DVar.load, List.getD_eq_getElem?_getD, List.getElem?_set_self hx]
      · intro i hi hne
        rw [List.getElem?_set_ne (Ne.symm hne)]

/-- C62/C91: two variables that do not share their buffer behave, under every interleaving of operations on
either of them, as two separate deques: all results, the panics and the final contents. -/
theorem C91_disjoint_deques_independent (S : SortLib) (ops : List (Bool × DMOp α)) (h : DHeap α) (x y : DVar)
    (hx : x.buf < h.length) (hy : y.buf < h.length) (hd : x.buf ≠ y.buf) :
    (match runVars2 S ops h x y with
      | .ok (rs, h', x', y') => .ok (rs, x'.load h', y'.load h')
      | .error e => .error e) = runDeques2 S ops (x.load h) (y.load h) := by
  induction ops generalizing h x y with
  | nil => rfl
  | cons o ops ih =>
    obtain ⟨b, o⟩ := o
    cases b with
    | false =>
      simp only [runVars2, runDeques2]
      have hg := o.heap_eq S h x hx
      cases hp : o.pure S (x.load h) with
      | error e => rw [hp] at hg; simp only at hg; rw [hg]; rfl
      | ok p =>
        obtain ⟨d, r⟩ := p
        rw [hp] at hg
        obtain ⟨h', x', e1, e2, e3, e4, e5, e6⟩ := hg
        have hl : y.load h' = y.load h := by
          simp only [DVar.load, List.getD_eq_getElem?_getD, e6 y.buf hy (Ne.symm hd)]
        have := ih h' x' y e3 (by omega) (by rcases e5 with e | e <;> omega)
        rw [e2, hl] at this
        rw [e1]
        simp only [Go.bind_ok]
        rw [← this]
        cases runVars2 S ops h' x' y with
        | error e => rfl
        | ok q => rfl
    | true =>
      simp only [runVars2, runDeques2]
      have hg := o.heap_eq S h y hy
      cases hp : o.pure S (y.load h) with
      | error e => rw [hp] at hg; simp only at hg; rw [hg]; rfl
      | ok p =>
        obtain ⟨d, r⟩ := p
        rw [hp] at hg
        obtain ⟨h', y', e1, e2, e3, e4, e5, e6⟩ := hg
        have hl : x.load h' = x.load h := by
          simp only [DVar.load, List.getD_eq_getElem?_getD, e6 x.buf hx hd]
        have := ih h' x y' (by omega) e3 (by rcases e5 with e | e <;> omega)
        rw [e2, hl] at this
        rw [e1]
        simp only [Go.bind_ok]
        rw [← this]
        cases runVars2 S ops h' x y' with
        | error e => rfl
        | ok q => rfl

/-- C62: Clone is independent: the clone has the same elements, and under every interleaving of later
operations on the deque and on its clone both behave as separate deques. -/
theorem C62_clone_independent (S : SortLib) (ops : List (Bool × DMOp α)) (h : DHeap α) (x : DVar)
    (hx : x.buf < h.length) (hi : (x.load h).Inv) :
    ∃ d, (x.load h).clone = .ok d ∧ d.toList = (x.load h).toList ∧
      (match runVars2 S ops (DVar.alloc d h).1 x (DVar.alloc d h).2 with
        | .ok (rs, h', x', y') => .ok (rs, x'.load h', y'.load h')
        | .error e => .error e) = runDeques2 S ops (x.load h) d := by
  obtain ⟨d, e1, _, e2⟩ := (C62_deque_contents (x.load h) (x.load h) hi hi (fun _ _ => true) default).2.2.2
  refine ⟨d, e1, e2, ?_⟩
  have := C91_disjoint_deques_independent S ops (DVar.alloc d h).1 x (DVar.alloc d h).2
    (by simp [DVar.alloc]; omega) (by simp [DVar.alloc]) (by simp [DVar.alloc]; omega)
  rw [this]
  have e3 : x.load (DVar.alloc d h).1 = x.load h := by
    simp [DVar.load, DVar.alloc, List.getD_eq_getElem?_getD, List.getElem?_append_left hx]
  have e4 : (DVar.alloc d h).2.load (DVar.alloc d h).1 = d := by
    simp [DVar.load, DVar.alloc]
  rw [e3, e4]

/-- C91 is violated by every nonempty deque: Set through the copy changes the original. -/
theorem C91_copy_fails (h : DHeap α) (x : DVar) (hx : x.buf < h.length) (hi : (x.load h).Inv)
    (hne : (x.load h).toList ≠ []) (v : α) :
    ∃ h', DMOp.heap mergeSortLib (.basic (.set 0 v)) h x = .ok (h', x, .opt none) ∧
      (x.load h').toList = v :: (x.load h).toList.tail := by
  have hlen := toList_length hi
  have h0 : 0 < (x.load h).len := by rw [← hlen]; exact List.length_pos_iff.2 hne
  obtain ⟨p1, p2, p3, p4, p5⟩ := put_eq hi h0 v
  have hp : DMOp.pure mergeSortLib (.basic (.set 0 v)) (x.load h) = .ok ((x.load h).put 0 v, .opt none) := by
    simp only [DMOp.pure, VecDeque.step, VecDeque.set]
    rw [if_neg (by omega)]
    unfold setUnchecked at p1
    cases hs : setIndex (x.load h).buffer ((x.load h).toPhysicalIndex 0) v with
    | error e => rw [hs] at p1; cases p1
    | ok b => rw [hs] at p1; cases p1; rfl
  refine ⟨h.set x.buf ((x.load h).put 0 v).buffer, ?_, ?_⟩
  · simp only [DMOp.heap, DVar.apply, hp, Go.bind_ok]
    rw [if_neg (by simp [DMOp.clears, p5])]
    rfl
  · have : x.load (h.set x.buf ((x.load h).put 0 v).buffer) = (x.load h).put 0 v := by
      simp only [DVar.load, List.getD_eq_getElem?_getD, List.getElem?_set_self hx]
      rfl
    rw [this, p3]
    cases hl : (x.load h).toList with
    | nil => exact absurd hl hne
    | cons a t => rfl

example : DMOp.heap mergeSortLib (.basic (.set 0 9)) [[3, 0, 1, 2]] ⟨0, 3, 2⟩ =
    .ok ([[3, 0, 9, 2]], ⟨0, 3, 2⟩, .opt none) := rfl

/-! ### C90 -/

/-- C90 is violated by every nonempty deque: appending it to itself does not terminate; after any number of
rounds the loop is still running (as long as the grown deque can be allocated). -/
theorem C90_append_self_fails (d : VecDeque α) (h : d.Inv) (hne : d.toList ≠ []) (fuel : Nat)
    (hs : d.space + d.len + 2 * fuel < 2 ^ 63) : d.appendSelf fuel = .ok none := by
  have hl := toList_length h
  have h0 := List.length_pos_iff.2 hne
  unfold VecDeque.space at hs
  obtain ⟨d1, a1, b1, c1, e1⟩ := reserve_eq h d.len (by omega)
  have hl1 := toList_length b1
  rw [c1] at hl1
  have key : ∀ fuel i (d : VecDeque α), d.Inv → i < d.len →
      max d.buffer.length (2 * d.len) + 2 * fuel < 2 ^ 63 → VecDeque.appendSelfLoop fuel i d = .ok none := by
    intro fuel
    induction fuel with
    | zero => intros; rfl
    | succ fuel ih =>
      intro i d hd hi hs
      have hl := toList_length hd
      have h3 := hd.len_le
      simp only [VecDeque.appendSelfLoop]
      rw [if_pos hi, getUnchecked_eq hd (by omega)]
      simp only [Go.bind_ok]
      obtain ⟨d', a, b, c, e⟩ := pushBack_eq hd (by omega) d.toList[i]
      rw [a]
      have hl' := toList_length b
      rw [c] at hl'
      simp at hl'
      have u : usize (i + 1) = i + 1 := by unfold usize; omega
      simp only [Go.bind_ok, u]
      refine ih (i + 1) d' b (by omega) ?_
      split at e <;> omega
  unfold VecDeque.appendSelf
  rw [a1]
  simp only [Go.bind_ok]
  rw [key fuel 0 d1 b1 (by omega) (by omega)]
  rfl

/-- C90, full property: Append terminates for every argument.  Proved: it does for an argument that is
another variable (`C56_deque_history`), and for an empty deque also with itself.  Missing:
`C90_append_self_fails`. -/
theorem C90_append_self_partial (d : VecDeque α) (h : d.Inv) (he : d.toList = []) (fuel : Nat) (hf : 0 < fuel) :
    ∃ d', d.appendSelf fuel = .ok (some d') ∧ d'.toList = [] := by
  have hl := toList_length h
  rw [he] at hl
  obtain ⟨d1, a1, b1, c1, e1⟩ := reserve_eq h d.len (by have := h.small; simp at hl; omega)
  have hl1 := toList_length b1
  rw [c1, he] at hl1
  obtain ⟨n, rfl⟩ : ∃ n, fuel = n + 1 := ⟨fuel - 1, by omega⟩
  refine ⟨d1.clear, ?_, rfl⟩
  unfold VecDeque.appendSelf
  rw [a1]
  simp only [Go.bind_ok, VecDeque.appendSelfLoop]
  rw [if_neg (by simp at hl1; omega)]
  rfl

example : exDeque.appendSelf 20 = .ok none := by decide

end Gost
