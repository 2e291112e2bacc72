import Verif.Lemmas.VecDeque
import Verif.Props.VecSearch
import Verif.Props.Misc
/-
Properties C56 - C62: the ring-buffer deque.
-/
set_option linter.unusedSectionVars false
namespace Gost
open Spec VecDeque

variable {σ α : Type} [Inhabited α]

/-! ### C56 -/

/-- The operations of C56. -/
inductive DequeOp (α : Type) where
  | pushFront (v : α) | pushBack (v : α) | popFront | popBack | front | back | get (i : Nat)
  | getUnchecked (i : Nat) | set (i : Nat) (v : α) | setUnchecked (i : Nat) (v : α)
  | swap (i j : Nat) | append (other : VecDeque α) | reserve (n : Nat) | retain (p : α → Bool)
  | clear | len | isEmpty

/-- Specification: the effect on a mathematical sequence; `none` outside the domain of the unchecked
operations. -/
def Spec.dequeStep : DequeOp α → List α → Option (List α × Obs α)
  | .pushFront v, l => some (v :: l, .unit)
  | .pushBack v, l => some (l ++ [v], .unit)
  | .popFront, l => some (l.tail, .opt l.head?)
  | .popBack, l => some (l.dropLast, .opt l.getLast?)
  | .front, l => some (l, .opt l.head?)
  | .back, l => some (l, .opt l.getLast?)
  | .get i, l => some (l, .opt l[i]?)
  | .getUnchecked i, l => l[i]?.map fun v => (l, .val v)
  | .set i v, l => some (l.set i v, .opt (if i < l.length then none else some v))
  | .setUnchecked i v, l => if i < l.length then some (l.set i v, .unit) else none
  | .swap i j, l => (swapAt l i j).map (·, .unit)
  | .append o, l => some (l ++ o.toList, .other [])
  | .reserve _, l => some (l, .unit)
  | .retain p, l => some (l.filter p, .unit)
  | .clear, _ => some ([], .unit)
  | .len, l => some (l, .nat l.length)
  | .isEmpty, l => some (l, .bool l.isEmpty)

/-- The library's implementation of the operations. -/
def VecDeque.step : DequeOp α → VecDeque α → Go (VecDeque α × Obs α)
  | .pushFront v, d => do let d ← d.pushFront v; .ok (d, .unit)
  | .pushBack v, d => do let d ← d.pushBack v; .ok (d, .unit)
  | .popFront, d => do let (d, r) ← d.popFront; .ok (d, .opt r.value)
  | .popBack, d => do let (d, r) ← d.popBack; .ok (d, .opt r.value)
  | .front, d => do let r ← d.front; .ok (d, .opt r.value)
  | .back, d => do let r ← d.back; .ok (d, .opt r.value)
  | .get i, d => do let r ← d.get i; .ok (d, .opt r.value)
  | .getUnchecked i, d => do let v ← d.getUnchecked i; .ok (d, .val v)
  | .set i v, d => do let (d, r) ← d.set i v; .ok (d, .opt r.value)
  | .setUnchecked i v, d => do let d ← d.setUnchecked i v; .ok (d, .unit)
  | .swap i j, d => do let d ← d.swap i j; .ok (d, .unit)
  | .append o, d => do let (d, o) ← d.append o; .ok (d, .other o.toList)
  | .reserve n, d => do let d ← d.reserve n; .ok (d, .unit)
  | .retain p, d => do let d ← (d.retain (fun a => (pure (p a) : Eff Unit Bool)) ()).1; .ok (d, .unit)
  | .clear, d => .ok (d.clear, .unit)
  | .len, d => .ok (d, .nat d.len)
  | .isEmpty, d => .ok (d, .bool d.isEmpty)

/-- How much room an operation can ask for. -/
def DequeOp.room : DequeOp α → Nat
  | .pushFront _ | .pushBack _ => 2
  | .append o => 2 * o.len
  | .reserve n => n
  | _ => 0

/-- The deques given to Append are deques. -/
def DequeOp.Ok : DequeOp α → Prop
  | .append o => o.Inv
  | _ => True

/-- A bound on the space in use. -/
def VecDeque.space (d : VecDeque α) : Nat := max 7 (max d.buffer.length (2 * d.len))

theorem VecDeque.step_refines (o : DequeOp α) (d : VecDeque α) (h : d.Inv) (ho : o.Ok)
    (hroom : d.space + o.room < 2 ^ 63) (l' : List α) (r : Obs α)
    (hs : Spec.dequeStep o d.toList = some (l', r)) :
    ∃ d', VecDeque.step o d = .ok (d', r) ∧ d'.Inv ∧ d'.toList = l' ∧ d'.space ≤ d.space + o.room := by
  have hl := toList_length h
  unfold VecDeque.space at hroom ⊢
  cases o with
  | pushFront v =>
    cases hs
    obtain ⟨d', a, b, c, e⟩ := pushFront_eq h (by omega) v
    refine ⟨d', by simp [VecDeque.step, a], b, c, ?_⟩
    have hl' := toList_length b
    rw [c] at hl'; simp at hl'
    simp only [DequeOp.room]
    split at e <;> omega
  | pushBack v =>
    cases hs
    obtain ⟨d', a, b, c, e⟩ := pushBack_eq h (by omega) v
    refine ⟨d', by simp [VecDeque.step, a], b, c, ?_⟩
    have hl' := toList_length b
    rw [c] at hl'; simp at hl'
    simp only [DequeOp.room]
    split at e <;> omega
  | popFront =>
    cases hs
    obtain ⟨d', a, b, c, e⟩ := popFront_eq h
    refine ⟨d', by simp [VecDeque.step, a], b, c, ?_⟩
    have hl' := toList_length b
    rw [c] at hl'; simp at hl'
    rw [e]; omega
  | popBack =>
    cases hs
    obtain ⟨d', a, b, c, e⟩ := popBack_eq h
    refine ⟨d', by simp [VecDeque.step, a], b, c, ?_⟩
    have hl' := toList_length b
    rw [c] at hl'; simp at hl'
    rw [e]; omega
  | front =>
    cases hs
    refine ⟨d, ?_, h, rfl, by omega⟩
    simp [VecDeque.step, VecDeque.front, get_eq h, List.head?_eq_getElem?]
  | back =>
    cases hs
    refine ⟨d, ?_, h, rfl, by omega⟩
    simp only [VecDeque.step, VecDeque.back, get_eq h, Go.bind_ok]
    have := h.len_le
    have e : d.toList[usizeSub d.len 1]? = d.toList.getLast? := by
      rw [List.getLast?_eq_getElem?, hl]
      unfold usizeSub
      by_cases h0 : d.len = 0
      · rw [List.getElem?_eq_none (by omega), List.getElem?_eq_none (by omega)]
      · rw [show (d.len + 2 ^ 64 - 1) % 2 ^ 64 = d.len - 1 by omega]
    rw [e]
  | get i =>
    cases hs
    exact ⟨d, by simp [VecDeque.step, get_eq h], h, rfl, by omega⟩
  | getUnchecked i =>
    simp only [Spec.dequeStep] at hs
    by_cases hi : i < d.toList.length
    · rw [List.getElem?_eq_getElem hi] at hs
      cases hs
      exact ⟨d, by simp [VecDeque.step, getUnchecked_eq h hi], h, rfl, by omega⟩
    · rw [List.getElem?_eq_none (by omega)] at hs
      cases hs
  | set i v =>
    cases hs
    by_cases hi : i < d.len
    · obtain ⟨p1, p2, p3, p4, p5⟩ := put_eq h hi v
      refine ⟨d.put i v, ?_, p2, p3, by rw [p4, p5]; omega⟩
      simp only [VecDeque.step, VecDeque.set]
      rw [if_neg (by omega), if_pos (by omega)]
      unfold setUnchecked at p1
      cases hx : setIndex d.buffer (d.toPhysicalIndex i) v with
      | error e => rw [hx] at p1; cases p1
      | ok b => rw [hx] at p1; cases p1; rfl
    · refine ⟨d, ?_, h, (List.set_eq_of_length_le (by omega)).symm, by omega⟩
      simp only [VecDeque.step, VecDeque.set]
      rw [if_pos (by omega), if_neg (by omega)]
      rfl
  | setUnchecked i v =>
    simp only [Spec.dequeStep] at hs
    by_cases hi : i < d.len
    · rw [if_pos (by omega)] at hs
      cases hs
      obtain ⟨p1, p2, p3, p4, p5⟩ := put_eq h hi v
      exact ⟨d.put i v, by simp [VecDeque.step, p1], p2, p3, by rw [p4, p5]; omega⟩
    · rw [if_neg (by omega)] at hs
      cases hs
  | swap i j =>
    simp only [Spec.dequeStep] at hs
    by_cases hi : i < d.len
    · by_cases hj : j < d.len
      · obtain ⟨d', a, b, c, e, f⟩ := swap_eq h hi hj
        rw [c] at hs
        cases hs
        exact ⟨d', by simp [VecDeque.step, a], b, rfl, by rw [e, f]; omega⟩
      · have : swapAt d.toList i j = none := by
          unfold swapAt
          rw [List.getElem?_eq_none (i := j) (by omega)]
          split <;> simp_all
        rw [this] at hs; cases hs
    · have : swapAt d.toList i j = none := by
        unfold swapAt
        rw [List.getElem?_eq_none (i := i) (by omega)]
      rw [this] at hs; cases hs
  | append o =>
    cases hs
    simp only [DequeOp.room] at hroom ⊢
    have hlo := toList_length (d := o) ho
    have := h.len_le
    obtain ⟨d1, a1, b1, c1, e1⟩ := reserve_eq h o.len (by omega)
    have hl1 := toList_length b1
    rw [c1] at hl1
    obtain ⟨d2, a2, b2, c2, e2⟩ := appendLoop_eq ho o.len 0 (by omega) b1 (by omega)
    refine ⟨d2, ?_, b2, by rw [c2, c1]; simp, ?_⟩
    · simp only [VecDeque.step, VecDeque.append, a1, a2, Go.bind_ok]
      rfl
    · have hl2 := toList_length b2
      rw [c2, c1] at hl2
      simp at hl2
      omega
  | reserve n =>
    cases hs
    simp only [DequeOp.room] at hroom ⊢
    obtain ⟨d1, a1, b1, c1, e1⟩ := reserve_eq h n (by omega)
    refine ⟨d1, by simp [VecDeque.step, a1], b1, c1, ?_⟩
    have hl1 := toList_length b1
    rw [c1] at hl1
    omega
  | retain p =>
    cases hs
    obtain ⟨D, e, hD⟩ := retain_eq d h (fun a => (pure (p a) : Eff Unit Bool))
    rw [mapE_pure, Eff.pure_bind] at e
    obtain ⟨b, c, f⟩ := hD (d.toList.map p) (by simp [hl])
    rw [select_map] at c
    refine ⟨D (d.toList.map p), by simp [VecDeque.step, e], b, c, ?_⟩
    have hl' := toList_length b
    rw [c] at hl'
    have := List.length_filter_le p d.toList
    rw [f]
    omega
  | clear =>
    cases hs
    refine ⟨d.clear, rfl, ⟨by simp [VecDeque.clear], by simp [VecDeque.clear], by simp [VecDeque.clear],
      by simp [VecDeque.clear]⟩, rfl, ?_⟩
    simp [VecDeque.clear]; omega
  | len =>
    cases hs
    exact ⟨d, by simp [VecDeque.step, hl], h, rfl, by omega⟩
  | isEmpty =>
    cases hs
    refine ⟨d, ?_, h, rfl, by omega⟩
    simp only [VecDeque.step, VecDeque.isEmpty]
    congr 3
    cases hd : d.toList with
    | nil => rw [hd] at hl; simp at hl; simp [← hl]
    | cons a t => rw [hd] at hl; simp at hl; simp [← hl]

/-- C56: for every deque that satisfies the representation invariant (the constructors give such deques,
and every operation keeps it) and every history of operations that stays in the domain of the unchecked
operations and in the address space, the code does not panic, all results are those of a mathematical
sequence, and so are the final contents.  (The space condition says that 2 * Len, the capacity and the
room asked for stay below 2^63, the size of the address space.) -/
theorem C56_deque_history (ops : List (DequeOp α)) (d : VecDeque α) (h : d.Inv) (hok : ∀ o ∈ ops, o.Ok)
    (hroom : d.space + (ops.map DequeOp.room).sum < 2 ^ 63) (rs : List (Obs α)) (l' : List α)
    (hs : Spec.runOps Spec.dequeStep ops d.toList = (rs, some l')) :
    ∃ d', Spec.runOps (fun o d => Go.toOption (VecDeque.step o d)) ops d = (rs, some d') ∧ d'.Inv ∧
      d'.toList = l' := by
  induction ops generalizing d rs with
  | nil =>
    simp only [Spec.runOps, Prod.mk.injEq, Option.some.injEq] at hs
    obtain ⟨rfl, hs⟩ := hs
    exact ⟨d, rfl, h, hs⟩
  | cons o ops ih =>
    simp only [List.map_cons, List.sum_cons] at hroom
    simp only [Spec.runOps] at hs ⊢
    cases hstep : Spec.dequeStep o d.toList with
    | none => rw [hstep] at hs; simp at hs
    | some p =>
      obtain ⟨l1, r⟩ := p
      rw [hstep] at hs
      simp only [Prod.mk.injEq] at hs
      obtain ⟨hrs, hl⟩ := hs
      obtain ⟨d1, a, b, c, e⟩ := VecDeque.step_refines o d h (hok o (by simp)) (by omega) l1 r hstep
      obtain ⟨d2, a2, b2, c2⟩ := ih d1 b (fun o' ho' => hok o' (by simp [ho'])) (by omega)
        (Spec.runOps Spec.dequeStep ops l1).1 (by rw [c]; exact Prod.ext rfl hl)
      refine ⟨d2, ?_, b2, c2⟩
      rw [a]
      simp only [Go.toOption_ok, a2, ← hrs]

/-- C56: the constructors: an empty deque with the given capacity (at least one), or `n` zero values. -/
theorem C56_deque_constructors (n : Nat) (hn : n < 2 ^ 63) :
    (∃ d : VecDeque α, VecDeque.new = .ok d ∧ d.Inv ∧ d.toList = []) ∧
    (∃ d : VecDeque α, VecDeque.withCapacity n = .ok d ∧ d.Inv ∧ d.toList = [] ∧ n ≤ d.capacity) ∧
    (∃ d : VecDeque α, VecDeque.withLen n = .ok d ∧ d.Inv ∧ d.toList = List.replicate n default) := by
  refine ⟨?_, ?_, ?_⟩
  · obtain ⟨d, a, b, c, _⟩ := withCapacity_eq (α := α) 7 (by omega)
    exact ⟨d, a, b, c⟩
  · obtain ⟨d, a, b, c, _, e⟩ := withCapacity_eq (α := α) n hn
    exact ⟨d, a, b, c, by show n ≤ d.buffer.length; omega⟩
  · unfold withLen withCapacity makeLen
    by_cases h1 : n < 1
    · rw [if_pos h1]
      simp only
      rw [if_pos (by omega)]
      have h0 : n = 0 := by omega
      subst h0
      exact ⟨_, rfl, ⟨by simp, by simp, by simp, by simp⟩, by simp [toList]⟩
    · rw [if_neg h1]
      simp only
      rw [if_pos hn]
      exact ⟨_, rfl, ⟨by simp; omega, by simp; omega, by simp, by simp; omega⟩, by simp [toList]⟩

/-- C56: without the space condition the only new behaviour is that a push onto a full deque of 2^62 or
more elements fails to allocate. -/
theorem C56_push_alloc (d : VecDeque α) (h : d.Inv) (v : α) :
    (∃ d', d.pushBack v = .ok d' ∧ d'.Inv ∧ d'.toList = d.toList ++ [v]) ∨
    (d.pushBack v = .error .makeLen ∧ d.pushFront v = .error .makeLen ∧ 2 ^ 62 ≤ d.toList.length) := by
  have hl := toList_length h
  have h2 := h.small
  have h3 := h.len_le
  by_cases hs : d.len < d.buffer.length ∨ 2 * d.len < 2 ^ 63
  · obtain ⟨d', a, b, c, _⟩ := pushBack_eq h hs v
    exact .inl ⟨d', a, b, c⟩
  · have hg : d.growIfFull = .error .makeLen := by
      unfold growIfFull
      rw [if_pos (by simp; omega)]
      exact grow_alloc (by omega) h2 (by omega)
    refine .inr ⟨?_, ?_, by omega⟩
    · unfold pushBack; rw [hg]; rfl
    · unfold pushFront; rw [hg]; rfl

/-- A deque with three elements wrapped around the end of its buffer. -/
def exDeque : VecDeque Nat := ⟨[3, 0, 1, 2], 3, 2⟩
example : exDeque.Inv ∧ exDeque.toList = [1, 2, 3] := ⟨⟨by decide, by decide, by decide, by decide⟩, by decide⟩
example : Spec.runOps (fun o d => Go.toOption (VecDeque.step o d))
      [.pushFront 9, .pushBack 8, .swap 0 4, .retain (· != 2), .popFront, .append exDeque] exDeque =
    ([.unit, .unit, .unit, .unit, .opt (some 8), .other []],
      some ⟨[3, 8, 1, 3, 9, 1, 2, 3, 0, 0, 0], 6, 2⟩) := by
  rfl

/-! ### C57 -/

/-- C57, full property: after Reserve(n) the contents are unchanged and Capacity >= Len + n.  Proved: this
holds exactly when Capacity + n is below 2^63.  Missing: see `C57_reserve_fails` (from 2^63 to 2^64
Reserve panics, which is not against the property, but from 2^64 on it silently does nothing). -/
theorem C57_reserve_partial (d : VecDeque α) (h : d.Inv) (n : Nat) (hn : n < 2 ^ 64) :
    (∃ d', d.reserve n = .ok d' ∧ d'.Inv ∧ d'.toList = d.toList ∧ d.toList.length + n ≤ d'.capacity) ↔
      d.capacity + n < 2 ^ 63 := by
  have hl := toList_length h
  have h2 := h.small
  have h3 := h.len_le
  constructor
  · rintro ⟨d', a, b, c, e⟩
    have h2' := b.small
    unfold reserve at a
    simp only [capacity] at a e ⊢
    by_cases hs : d.buffer.length + n < 2 ^ 64
    · have u : usize (d.buffer.length + n) = d.buffer.length + n := by unfold usize; omega
      rw [u] at a
      by_cases h0 : n = 0
      · omega
      · rw [if_pos (by omega)] at a
        unfold remake makeLen at a
        by_cases hx : d.buffer.length + n < 2 ^ 63
        · exact hx
        · rw [if_neg hx] at a
          cases a
    · rw [if_neg (by unfold usize; omega)] at a
      cases a
      omega
  · intro hs
    obtain ⟨d', a, b, c, e⟩ := reserve_eq h n hs
    exact ⟨d', a, b, c, by simp only [capacity]; omega⟩

/-- C57 is violated whenever Capacity + n overflows 64 bits: Reserve returns without any effect, although
Capacity < Len + n. -/
theorem C57_reserve_fails (d : VecDeque α) (h : d.Inv) (n : Nat) (hn : n < 2 ^ 64)
    (hs : 2 ^ 64 ≤ d.capacity + n) : d.reserve n = .ok d ∧ d.capacity < d.toList.length + n := by
  have h2 := h.small
  have hl := toList_length h
  unfold reserve
  simp only [capacity] at hs ⊢
  rw [if_neg (by unfold usize; omega)]
  exact ⟨rfl, by omega⟩

example : exDeque.reserve 2 = .ok ⟨[3, 0, 1, 2, 3, 0], 3, 2⟩ ∨
    exDeque.reserve 2 = .ok ⟨[3, 0, 1, 2, 1, 2], 3, 4⟩ := by decide
example : exDeque.reserve (2 ^ 64 - 1) = .ok exDeque := by decide

/-! ### C58 -/

theorem VecDeque.dedupLoop_eq (e : α → α → Bool) (he : Spec.PEquiv e) (n i k : Nat) (d : VecDeque α)
    (h : d.Inv) (a : α) (hi : i + n = d.len) (hk0 : 0 < k) (hk : k ≤ i) (ha : d.toList[k - 1]? = some a) :
    ∃ k' d', VecDeque.dedupLoop (some e) n i k d = .ok (k', d') ∧ d'.Inv ∧ d'.len = d.len ∧ k' ≤ d.len ∧
      d'.toList.take k' = d.toList.take k ++ runHeads.go e a (d.toList.drop i) := by
  have hl := toList_length h
  have h2 := h.small
  have h3 := h.len_le
  induction n generalizing i k d a with
  | zero =>
    refine ⟨k, d, rfl, h, rfl, by omega, ?_⟩
    have : d.toList.drop i = [] := List.drop_of_length_le (by omega)
    simp [this, runHeads.go]
  | succ n ih =>
    have hil : i < d.toList.length := by omega
    have hkl : k - 1 < d.toList.length := by omega
    have u : usizeSub k 1 = k - 1 := by unfold usizeSub; omega
    have hae : d.toList[k - 1] = a := by
      rw [List.getElem?_eq_getElem hkl] at ha; exact Option.some.inj ha
    have hdrop : d.toList.drop i = d.toList[i] :: d.toList.drop (i + 1) := List.drop_eq_getElem_cons hil
    simp only [VecDeque.dedupLoop, getUnchecked_eq h hil, Go.bind_ok, u, getUnchecked_eq h hkl, hae]
    by_cases hd : e a d.toList[i] = true
    · have hd' := he.symm _ _ hd
      simp only [hd', Bool.not_true, Bool.false_eq_true, if_false]
      obtain ⟨k', d', h1, h2, h3, h4, h5⟩ := ih (i + 1) k d h a (by omega) hk0 (by omega) ha hl h2 h3
      refine ⟨k', d', h1, h2, h3, h4, ?_⟩
      rw [h5, hdrop, runHeads.go, if_pos hd, runHeads.go_congr e he _ _ hd]
    · have hd' : e d.toList[i] a = false := by
        cases hx : e d.toList[i] a with
        | false => rfl
        | true => exact absurd (he.symm _ _ hx) hd
      simp only [hd', Bool.not_false, if_true]
      obtain ⟨p1, p2, p3, p4, p5⟩ := put_eq h (k := k) (by omega) d.toList[i]
      simp only [p1, Go.bind_ok]
      obtain ⟨k', d', h1, h2, h3, h4, h5⟩ := ih (i + 1) (k + 1) (d.put k d.toList[i]) p2 d.toList[i]
        (by omega) (by omega) (by omega)
        (by rw [p3, Nat.add_sub_cancel, List.getElem?_set_self (by omega)])
        (toList_length p2) p2.small p2.len_le
      refine ⟨k', d', h1, h2, by omega, by omega, ?_⟩
      rw [h5, hdrop, runHeads.go, if_neg hd, p3, List.drop_set_of_lt (by omega), List.take_add_one,
        List.getElem?_set_self (by omega), List.take_set_of_le (by omega)]
      simp

/-- C58: Dedup leaves the first element of every run of equal elements, whatever the physical layout. -/
theorem C58_deque_dedup (e : α → α → Bool) (he : Spec.PEquiv e) (d : VecDeque α) (h : d.Inv) :
    ∃ d', d.dedup (some e) = .ok d' ∧ d'.Inv ∧ d'.toList = runHeads e d.toList := by
  have hl := toList_length h
  unfold VecDeque.dedup VecDeque.isEmpty
  by_cases h0 : d.len = 0
  · have : d.toList = [] := List.eq_nil_of_length_eq_zero (by omega)
    rw [if_pos (by simp [h0])]
    exact ⟨d, rfl, h, by rw [this]; rfl⟩
  · rw [if_neg (by simp [h0])]
    have h1 : 0 < d.toList.length := by omega
    obtain ⟨k', d', a, b, c, f, g⟩ := VecDeque.dedupLoop_eq e he (d.len - 1) 1 1 d h d.toList[0] (by omega)
      (by omega) (by omega) (by simp [h1])
    simp only [a, Go.bind_ok]
    obtain ⟨c1, c2⟩ := cut_eq b (m := k') (by omega)
    refine ⟨_, rfl, c1, ?_⟩
    rw [c2, g]
    generalize d.toList = l at h1
    cases l with
    | nil => simp at h1
    | cons x xs => simp [runHeads]

/-- C58: without an Eq method Dedup panics as soon as there are two elements. -/
theorem C58_deque_dedup_noEq (d : VecDeque α) (h : d.Inv) (h2 : 2 ≤ d.len) :
    d.dedup none = .error .nilDeref := by
  have hl := toList_length h
  unfold VecDeque.dedup VecDeque.isEmpty
  rw [if_neg (by simp; omega)]
  obtain ⟨n, hn⟩ : ∃ n, d.len - 1 = n + 1 := ⟨d.len - 2, by omega⟩
  rw [hn]
  simp only [VecDeque.dedupLoop, getUnchecked_eq h (i := 1) (by omega), Go.bind_ok, Go.bind_error]

example : (⟨[2, 3, 3, 1, 1, 2], 6, 3⟩ : VecDeque Nat).dedup (some (· == ·)) =
    .ok ⟨[2, 3, 3, 1, 2, 3], 3, 3⟩ ∧ (⟨[2, 3, 3, 1, 2, 3], 3, 3⟩ : VecDeque Nat).toList = [1, 2, 3] := by decide

/-! ### C59, C60: operations on the raw buffer -/

/-- C59, full property: AsSlice contains the elements in order.  Proved: it does when the head is at the
start of the buffer (and it never panics).  Missing: other layouts, see `C59_asSlice_fails`. -/
theorem C59_asSlice_partial (d : VecDeque α) (h : d.Inv) :
    (∃ l, d.asSlice = .ok l ∧ l.length = d.toList.length) ∧
    (d.head = 0 → d.asSlice = .ok d.toList) := by
  have h3 := h.len_le
  have hl := toList_length h
  unfold asSlice
  rw [if_pos h3]
  refine ⟨⟨_, rfl, by simp; omega⟩, ?_⟩
  intro h0
  simp [toList, h0]

/-- Push a list of values at the back. -/
def pushBacks (d : VecDeque α) : List α → Go (VecDeque α)
  | [] => .ok d
  | v :: vs => do let d ← d.pushBack v; pushBacks d vs

theorem pushBacks_new (l : List α) (hl : l.length < 7) (m : List α) (hm : m.length + l.length < 7) :
    pushBacks ⟨m ++ List.replicate (7 - m.length) default, m.length, 0⟩ l =
      .ok ⟨(m ++ l) ++ List.replicate (7 - (m ++ l).length) default, (m ++ l).length, 0⟩ := by
  induction l generalizing m with
  | nil => simp [pushBacks]
  | cons v l ih =>
    simp only [List.length_cons] at hl hm
    have e : (⟨m ++ List.replicate (7 - m.length) default, m.length, 0⟩ : VecDeque α).pushBack v =
        .ok ⟨(m ++ [v]) ++ List.replicate (7 - (m ++ [v]).length) default, (m ++ [v]).length, 0⟩ := by
      unfold pushBack growIfFull
      have h7 : ¬ m.length = m.length + (7 - m.length) := by omega
      rw [if_neg (by simp; omega)]
      simp only [Go.bind_ok]
      have hp : (⟨m ++ List.replicate (7 - m.length) default, m.length, 0⟩ : VecDeque α).toPhysicalIndex
          m.length = m.length := by
        unfold toPhysicalIndex wrapAdd wrapIndex usize
        simp only [Nat.zero_add]
        rw [Nat.mod_eq_of_lt (by omega), if_neg (by simp; omega)]
      rw [hp, setIndex_lt (by simp; omega)]
      have u : usize (m.length + 1) = m.length + 1 := by unfold usize; omega
      simp only [Go.bind_ok, u]
      obtain ⟨k, hk⟩ : ∃ k, 7 - m.length = k + 1 := ⟨6 - m.length, by omega⟩
      have hk' : 7 - (m ++ [v]).length = k := by simp; omega
      have hs : (m ++ List.replicate (7 - m.length) default).set m.length v =
          (m ++ [v]) ++ List.replicate (7 - (m ++ [v]).length) default := by
        rw [hk, hk', List.set_append_right _ _ (Nat.le_refl _)]
        simp [List.replicate_succ]
      have hl' : m.length + 1 = (m ++ [v]).length := by simp
      simp only [hs, hl']
    simp only [pushBacks, e, Go.bind_ok]
    rw [ih (by omega) (m ++ [v]) (by simp; omega)]
    simp

/-- A new deque, `l` pushed at the back and then `x` at the front: the exact layout. -/
theorem new_pushBacks_pushFront (l : List α) (hl : l.length < 6) (x : α) :
    (do let d ← VecDeque.new; let d ← pushBacks d l; d.pushFront x) =
      .ok (⟨l ++ List.replicate (6 - l.length) default ++ [x], l.length + 1, 6⟩ : VecDeque α) ∧
    toList (⟨l ++ List.replicate (6 - l.length) default ++ [x], l.length + 1, 6⟩ : VecDeque α) = x :: l := by
  constructor
  · have h0 : (VecDeque.new : Go (VecDeque α)) = .ok ⟨[] ++ List.replicate (7 - ([] : List α).length) default,
        ([] : List α).length, 0⟩ := rfl
    rw [h0]
    simp only [Go.bind_ok]
    rw [pushBacks_new l (by omega) [] (by simp; omega)]
    simp only [Go.bind_ok, List.nil_append]
    unfold pushFront growIfFull
    rw [if_neg (by simp; omega)]
    simp only [Go.bind_ok]
    have hw : (⟨l ++ List.replicate (7 - l.length) default, l.length, 0⟩ : VecDeque α).wrapSub 0 1 = 6 := by
      unfold wrapSub wrapIndex usize usizeSub
      have : (l ++ List.replicate (7 - l.length) (default : α)).length = 7 := by simp; omega
      rw [this]
      rfl
    rw [hw, setIndex_lt (by simp; omega)]
    have u : usize (l.length + 1) = l.length + 1 := by unfold usize; omega
    simp only [Go.bind_ok, u]
    have hs : (l ++ List.replicate (7 - l.length) default).set 6 x =
        l ++ List.replicate (6 - l.length) default ++ [x] := by
      rw [show 7 - l.length = (6 - l.length) + 1 by omega, List.replicate_succ', ← List.append_assoc,
        List.set_append_right _ _ (by simp; omega)]
      have : 6 - (l ++ List.replicate (6 - l.length) (default : α)).length = 0 := by simp; omega
      rw [this]; rfl
    simp only [hs]
  · unfold toList
    have e : (l ++ List.replicate (6 - l.length) (default : α)).length = 6 := by simp; omega
    simp only
    rw [List.drop_append_of_le_length (by omega), List.drop_of_length_le (by omega),
      List.take_append_of_le_length (l₂ := [x]) (by omega),
      List.take_of_length_le (l := l ++ List.replicate (6 - l.length) (default : α)) (by omega)]
    simp

/-- C59 is violated by every deque that was filled at the back and then once at the front: AsSlice gives
the back part and a zero value; the front element is not in it (unless it is equal to one of
these). -/
theorem C59_asSlice_fails (l : List α) (hl : l.length < 6) (x : α) :
    ∃ d : VecDeque α, (do let d ← VecDeque.new; let d ← pushBacks d l; d.pushFront x) = .ok d ∧
      d.toList = x :: l ∧ d.asSlice = .ok (l ++ [default]) := by
  refine ⟨_, (new_pushBacks_pushFront l hl x).1, (new_pushBacks_pushFront l hl x).2, ?_⟩
  unfold asSlice
  rw [if_pos (by simp)]
  congr 1
  obtain ⟨k, hk⟩ : ∃ k, 6 - l.length = k + 1 := ⟨5 - l.length, by omega⟩
  simp only [hk, List.replicate_succ, List.append_assoc]
  rw [List.take_append, List.take_of_length_le (by omega)]
  simp

theorem VecDeque.head0 {d : VecDeque α} (h0 : d.head = 0) : d.toList = d.buffer.take d.len := by
  simp [toList, h0]

theorem VecDeque.sortBy_head0 (d : VecDeque α) (h : d.Inv) (h0 : d.head = 0) (b : List α)
    (hb : b.Perm (d.buffer.take d.len)) :
    Inv (⟨b ++ d.buffer.drop d.len, d.len, d.head⟩ : VecDeque α) ∧
      toList (⟨b ++ d.buffer.drop d.len, d.len, d.head⟩ : VecDeque α) = b := by
  obtain ⟨h1, h2, h3, h4⟩ := h
  have hl := hb.length_eq
  simp at hl
  constructor
  · exact ⟨by simp; omega, by simp; omega, by simp; omega, by simp; omega⟩
  · unfold toList
    rw [h0]
    simp only [List.drop_zero, List.take_zero, List.append_nil]
    rw [List.take_append_of_le_length (by omega), List.take_of_length_le (by omega)]

theorem binarySearchLoop_take (f : α → Eff σ Ordering) (data : List α) (n : Nat) (hn : n ≤ data.length)
    (low high : Int) (h0 : 0 ≤ low) (h1 : high < n) :
    Vec.binarySearchLoop f data low high = Vec.binarySearchLoop f (data.take n) low high := by
  unfold Vec.binarySearchLoop
  split
  · next hle =>
    have hm0 : 0 ≤ (low + high) / 2 := by omega
    have hm1 : (low + high) / 2 ≤ high := by omega
    have hm2 : low ≤ (low + high) / 2 := by omega
    have hmn : ((low + high) / 2).toNat < n := by omega
    simp only [index_lt (l := data) (i := ((low + high) / 2).toNat) (by omega),
      index_lt (l := data.take n) (i := ((low + high) / 2).toNat) (by simp; omega), Eff.lift_ok,
      Eff.pure_bind, List.getElem_take]
    congr 1
    funext o
    cases o with
    | lt => exact binarySearchLoop_take f data n hn _ _ (by omega) h1
    | gt => exact binarySearchLoop_take f data n hn _ _ h0 (by omega)
    | eq => rfl
  · rfl
termination_by (high - low + 1).toNat
decreasing_by all_goals omega

theorem binarySearchLoop_none (c : α → Ordering) (data : List α) (hd : ∀ a ∈ data, c a ≠ .eq)
    (low high : Int) (h0 : 0 ≤ low) (h1 : high < data.length) (s : σ) :
    Vec.binarySearchLoop (fun a => (pure (c a) : Eff σ Ordering)) data low high s = (.ok Opt.none, s) := by
  unfold Vec.binarySearchLoop
  split
  · next hle =>
    have hm0 : 0 ≤ (low + high) / 2 := by omega
    have hm1 : (low + high) / 2 ≤ high := by omega
    have hm2 : low ≤ (low + high) / 2 := by omega
    have hmn : ((low + high) / 2).toNat < data.length := by omega
    simp only [index_lt hmn, Eff.lift_ok, Eff.pure_bind]
    have := hd _ (List.getElem_mem hmn)
    cases hc : c data[((low + high) / 2).toNat] with
    | lt => exact binarySearchLoop_none c data hd _ _ (by omega) h1 s
    | gt => exact binarySearchLoop_none c data hd _ _ h0 (by omega) s
    | eq => exact absurd hc this
  · rfl
termination_by (high - low + 1).toNat
decreasing_by all_goals omega

/-- C60, full property: Sort, SortBy and the unstable variants sort the deque, BinarySearch finds an element
of a sorted deque and returns its logical index.  Proved: this holds when the head is at the start of
the buffer.  Missing: other layouts, see `C60_sort_fails` and `C60_binarySearch_fails`. -/
theorem C60_sort_search_partial (S : SortLib) (d : VecDeque α) (h : d.Inv) (h0 : d.head = 0)
    (cmp : α → α → Ordering) (eq : α → α → Bool) (hc : LawfulOrd cmp eq) :
    (∃ d', d.sort S (some cmp) = .ok d' ∧ d.sortBy S cmp = .ok d' ∧ d'.Inv ∧ d'.toList.Perm d.toList ∧
      d'.toList.Pairwise (fun a b => cmp a b ≠ .gt) ∧
      ∀ x, Spec.equalTo cmp x d'.toList = Spec.equalTo cmp x d.toList) ∧
    (∃ d', d.sortUnstable S (some cmp) = .ok d' ∧ d.sortUnstableBy S cmp = .ok d' ∧ d'.Inv ∧
      d'.toList.Perm d.toList ∧ d'.toList.Pairwise (fun a b => cmp a b ≠ .gt)) ∧
    (∀ x, d.toList.Pairwise (fun a b => cmp a b ≠ .gt) → ∃ r, d.binarySearch (some cmp) x = .ok r ∧
      (r.isSome = true ↔ ∃ a ∈ d.toList, eq a x = true) ∧
      ∀ i, r.value = some i → ∃ hi : i < d.toList.length, eq d.toList[i] x = true) := by
  have h3 := h.len_le
  have hd := VecDeque.head0 h0
  refine ⟨?_, ?_, ?_⟩
  · obtain ⟨⟨v', e1, e2, p1, p2, _, p3⟩, _⟩ := C52_vec_sort S ⟨d.toList, 0⟩ cmp eq hc
    obtain ⟨i1, i2⟩ := VecDeque.sortBy_head0 d h h0 v'.data (by rw [← hd]; exact p1)
    have e : d.sortBy S cmp = .ok ⟨v'.data ++ d.buffer.drop d.len, d.len, d.head⟩ := by
      unfold VecDeque.sortBy
      rw [if_pos h3, ← e2, ← hd]
      rfl
    refine ⟨_, e, e, i1, ?_, ?_, ?_⟩
    · rw [i2]; exact p1
    · rw [i2]; exact p2
    · rw [i2]; exact p3
  · obtain ⟨_, v', e1, e2, p1, p2, _⟩ := C52_vec_sort S ⟨d.toList, 0⟩ cmp eq hc
    obtain ⟨i1, i2⟩ := VecDeque.sortBy_head0 d h h0 v'.data (by rw [← hd]; exact p1)
    have e : d.sortUnstableBy S cmp = .ok ⟨v'.data ++ d.buffer.drop d.len, d.len, d.head⟩ := by
      unfold VecDeque.sortUnstableBy
      rw [if_pos h3, ← e2, ← hd]
      rfl
    refine ⟨_, e, e, i1, ?_, ?_⟩
    · rw [i2]; exact p1
    · rw [i2]; exact p2
  · intro x hs
    obtain ⟨r, e, p, q⟩ := C51_binarySearch ⟨d.toList, 0⟩ cmp eq hc hs x
    refine ⟨r, ?_, p, q⟩
    rw [← e]
    unfold VecDeque.binarySearch Vec.binarySearch
    rw [binarySearchLoop_take _ d.buffer d.len h3 _ _ (by omega) (by omega)]
    simp only [hd, List.length_take, Nat.min_eq_left h3]

/-- C60 is violated by Sort: a new deque, `l` (not empty) pushed at the back and then `x` at the front,
where `x` is greater than all of them (and than the zero value): after Sort `x` is still the first
element, so the deque is not sorted. -/
theorem C60_sort_fails (S : SortLib) (cmp : α → α → Ordering) (l : List α) (hl : l.length < 6)
    (hne : l ≠ []) (x : α) (hx : ∀ a ∈ l ++ [default], cmp x a = .gt) :
    ∃ d d' : VecDeque α, (do let d ← VecDeque.new; let d ← pushBacks d l; d.pushFront x) = .ok d ∧
      d.toList = x :: l ∧ d.sort S (some cmp) = .ok d' ∧ d'.toList.head? = some x ∧
      ¬ d'.toList.Pairwise (fun a b => cmp a b ≠ .gt) := by
  obtain ⟨e1, e2⟩ := new_pushBacks_pushFront l hl x
  have hpos : 0 < l.length := List.length_pos_iff.2 hne
  obtain ⟨k, hk⟩ : ∃ k, 6 - l.length = k + 1 := ⟨5 - l.length, by omega⟩
  have hb : (l ++ List.replicate (6 - l.length) default ++ [x]).take (l.length + 1) = l ++ [default] := by
    simp only [hk, List.replicate_succ, List.append_assoc]
    rw [List.take_append, List.take_of_length_le (by omega)]
    simp
  have hb2 : (l ++ List.replicate (6 - l.length) default ++ [x]).drop (l.length + 1) =
      List.replicate k default ++ [x] := by
    simp only [hk, List.replicate_succ, List.append_assoc]
    rw [List.drop_append, List.drop_of_length_le (by omega)]
    simp
  have hp := S.stable_perm (Vec.less cmp) (l ++ [default])
  have hlen := hp.length_eq
  simp at hlen
  have hd' : toList (⟨S.stable (Vec.less cmp) (l ++ [default]) ++ (List.replicate k default ++ [x]),
      l.length + 1, 6⟩ : VecDeque α) = x :: (S.stable (Vec.less cmp) (l ++ [default])).take l.length := by
    unfold toList
    simp only
    generalize S.stable (Vec.less cmp) (l ++ [default]) = m at hlen
    have e6 : (m ++ List.replicate k default).length = 6 := by simp; omega
    rw [← List.append_assoc, List.drop_append_of_le_length (by omega), List.drop_of_length_le (by omega),
      List.take_append_of_le_length (l₂ := [x]) (by omega),
      List.take_of_length_le (l := m ++ List.replicate k default) (by omega)]
    simp only [List.nil_append, List.cons_append, List.take_succ_cons]
    rw [List.take_append_of_le_length (by omega)]
  refine ⟨_, _, e1, e2, ?_, by rw [hd']; rfl, ?_⟩
  · unfold VecDeque.sort VecDeque.sortBy
    simp only
    rw [if_pos (by simp), hb, hb2]
  · rw [hd']
    intro hpw
    have hm : (S.stable (Vec.less cmp) (l ++ [default])).take l.length ≠ [] := by
      intro h0
      have := congrArg List.length h0
      rw [List.length_take, hlen] at this
      simp only [List.length_nil] at this
      omega
    obtain ⟨a, t, ha⟩ := List.exists_cons_of_ne_nil hm
    have hmem : a ∈ l ++ [default] := by
      refine hp.mem_iff.1 (List.mem_of_mem_take (i := l.length) ?_)
      rw [ha]; simp
    rw [ha] at hpw
    exact (List.pairwise_cons.1 hpw).1 a (by simp) (hx a hmem)

/-- C60 is violated by BinarySearch: on the deque `x :: l` (which may well be sorted) built as above, `x`
is not found unless it is equal to the zero value or to an element of `l`. -/
theorem C60_binarySearch_fails (cmp : α → α → Ordering) (l : List α) (hl : l.length < 6)
    (x : α) (hx : ∀ a ∈ l ++ [default], cmp a x ≠ .eq) :
    ∃ d : VecDeque α, (do let d ← VecDeque.new; let d ← pushBacks d l; d.pushFront x) = .ok d ∧
      d.toList = x :: l ∧ d.binarySearch (some cmp) x = .ok Opt.none := by
  obtain ⟨d, e1, e2, e3⟩ := C59_asSlice_fails l hl x
  refine ⟨d, e1, e2, ?_⟩
  unfold asSlice at e3
  split at e3
  · next h3 =>
    injection e3 with e3
    have := congrArg List.length e3
    simp at this
    unfold VecDeque.binarySearch
    rw [binarySearchLoop_take _ d.buffer d.len h3 _ _ (by omega) (by omega), e3]
    simp only
    rw [binarySearchLoop_none (fun a => cmp a x) _ hx _ _ (by omega) (by simp; omega)]
  · cases e3

/-- The hypotheses of `C60_sort_search_partial` are met by the deque 2, 3, 1. -/
example : ∃ d', (⟨[2, 3, 1, 0], 3, 0⟩ : VecDeque Nat).sort mergeSortLib (some compare) = .ok d' ∧
    d'.toList.Perm [2, 3, 1] := by
  obtain ⟨d', a, _, _, b, _⟩ := (C60_sort_search_partial mergeSortLib (⟨[2, 3, 1, 0], 3, 0⟩ : VecDeque Nat)
    ⟨by decide, by decide, by decide, by decide⟩ rfl compare (· == ·) natCmp_lawful).1
  exact ⟨d', a, b⟩
example : (do
    let d ← VecDeque.new; let d ← pushBacks d [2, 3]; let d ← d.pushFront 1
    d.binarySearch (some compare) 1) = .ok (Opt.none : Opt Nat) := by
  obtain ⟨d, e1, _, e3⟩ := C60_binarySearch_fails (compare : Nat → Nat → Ordering) [2, 3] (by decide) 1 (by decide)
  have : (do let d ← VecDeque.new; let d ← pushBacks d [2, 3]; let d ← d.pushFront 1
             d.binarySearch (some compare) 1) =
      (do let d ← VecDeque.new; let d ← pushBacks d [2, 3]; d.pushFront 1) >>= fun d =>
        d.binarySearch (some compare) (1 : Nat) := rfl
  rw [this, e1]
  exact e3
/-- The hypotheses of `C60_sort_fails` are met by 9 in front of 1, 2. -/
example : ∀ a ∈ [1, 2] ++ [(default : Nat)], compare 9 a = .gt := by decide

/-! ### C61 -/

theorem DequeIter.next_eq (d : VecDeque α) (h : d.Inv) (p : Nat) :
    (⟨d, p⟩ : DequeIter α).next =
      .ok (⟨d, if p < d.toList.length then p + 1 else p⟩, ⟨d.toList[p]?⟩) := by
  have hl := toList_length h
  unfold DequeIter.next
  simp only [get_eq h, Go.bind_ok]
  by_cases hp : p < d.toList.length
  · rw [if_neg (by omega), if_pos hp]
  · rw [if_pos (by omega), if_neg hp, List.getElem?_eq_none (by omega)]
    rfl

/-- Call Next `n` times and collect the results. -/
def DequeIter.nexts : Nat → DequeIter α → Go (List (Option α))
  | 0, _ => .ok []
  | n + 1, it => do
    let (it, r) ← it.next
    let rs ← nexts n it
    .ok (r.value :: rs)

/-- C61, the Next part: from IntoIter on, the i-th call of Next returns the i-th element, and None from
the end on; no call panics. -/
theorem C61_deque_iter_next (d : VecDeque α) (h : d.Inv) (n : Nat) :
    d.intoIter.nexts n = .ok ((List.range n).map fun i => d.toList[i]?) := by
  have key : ∀ n p, DequeIter.nexts n ⟨d, p⟩ = .ok ((List.range' p n).map fun i => d.toList[i]?) := by
    intro n p
    induction n generalizing p with
    | zero => rfl
    | succ n ih =>
      simp only [DequeIter.nexts, DequeIter.next_eq d h, Go.bind_ok]
      by_cases hp : p < d.toList.length
      · rw [if_pos hp, ih]
        simp [List.range'_succ]
      · rw [if_neg hp]
        simp only [ih, Go.bind_ok, List.range'_succ, List.map_cons]
        congr 2
        have hnone : ∀ q, p ≤ q → (List.range' q n).map (fun i => d.toList[i]?) = List.replicate n none := by
          intro q hq
          refine List.eq_replicate_iff.2 ⟨by simp, ?_⟩
          intro b hb
          obtain ⟨i, hi, rfl⟩ := List.mem_map.1 hb
          have := List.mem_range'_1.1 hi
          exact List.getElem?_eq_none (by omega)
        rw [hnone p (Nat.le_refl _), hnone (p + 1) (by omega)]
  rw [List.range_eq_range']
  exact key n 0

/-- What the adapters do at any position: they process the whole deque. -/
theorem DequeIter.adapters_eq (d : VecDeque α) (h : d.Inv) (p : Nat) (f : α → Eff σ α)
    (q : α → Eff σ Bool) (z : α) (op : α → α → Eff σ α) (g : Growth) :
    (∃ D : List α → VecDeque α, (⟨d, p⟩ : DequeIter α).map f =
      (mapE f d.toList >>= fun ys => pure (D ys).intoIter) ∧
      ∀ ys, ys.length = d.toList.length → (D ys).Inv ∧ (D ys).toList = ys) ∧
    (∃ D : List α → VecDeque α, (⟨d, p⟩ : DequeIter α).filter q =
      (mapE q d.toList >>= fun bs => pure (D (select d.toList bs)).intoIter) ∧
      ∀ ys, ys.length ≤ d.toList.length → (D ys).Inv ∧ (D ys).toList = ys) ∧
    (⟨d, p⟩ : DequeIter α).fold z op = foldE op z d.toList ∧
    (∃ c, (⟨d, p⟩ : DequeIter α).collectToVec g = .ok ⟨d.toList, c⟩) := by
  have hl := toList_length h
  have h3 := h.len_le
  obtain ⟨d0, a0, b0, c0, l0, e0⟩ := withCapacity_eq (α := α) d.capacity h.small
  have e0' : d0.buffer.length = max d.buffer.length 1 := e0
  refine ⟨⟨d0.pushL, ?_, ?_⟩, ⟨d0.pushL, ?_, ?_⟩, ?_, ?_⟩
  · unfold DequeIter.map
    simp only [a0, Eff.lift_ok, Eff.pure_bind]
    rw [pushAllLoop_eq _ _ h _ _ (by simp), List.drop_zero,
      foldE_pushBack f d.toList d0 b0 (by omega)]
    simp only [LawfulMonad.bind_assoc, Eff.pure_bind]
  · intro ys hys
    have := pushL_eq ys d0 b0 (by omega)
    rw [c0] at this
    simpa using this
  · unfold DequeIter.filter
    simp only [a0, Eff.lift_ok, Eff.pure_bind]
    rw [pushAllLoop_eq _ _ h _ _ (by simp), List.drop_zero,
      foldE_pushBackIf q d.toList d0 b0 (by omega)]
    simp only [LawfulMonad.bind_assoc, Eff.pure_bind]
  · intro ys hys
    have := pushL_eq ys d0 b0 (by omega)
    rw [c0] at this
    simpa using this
  · have key : ∀ n i acc, i + n = d.len →
        DequeIter.foldLoop op d n i acc = foldE op acc (d.toList.drop i) := by
      intro n
      induction n with
      | zero =>
        intro i acc hi
        rw [List.drop_of_length_le (by omega)]
        rfl
      | succ n ih =>
        intro i acc hi
        have hil : i < d.toList.length := by omega
        rw [List.drop_eq_getElem_cons hil]
        simp only [DequeIter.foldLoop, get_eq h, Eff.lift_ok, Eff.pure_bind, Opt.unwrap,
          List.getElem?_eq_getElem hil, deref_some, foldE]
        congr 1
        funext acc'
        exact ih (i + 1) acc' (by omega)
    have := key d.len 0 z (by omega)
    rw [List.drop_zero] at this
    exact this
  · have key : ∀ n i (v : Vec α), i + n = d.len →
        ∃ c, DequeIter.collectLoop g d n i v = .ok ⟨v.data ++ d.toList.drop i, c⟩ := by
      intro n
      induction n with
      | zero =>
        intro i v hi
        rw [List.drop_of_length_le (by omega)]
        exact ⟨v.cap, by simp [DequeIter.collectLoop]⟩
      | succ n ih =>
        intro i v hi
        have hil : i < d.toList.length := by omega
        rw [List.drop_eq_getElem_cons hil]
        simp only [DequeIter.collectLoop, get_eq h, Go.bind_ok, Opt.unwrap,
          List.getElem?_eq_getElem hil, deref_some]
        obtain ⟨c, hc⟩ := ih (i + 1) (v.push g d.toList[i]) (by omega)
        refine ⟨c, ?_⟩
        rw [hc]
        simp [Vec.push, Vec.goAppend_data]
    have hw : ∃ w : Vec α, Vec.withCapacity d.capacity = .ok w ∧ w.data = [] := by
      unfold Vec.withCapacity makeLen
      rw [if_pos h.small]
      exact ⟨_, rfl, rfl⟩
    obtain ⟨w, hw1, hw2⟩ := hw
    unfold DequeIter.collectToVec
    rw [hw1]
    simp only [Go.bind_ok]
    obtain ⟨c, hc⟩ := key d.len 0 w (by omega)
    exact ⟨c, by rw [hc, hw2]; simp⟩

/-- C61, full property: the adapters process exactly the elements not yet consumed, in order; Rev reverses
them.  Proved: Map, Filter, Fold and CollectToVec do so on an iterator from which nothing has been
taken, calling the callback once per element in order (`C61_deque_iter_next` is the Next part).
Missing: advanced iterators, see `C61_adapters_fails`, and Rev, see `C61_rev_fails`. -/
theorem C61_deque_iter_adapters_partial (d : VecDeque α) (h : d.Inv) (f : α → Eff σ α)
    (q : α → Eff σ Bool) (z : α) (op : α → α → Eff σ α) (g : Growth) :
    (∃ D : List α → VecDeque α, d.intoIter.map f =
      (mapE f d.toList >>= fun ys => pure (D ys).intoIter) ∧
      ∀ ys, ys.length = d.toList.length → (D ys).Inv ∧ (D ys).toList = ys) ∧
    (∃ D : List α → VecDeque α, d.intoIter.filter q =
      (mapE q d.toList >>= fun bs => pure (D (select d.toList bs)).intoIter) ∧
      ∀ ys, ys.length ≤ d.toList.length → (D ys).Inv ∧ (D ys).toList = ys) ∧
    d.intoIter.fold z op = foldE op z d.toList ∧
    (∃ c, d.intoIter.collectToVec g = .ok ⟨d.toList, c⟩) :=
  DequeIter.adapters_eq d h 0 f q z op g

/-- C61 is violated by every iterator over a nonempty deque after Next: the elements already taken are
processed again. -/
theorem C61_adapters_fails (d : VecDeque α) (h : d.Inv) (hne : d.toList ≠ []) (p : Nat) (hp : 0 < p)
    (g : Growth) (z : α) :
    (∃ c, (⟨d, p⟩ : DequeIter α).collectToVec g = .ok ⟨d.toList, c⟩) ∧
    ((⟨d, p⟩ : DequeIter α).fold z (fun _ b => fun log => (.ok b, log ++ [b])) ([] : List α)).2 = d.toList ∧
    d.toList ≠ d.toList.drop p := by
  obtain ⟨_, _, hf, hc⟩ := DequeIter.adapters_eq (σ := List α) d h p (fun a => pure a) (fun _ => pure true) z
    (fun _ b => fun log => (.ok b, log ++ [b])) g
  refine ⟨hc, ?_, ?_⟩
  · rw [hf]
    have key : ∀ (l : List α) (z : α) (log : List α),
        (foldE (σ := List α) (fun _ b => fun log => (.ok b, log ++ [b])) z l log).2 = log ++ l := by
      intro l
      induction l with
      | nil => intro z log; simp [foldE]
      | cons a l ih =>
        intro z log
        have : foldE (σ := List α) (fun _ b => fun log => (.ok b, log ++ [b])) z (a :: l) log =
          foldE (σ := List α) (fun _ b => fun log => (.ok b, log ++ [b])) a l (log ++ [a]) := rfl
        rw [this, ih]
        simp
    simpa using key d.toList z []
  · intro he
    have := congrArg List.length he
    have := List.length_pos_iff.2 hne
    simp at *
    omega

/-- C61 is violated by Rev on every deque: its loop counts an unsigned index down past zero, and it panics
(after Len rounds). -/
theorem C61_rev_fails (d : VecDeque α) (h : d.Inv) (p fuel : Nat) :
    (⟨d, p⟩ : DequeIter α).rev fuel = if d.len < fuel then .error .nilDeref else .ok none := by
  have hl := toList_length h
  have h2 := h.small
  have h3 := h.len_le
  have key : ∀ fuel n i (acc : VecDeque α), acc.Inv →
      (i < d.len ∧ acc.len + i + 1 ≤ acc.buffer.length ∧ n = i + 1 ∨ i = 2 ^ 64 - 1 ∧ n = 0) →
      DequeIter.revLoop d fuel i acc = if n < fuel then .error .nilDeref else .ok none := by
    intro fuel
    induction fuel with
    | zero => intros; rw [if_neg (by omega)]; rfl
    | succ fuel ih =>
      intro n i acc ha hi
      simp only [DequeIter.revLoop, get_eq h, Go.bind_ok, Opt.unwrap]
      rcases hi with ⟨hi, hr, hn⟩ | ⟨hi, hn⟩
      · have hil : i < d.toList.length := by omega
        simp only [List.getElem?_eq_getElem hil, deref_some, Go.bind_ok]
        obtain ⟨acc', a, b, _, e, f⟩ := push_room ha (by omega) d.toList[i]
        simp only [a, Go.bind_ok]
        have : DequeIter.revLoop d fuel (usizeSub i 1) acc' =
            if n - 1 < fuel then .error .nilDeref else .ok none := by
          refine ih (n - 1) _ acc' b ?_
          by_cases h0 : i = 0
          · exact .inr ⟨by rw [h0]; decide, by omega⟩
          · have u : usizeSub i 1 = i - 1 := by unfold usizeSub; omega
            rw [u]
            exact .inl ⟨by omega, by omega, by omega⟩
        rw [this]
        by_cases hf : n - 1 < fuel
        · rw [if_pos hf, if_pos (by omega)]
        · rw [if_neg hf, if_neg (by omega)]
      · rw [List.getElem?_eq_none (by omega), if_pos (by omega)]
        rfl
  obtain ⟨d0, a0, b0, c0, l0, e0⟩ := withCapacity_eq (α := α) d.capacity h.small
  have e0' : d0.buffer.length = max d.buffer.length 1 := e0
  unfold DequeIter.rev
  simp only [a0, Go.bind_ok]
  rw [key fuel d.len _ d0 b0 ?_]
  · by_cases hf : d.len < fuel
    · rw [if_pos hf, if_pos hf]; rfl
    · rw [if_neg hf, if_neg hf]; rfl
  · by_cases hz : d.len = 0
    · exact .inr ⟨by rw [hz]; decide, hz⟩
    · have u : usizeSub d.len 1 = d.len - 1 := by unfold usizeSub; omega
      rw [u]
      exact .inl ⟨by omega, by omega, by omega⟩

example : exDeque.intoIter.nexts 4 = .ok [some 1, some 2, some 3, none] := by decide
example : (exDeque.intoIter.fold 10 (fun a b => (pure (a + b) : Eff Unit Nat)) ()).1 = .ok 16 := by decide
example : exDeque.intoIter.rev 9 = .error .nilDeref := by decide

/-! ### C62 -/

/-- C62: Contains, with an equality method, tells whether an element is equal to the value; Fill and
FillWith set every element; Eq compares the logical sequences, whatever the physical layouts; Clone
gives a deque with the same elements.  None of them panics. -/
theorem C62_deque_contents (d o : VecDeque α) (h : d.Inv) (ho : o.Inv) (e : α → α → Bool) (x : α) :
    d.contains (some e) x = .ok (d.toList.any fun a => e x a) ∧
    (∃ d', d.fill x = .ok d' ∧ d'.Inv ∧ d'.toList = List.replicate d.toList.length x) ∧
    d.eq (some e) o = .ok (Spec.listEq e d.toList o.toList) ∧
    (∃ d', d.clone = .ok d' ∧ d'.Inv ∧ d'.toList = d.toList) := by
  have hl := toList_length h
  have hlo := toList_length ho
  have h3 := h.len_le
  refine ⟨?_, ?_, ?_, ?_⟩
  · have key : ∀ n i, i + n = d.len →
        VecDeque.containsLoop e x d n i = .ok ((d.toList.drop i).any fun a => e x a) := by
      intro n
      induction n with
      | zero =>
        intro i hi
        rw [List.drop_of_length_le (by omega)]
        rfl
      | succ n ih =>
        intro i hi
        have hil : i < d.toList.length := by omega
        rw [List.drop_eq_getElem_cons hil]
        simp only [VecDeque.containsLoop, get_eq h, Go.bind_ok, Opt.unwrap,
          List.getElem?_eq_getElem hil, deref_some, List.any_cons]
        cases he : e x d.toList[i] with
        | true => rfl
        | false => simpa using ih (i + 1) (by omega)
    simpa [VecDeque.contains] using key d.len 0 (by omega)
  · obtain ⟨d', a, b, c, _⟩ := fillLoop_eq x d.len 0 d h (by omega)
    exact ⟨d', a, b, by rw [c, hl]; simp⟩
  · unfold VecDeque.eq
    by_cases hn : d.len = o.len
    · rw [if_neg (by omega)]
      have key : ∀ n i, i + n = d.len →
          VecDeque.eqLoop (some e) d o n i = .ok (Spec.listEq e (d.toList.drop i) (o.toList.drop i)) := by
        intro n
        induction n with
        | zero =>
          intro i hi
          rw [List.drop_of_length_le (by omega), List.drop_of_length_le (by omega)]
          rfl
        | succ n ih =>
          intro i hi
          have hil : i < d.toList.length := by omega
          have hil' : i < o.toList.length := by omega
          rw [List.drop_eq_getElem_cons hil, List.drop_eq_getElem_cons hil']
          simp only [VecDeque.eqLoop, get_eq h, get_eq ho, Go.bind_ok, Opt.unwrap,
            List.getElem?_eq_getElem hil, List.getElem?_eq_getElem hil', deref_some]
          cases he : e d.toList[i] o.toList[i] with
          | true => simpa [Spec.listEq, he] using ih (i + 1) (by omega)
          | false => simp [Spec.listEq, he]
      simpa using key d.len 0 (by omega)
    · rw [if_pos hn]
      congr 1
      symm
      cases hx : Spec.listEq e d.toList o.toList with
      | false => rfl
      | true =>
        have := Spec.listEq_length e _ _ hx
        omega
  · obtain ⟨d0, a0, b0, c0, l0, e0⟩ := withCapacity_eq (α := α) d.capacity h.small
    have e0' : d0.buffer.length = max d.buffer.length 1 := e0
    obtain ⟨i1, i2⟩ := pushL_eq d.toList d0 b0 (by omega)
    refine ⟨d0.pushL d.toList, ?_, i1, by rw [i2, c0]; rfl⟩
    unfold VecDeque.clone
    simp only [a0, Go.bind_ok]
    rw [pushAllLoop_eq _ _ h _ _ (by simp), List.drop_zero]
    have := foldE_pushBack (σ := Unit) (fun x => pure x) d.toList d0 b0 (by omega)
    simp only [Eff.pure_bind] at this
    have hm := mapE_pure (σ := Unit) (fun x : α => x) d.toList
    rw [List.map_id' d.toList] at hm
    rw [this, hm]
    simp

/-- C62: FillWith calls the function once per element, in order, and stores the results. -/
theorem C62_deque_fillWith (d : VecDeque α) (h : d.Inv) (f : Eff σ α) :
    ∃ D : List α → VecDeque α, d.fillWith f = (mapE (fun _ => f) d.toList >>= fun xs => pure (D xs)) ∧
      ∀ xs, xs.length = d.toList.length → (D xs).Inv ∧ (D xs).toList = xs := by
  have hl := toList_length h
  refine ⟨fun xs => fillD xs 0 d, ?_, ?_⟩
  · unfold VecDeque.fillWith
    rw [← hl, fillWithLoop_eq f d.toList 0 d h (by omega)]
  · intro xs hxs
    simpa using fillD_eq xs 0 d h (by omega)

example : exDeque.contains (some (· == ·)) 2 = .ok true ∧ exDeque.contains (some (· == ·)) 0 = .ok false ∧
    exDeque.eq (some (· == ·)) ⟨[1, 2, 3], 3, 0⟩ = .ok true ∧ exDeque.clone = .ok ⟨[1, 2, 3, 0], 3, 0⟩ ∧
    exDeque.fill 7 = .ok ⟨[7, 0, 7, 7], 3, 2⟩ := by decide

end Gost
