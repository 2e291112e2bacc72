import Verif.Props.VecDeque
/-
Property C159: the memory of a VecDeque follows the number of elements it holds, and the work spent on
growing it is proportional to the number of elements added.
-/
set_option linter.unusedSectionVars false
namespace Gost
open Spec VecDeque

variable {σ α : Type} [Inhabited α]

/-! ### Specification -/

/-- The largest length a mathematical sequence reaches during a history. -/
def Spec.peak : List (DequeOp α) → List α → Nat
  | [], l => l.length
  | o :: os, l =>
    match Spec.dequeStep o l with
    | some (l', _) => max l.length (Spec.peak os l')
    | none => l.length

/-- Clear? -/
def DequeOp.isClear : DequeOp α → Bool
  | .clear => true
  | _ => false

/-- The slots allocated during a history: whenever Capacity() goes up in a step, a buffer of the new
capacity has been made and the old one copied to it; Clear always makes a new buffer. -/
def Spec.allocated : List (DequeOp α) → VecDeque α → Nat
  | [], _ => 0
  | o :: os, d =>
    match VecDeque.step o d with
    | .ok (d', _) =>
      (if o.isClear || decide (d.capacity < d'.capacity) then d'.capacity else 0) + Spec.allocated os d'
    | .error _ => 0

/-- One push? -/
def DequeOp.isPush : DequeOp α → Nat
  | .pushFront _ | .pushBack _ => 1
  | _ => 0

/-- The slots an operation may cost on average: four per push and seven per Clear. -/
def DequeOp.fee : DequeOp α → Nat
  | .pushFront _ | .pushBack _ => 4
  | .clear => 7
  | _ => 0

/-- What the caller explicitly reserves. -/
def DequeOp.reserved : DequeOp α → Nat
  | .reserve n => n
  | _ => 0

/-- Not an Append. -/
def DequeOp.NoAppend : DequeOp α → Prop
  | .append _ => False
  | _ => True

/-- Neither an Append nor a Reserve. -/
def DequeOp.Plain : DequeOp α → Prop
  | .append _ | .reserve _ => False
  | _ => True

/-! ### One step -/

/-- What one operation does to the capacity. -/
def capStep : DequeOp α → Nat → Nat → Nat
  | .pushFront _, len, cap | .pushBack _, len, cap => if len = cap then 2 * len else cap
  | .append o, _, cap => cap + o.len
  | .reserve n, _, cap => cap + n
  | .clear, _, _ => 7
  | _, _, cap => cap

theorem VecDeque.step_capacity (o : DequeOp α) (d : VecDeque α) (h : d.Inv) (ho : o.Ok)
    (hroom : d.space + o.room < 2 ^ 63) (l' : List α) (r : Obs α)
    (hs : Spec.dequeStep o d.toList = some (l', r)) :
    ∃ d', VecDeque.step o d = .ok (d', r) ∧ d'.Inv ∧ d'.toList = l' ∧ d'.space ≤ d.space + o.room ∧
      d'.capacity = capStep o d.len d.capacity := by
  obtain ⟨d', a, b, c, e⟩ := VecDeque.step_refines o d h ho hroom l' r hs
  refine ⟨d', a, b, c, e, ?_⟩
  have hl := toList_length h
  unfold VecDeque.space at hroom
  simp only [capacity]
  cases o with
  | pushFront v =>
    obtain ⟨x, a', _, _, e'⟩ := pushFront_eq h (by omega) v
    simp [VecDeque.step, a'] at a
    rw [← a.1, e']; rfl
  | pushBack v =>
    obtain ⟨x, a', _, _, e'⟩ := pushBack_eq h (by omega) v
    simp [VecDeque.step, a'] at a
    rw [← a.1, e']; rfl
  | popFront =>
    obtain ⟨x, a', _, _, e'⟩ := popFront_eq h
    simp [VecDeque.step, a'] at a
    rw [← a.1, e']; rfl
  | popBack =>
    obtain ⟨x, a', _, _, e'⟩ := popBack_eq h
    simp [VecDeque.step, a'] at a
    rw [← a.1, e']; rfl
  | front =>
    simp [VecDeque.step, VecDeque.front, get_eq h] at a
    rw [← a.1]; rfl
  | back =>
    simp [VecDeque.step, VecDeque.back, get_eq h] at a
    rw [← a.1]; rfl
  | get i =>
    simp [VecDeque.step, get_eq h] at a
    rw [← a.1]; rfl
  | getUnchecked i =>
    simp only [Spec.dequeStep] at hs
    by_cases hi : i < d.toList.length
    · simp [VecDeque.step, getUnchecked_eq h hi] at a
      rw [← a.1]; rfl
    · rw [List.getElem?_eq_none (by omega)] at hs
      cases hs
  | set i v =>
    by_cases hi : i < d.len
    · obtain ⟨p1, p2, p3, p4, p5⟩ := put_eq h hi v
      unfold setUnchecked at p1
      simp only [VecDeque.step, VecDeque.set] at a
      rw [if_neg (by omega)] at a
      cases hx : setIndex d.buffer (d.toPhysicalIndex i) v with
      | error e => rw [hx] at p1; cases p1
      | ok b' =>
        rw [hx] at p1 a
        cases a
        have := congrArg (fun x : Go (VecDeque α) => x.toOption.map (·.buffer.length)) p1
        simpa [p5, capStep] using this
    · simp only [VecDeque.step, VecDeque.set] at a
      rw [if_pos (by omega)] at a
      cases a
      rfl
  | setUnchecked i v =>
    simp only [Spec.dequeStep] at hs
    by_cases hi : i < d.len
    · obtain ⟨p1, p2, p3, p4, p5⟩ := put_eq h hi v
      simp [VecDeque.step, p1] at a
      rw [← a.1, p5]; rfl
    · rw [if_neg (by omega)] at hs
      cases hs
  | swap i j =>
    simp only [Spec.dequeStep] at hs
    by_cases hi : i < d.len
    · by_cases hj : j < d.len
      · obtain ⟨x, a', _, _, _, f⟩ := swap_eq h hi hj
        simp [VecDeque.step, a'] at a
        rw [← a.1, f]; rfl
      · have : swapAt d.toList i j = none := by
          unfold swapAt
          rw [List.getElem?_eq_none (i := j) (by omega)]
          split <;> simp_all
        rw [this] at hs; cases hs
    · have : swapAt d.toList i j = none := by
        unfold swapAt
        rw [List.getElem?_eq_none (i := i) (by omega)]
      rw [this] at hs; cases hs
  | append o =>
    simp only [DequeOp.room] at hroom
    have hlo := toList_length (d := o) ho
    have := h.len_le
    obtain ⟨d1, a1, b1, c1, e1⟩ := reserve_eq h o.len (by omega)
    have hl1 := toList_length b1
    rw [c1] at hl1
    obtain ⟨d2, a2, b2, c2, e2⟩ := appendLoop_eq ho o.len 0 (by omega) b1 (by omega)
    simp [VecDeque.step, VecDeque.append, a1, a2] at a
    rw [← a.1, e2, e1]; rfl
  | reserve n =>
    simp only [DequeOp.room] at hroom
    obtain ⟨d1, a1, b1, c1, e1⟩ := reserve_eq h n (by omega)
    simp [VecDeque.step, a1] at a
    rw [← a.1, e1]; rfl
  | retain p =>
    obtain ⟨D, e', hD⟩ := retain_eq d h (fun a => (pure (p a) : Eff Unit Bool))
    rw [mapE_pure, Eff.pure_bind] at e'
    obtain ⟨_, _, f⟩ := hD (d.toList.map p) (by simp [hl])
    simp [VecDeque.step, e'] at a
    rw [← a.1, f]; rfl
  | clear =>
    simp [VecDeque.step] at a
    rw [← a.1]; simp [VecDeque.clear, capStep]
  | len =>
    simp [VecDeque.step] at a
    rw [← a.1]; rfl
  | isEmpty =>
    simp [VecDeque.step] at a
    rw [← a.1]; rfl

theorem capStep_le (o : DequeOp α) (hn : o.NoAppend) (len cap : Nat) :
    capStep o len cap ≤ max 7 (max cap (2 * len)) + o.reserved := by
  cases o <;> simp only [capStep, DequeOp.reserved, DequeOp.NoAppend] at hn ⊢ <;> (try split) <;> omega

/-- The length after a step without Append is at most one more, and only after a push. -/
theorem dequeStep_len (o : DequeOp α) (hn : o.Plain) (l l' : List α) (r : Obs α)
    (hs : Spec.dequeStep o l = some (l', r)) : l'.length ≤ l.length + o.isPush := by
  cases o <;> simp only [Spec.dequeStep, DequeOp.isPush, DequeOp.Plain] at hs hn ⊢
  case getUnchecked i =>
    cases hx : l[i]? with
    | none => rw [hx] at hs; cases hs
    | some v => rw [hx] at hs; cases hs; omega
  case setUnchecked i v =>
    by_cases hi : i < l.length
    · rw [if_pos hi] at hs; cases hs; simp
    · rw [if_neg hi] at hs; cases hs
  case swap i j =>
    cases hx : swapAt l i j with
    | none => rw [hx] at hs; cases hs
    | some m =>
      rw [hx] at hs; cases hs
      unfold swapAt at hx
      split at hx <;> simp_all
      rw [← hx]; simp
  case retain p =>
    cases hs
    have := List.length_filter_le p l
    omega
  all_goals first | (cases hs; simp) | (cases hs; simp; done) | omega

/-! ### C159 -/

/-- C159, full property: Capacity never exceeds the larger of 7, the initial capacity and twice the peak
length, plus what the caller reserved; and the slots allocated are at most four per element added and seven per Clear.  Proved: the
bound on the capacity for every history without Append.  Missing: Append, see `C159_append_fails`. -/
theorem C159_capacity_partial (ops : List (DequeOp α)) (d : VecDeque α) (h : d.Inv)
    (hok : ∀ o ∈ ops, o.NoAppend)
    (hroom : d.space + (ops.map DequeOp.room).sum < 2 ^ 63) (rs : List (Obs α)) (l' : List α)
    (hs : Spec.runOps Spec.dequeStep ops d.toList = (rs, some l')) :
    ∃ d', Spec.runOps (fun o d => Go.toOption (VecDeque.step o d)) ops d = (rs, some d') ∧
      d'.toList = l' ∧
      d'.capacity ≤ max 7 (max d.capacity (2 * Spec.peak ops d.toList)) + (ops.map DequeOp.reserved).sum := by
  induction ops generalizing d rs with
  | nil =>
    simp only [Spec.runOps, Prod.mk.injEq, Option.some.injEq] at hs
    obtain ⟨rfl, hs⟩ := hs
    exact ⟨d, rfl, hs, by omega⟩
  | cons o ops ih =>
    simp only [List.map_cons, List.sum_cons] at hroom ⊢
    simp only [Spec.runOps] at hs ⊢
    cases hstep : Spec.dequeStep o d.toList with
    | none => rw [hstep] at hs; simp at hs
    | some p =>
      obtain ⟨l1, r⟩ := p
      rw [hstep] at hs
      simp only [Prod.mk.injEq] at hs
      obtain ⟨hrs, hl⟩ := hs
      have hno := hok o (by simp)
      have hoo : o.Ok := by cases o <;> first | trivial | exact hno.elim
      obtain ⟨d1, a, b, c, e, k⟩ := VecDeque.step_capacity o d h hoo (by omega) l1 r hstep
      obtain ⟨d2, a2, c2, k2⟩ := ih d1 b (fun o' ho' => hok o' (by simp [ho'])) (by omega)
        (Spec.runOps Spec.dequeStep ops l1).1 (by rw [c]; exact Prod.ext rfl hl)
      refine ⟨d2, ?_, c2, ?_⟩
      · rw [a]
        simp only [Go.toOption_ok, a2, ← hrs]
      · have hc := capStep_le o hno d.len d.capacity
        have hlen := toList_length h
        simp only [Spec.peak, hstep]
        rw [c] at k2
        rw [k] at k2
        omega

/-- C159, full property as above.  Proved: in every history of operations other than Append and Reserve,
the deque allocates at most four slots per element pushed, seven per Clear, and two per element held at the
start: the cost of
a push is constant on average, whatever is popped in between.  Missing: see `C159_reserve_fails`. -/
theorem C159_amortized_partial (ops : List (DequeOp α)) (d : VecDeque α) (h : d.Inv)
    (hok : ∀ o ∈ ops, o.Plain)
    (hroom : d.space + (ops.map DequeOp.room).sum < 2 ^ 63) (rs : List (Obs α)) (l' : List α)
    (hs : Spec.runOps Spec.dequeStep ops d.toList = (rs, some l')) :
    Spec.allocated ops d ≤ (ops.map DequeOp.fee).sum + 2 * d.toList.length := by
  suffices hp : Spec.allocated ops d ≤ (ops.map DequeOp.fee).sum + (4 * d.len - 2 * d.capacity) by
    have := h.len_le
    have hl := toList_length h
    simp only [capacity] at hp
    omega
  induction ops generalizing d rs with
  | nil => simp [Spec.allocated]
  | cons o ops ih =>
    simp only [List.map_cons, List.sum_cons] at hroom ⊢
    simp only [Spec.runOps] at hs
    cases hstep : Spec.dequeStep o d.toList with
    | none => rw [hstep] at hs; simp at hs
    | some p =>
      obtain ⟨l1, r⟩ := p
      rw [hstep] at hs
      simp only [Prod.mk.injEq] at hs
      obtain ⟨hrs, hl⟩ := hs
      have hno := hok o (by simp)
      have hoo : o.Ok := by cases o <;> first | trivial | exact hno.elim
      obtain ⟨d1, a, b, c, e, k⟩ := VecDeque.step_capacity o d h hoo (by omega) l1 r hstep
      have ih := ih d1 b (fun o' ho' => hok o' (by simp [ho'])) (by omega)
        (Spec.runOps Spec.dequeStep ops l1).1 (by rw [c]; exact Prod.ext rfl hl)
      simp only [Spec.allocated, a]
      have hlen := toList_length h
      have hlen1 := toList_length b
      have hle := h.len_le
      have hg := dequeStep_len o hno d.toList l1 r hstep
      rw [c] at hlen1
      simp only [capacity] at k ih ⊢
      cases o <;>
        simp only [capStep, DequeOp.isPush, DequeOp.fee, DequeOp.isClear, DequeOp.Plain, Bool.false_or,
          Bool.true_or, decide_eq_true_eq, if_true] at k hno hg ⊢ <;>
        (try split at k) <;> (try split) <;>
        first | omega | (cases hstep; simp only [List.length_nil] at hlen1; omega)

/-! Append reserves room for the whole of the other deque even if there is enough. -/

theorem Spec.runOps_append {O R S : Type} (f : O → S → Option (S × R)) (a b : List O) (s s' : S) (rs : List R)
    (h : Spec.runOps f a s = (rs, some s')) :
    Spec.runOps f (a ++ b) s = (rs ++ (Spec.runOps f b s').1, (Spec.runOps f b s').2) := by
  induction a generalizing s rs with
  | nil => simp only [Spec.runOps, Prod.mk.injEq, Option.some.injEq] at h; obtain ⟨rfl, rfl⟩ := h; simp
  | cons o a ih =>
    simp only [Spec.runOps, List.cons_append] at h ⊢
    cases hf : f o s with
    | none => rw [hf] at h; simp at h
    | some p =>
      rw [hf] at h
      simp only [Prod.mk.injEq] at h
      obtain ⟨h1, h2⟩ := h
      simp only [ih p.1 _ (Prod.ext rfl h2), ← h1, List.cons_append]

/-- A round of work with a queue: take over a batch, then pop everything. -/
def batchRound (o : VecDeque α) : List (DequeOp α) := .append o :: List.replicate o.len .popFront

theorem popAll (n : Nat) (d : VecDeque α) (h : d.Inv) (hn : d.len = n) :
    ∃ d', Spec.runOps (fun o d => Go.toOption (VecDeque.step o d)) (List.replicate n .popFront) d =
        (d.toList.map (fun v => Obs.opt (some v)), some d') ∧ d'.Inv ∧ d'.toList = [] ∧
      d'.capacity = d.capacity := by
  have hl := toList_length h
  induction n generalizing d with
  | zero =>
    have h0 : d.toList = [] := List.length_eq_zero_iff.mp (by omega)
    exact ⟨d, by simp [Spec.runOps, h0], h, h0, rfl⟩
  | succ n ih =>
    obtain ⟨d1, a, b, c, e⟩ := popFront_eq h
    have hl1 := toList_length b
    rw [c] at hl1
    simp at hl1
    obtain ⟨d2, a2, b2, c2, e2⟩ := ih d1 b (by omega) (toList_length b)
    refine ⟨d2, ?_, b2, c2, by simp only [capacity] at e2 ⊢; rw [e2, e]⟩
    cases hd : d.toList with
    | nil => rw [hd] at hl; simp at hl; omega
    | cons x t =>
      rw [hd] at c a
      have hst : VecDeque.step .popFront d = .ok (d1, .opt (some x)) := by simp [VecDeque.step, a]
      simp only [List.replicate_succ, Spec.runOps, hst, Go.toOption_ok, a2, c, List.tail_cons, List.map_cons]

theorem append_capacity (d o : VecDeque α) (h : d.Inv) (ho : o.Inv) (hroom : d.capacity + o.len < 2 ^ 63) :
    ∃ d', VecDeque.step (.append o) d = .ok (d', .other []) ∧ d'.Inv ∧ d'.toList = d.toList ++ o.toList ∧
      d'.capacity = d.capacity + o.len := by
  simp only [capacity] at hroom ⊢
  have := h.len_le
  have hl := toList_length h
  obtain ⟨d1, a1, b1, c1, e1⟩ := reserve_eq h o.len (by omega)
  have hl1 := toList_length b1
  rw [c1] at hl1
  obtain ⟨d2, a2, b2, c2, e2⟩ := appendLoop_eq ho o.len 0 (by omega) b1 (by omega)
  refine ⟨d2, ?_, b2, by rw [c2, c1]; simp, by rw [e2, e1]⟩
  simp only [VecDeque.step, VecDeque.append, a1, a2, Go.bind_ok]
  rfl

/-- C159 is violated by Append.  A program takes over batches of `n` elements into an empty deque and pops
everything before the next batch: the deque never holds more than `n` elements, yet after `k` rounds its
capacity is the initial one plus `k * n`.  And if it goes on, the first Append for which that reaches 2^63
panics, although the deque is empty. -/
theorem C159_append_fails (d o : VecDeque α) (h : d.Inv) (h0 : d.toList = []) (ho : o.Inv) (k : Nat)
    (hk : d.capacity + k * o.len < 2 ^ 63) :
    ∃ d', (Spec.runOps (fun o d => Go.toOption (VecDeque.step o d))
        (List.replicate k (batchRound o)).flatten d).2 = some d' ∧
      Spec.peak (List.replicate k (batchRound o)).flatten d.toList ≤ o.toList.length ∧
      d'.toList = [] ∧ d'.capacity = d.capacity + k * o.len ∧
      (2 ^ 63 ≤ d'.capacity + o.len → VecDeque.step (.append o) d' = .error .makeLen) := by
  have hlo := toList_length ho
  have key : ∀ d : VecDeque α, d.Inv → d.toList = [] → d.capacity + k * o.len < 2 ^ 63 →
      ∃ d' rs, Spec.runOps (fun o d => Go.toOption (VecDeque.step o d))
        (List.replicate k (batchRound o)).flatten d = (rs, some d') ∧ d'.Inv ∧ d'.toList = [] ∧
        d'.capacity = d.capacity + k * o.len := by
    clear hk h0 h d
    induction k with
    | zero => exact fun d h h0 _ => ⟨d, [], rfl, h, h0, by omega⟩
    | succ k ih =>
      intro d h h0 hk
      rw [Nat.succ_mul] at hk ⊢
      obtain ⟨d1, a, b, c, e⟩ := append_capacity d o h ho (by omega)
      rw [h0, List.nil_append] at c
      have hl1 := toList_length b
      obtain ⟨d2, a2, b2, c2, e2⟩ := popAll o.len d1 b (by rw [c] at hl1; omega)
      obtain ⟨d3, rs, a3, b3, c3, e3⟩ := ih d2 b2 c2 (by omega)
      have hround : Spec.runOps (fun o d => Go.toOption (VecDeque.step o d)) (batchRound o) d =
          (.other [] :: d1.toList.map (fun v => Obs.opt (some v)), some d2) := by
        simp only [batchRound, Spec.runOps, a, Go.toOption_ok, a2]
      refine ⟨d3, (.other [] :: d1.toList.map (fun v => Obs.opt (some v))) ++ rs, ?_, b3, c3, by omega⟩
      rw [List.replicate_succ, List.flatten_cons, Spec.runOps_append _ _ _ _ _ _ hround, a3]
  have hpop : ∀ (n : Nat) (l : List α) (rest : List (DequeOp α)), l.length = n → n ≤ o.toList.length →
      Spec.peak rest ([] : List α) ≤ o.toList.length →
      Spec.peak (List.replicate n .popFront ++ rest) l ≤ o.toList.length := by
    intro n
    induction n with
    | zero =>
      intro l rest hn _ hr
      rw [List.length_eq_zero_iff.mp hn]
      exact hr
    | succ n ih =>
      intro l rest hn hle hr
      have := ih l.tail rest (by simp; omega) (by omega) hr
      simp only [List.replicate_succ, List.cons_append, Spec.peak, Spec.dequeStep]
      omega
  have hpeak : Spec.peak (List.replicate k (batchRound o)).flatten ([] : List α) ≤ o.toList.length := by
    clear hk key
    induction k with
    | zero => simp [Spec.peak]
    | succ k ih =>
      rw [List.replicate_succ, List.flatten_cons, batchRound, List.cons_append]
      have := hpop o.len o.toList (List.replicate k (batchRound o)).flatten hlo (by omega) ih
      simp only [Spec.peak, Spec.dequeStep, List.nil_append, List.length_nil]
      exact Nat.max_le.mpr ⟨Nat.zero_le _, this⟩
  obtain ⟨d', rs, a, b, c, e⟩ := key d h h0 hk
  refine ⟨d', by rw [a], by rw [h0]; exact hpeak, c, e, fun hbig => ?_⟩
  have h2 := b.small
  have h2o := ho.small
  have hlo' := ho.len_le
  simp only [capacity] at hbig
  simp only [VecDeque.step, VecDeque.append, VecDeque.reserve, capacity, remake, makeLen]
  have u : usize (d'.buffer.length + o.len) = d'.buffer.length + o.len := by unfold usize; omega
  rw [u, if_pos (by omega), if_neg (by omega)]
  rfl

/-- Making sure of room for one more element before each push. -/
def carefulPush (v : α) : List (DequeOp α) := [.reserve 1, .pushBack v]

/-- C159 is violated by Reserve: a program that calls Reserve(1) before each push makes a new buffer for
every element, so that `n` pushes cost `n * Capacity + (1 + ... + n)` slots instead of a multiple of `n`,
even if the deque had room for all of them. -/
theorem C159_reserve_fails (vs : List α) (d : VecDeque α) (h : d.Inv)
    (hroom : d.capacity + vs.length < 2 ^ 63) :
    ∃ d' rs, Spec.runOps (fun o d => Go.toOption (VecDeque.step o d)) (vs.map carefulPush).flatten d =
        (rs, some d') ∧ d'.toList = d.toList ++ vs ∧ d'.capacity = d.capacity + vs.length ∧
      2 * Spec.allocated (vs.map carefulPush).flatten d =
        vs.length * (2 * d.capacity + vs.length + 1) := by
  induction vs generalizing d with
  | nil => exact ⟨d, [], rfl, by simp, by simp, by simp [Spec.allocated]⟩
  | cons v vs ih =>
    simp only [List.length_cons] at hroom ⊢
    have hle := h.len_le
    have hl := toList_length h
    simp only [capacity] at hroom
    obtain ⟨d1, a1, b1, c1, e1⟩ := reserve_eq h 1 (by omega)
    have hl1 := toList_length b1
    rw [c1] at hl1
    obtain ⟨d2, a2, b2, c2, e2⟩ := pushBack_eq b1 (by omega) v
    rw [if_neg (by omega)] at e2
    obtain ⟨d', rs, a, b, c, e⟩ := ih d2 b2 (by simp only [capacity]; omega)
    have s1 : VecDeque.step (.reserve 1) d = .ok (d1, .unit) := by simp [VecDeque.step, a1]
    have s2 : VecDeque.step (.pushBack v) d1 = .ok (d2, .unit) := by simp [VecDeque.step, a2]
    refine ⟨d', .unit :: .unit :: rs, ?_, by rw [b, c2, c1]; simp, by simp only [capacity] at c ⊢; omega, ?_⟩
    · simp only [List.map_cons, List.flatten_cons, carefulPush, List.cons_append, List.nil_append, Spec.runOps,
        s1, s2, Go.toOption_ok, a]
    · simp only [List.map_cons, List.flatten_cons, carefulPush, List.cons_append, List.nil_append,
        Spec.allocated, s1, s2, DequeOp.isClear, Bool.false_or, decide_eq_true_eq, capacity]
      rw [if_pos (by omega), if_neg (by omega)]
      simp only [capacity] at e
      rw [e2, e1] at e
      rw [e1, Nat.zero_add, Nat.mul_add, e]
      simp only [Nat.mul_add, Nat.add_mul]
      omega

/-! Examples: a deque that grew twice while being drained; batches; careful pushes. -/
example : Spec.peak [.pushBack 4, .popFront, .pushBack 5, .pushFront 6] exDeque.toList = 5 ∧
    Spec.allocated [.pushBack 4, .popFront, .pushBack 5, .pushFront 6, .clear] exDeque = 15 := by decide
example : (Spec.runOps (fun o d => Go.toOption (VecDeque.step o d))
    (List.replicate 5 (batchRound exDeque)).flatten (⟨[0, 0, 0, 0, 0, 0, 0], 0, 0⟩ : VecDeque Nat)).2.map
      (fun d => (d.len, d.capacity)) = some (0, 22) := by decide
example : Spec.allocated ([1, 2, 3].map carefulPush).flatten (⟨[0, 0, 0, 0, 0, 0, 0], 0, 0⟩ : VecDeque Nat) = 27 := by
  decide

end Gost
