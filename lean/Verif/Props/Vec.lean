import Verif.Model.Vec
import Verif.Spec.List
import Verif.Spec.Order
/-
Properties C45 - C50: the vector as a list.
-/
namespace Gost
open Spec

variable {σ α κ : Type}

/-! ### C45 -/

/-- The operations of C45. -/
inductive VecOp (α : Type) where
  | push (v : α) | pop | append (other : Vec α) | clear | insert (i : Nat) (v : α)
  | set (i : Nat) (v : α) | setUnchecked (i : Nat) (v : α) | swap (i j : Nat)
  | get (i : Nat) | getUnchecked (i : Nat) | len | isEmpty

/-- What an operation returns. -/
inductive Obs (α : Type) where
  | unit | opt (o : Option α) | val (v : α) | nat (n : Nat) | bool (b : Bool) | other (l : List α)
  deriving DecidableEq

/-- Specification: the effect of an operation on a mathematical list; `none` where the operation is
outside its domain and has to panic. -/
def Spec.vecStep : VecOp α → List α → Option (List α × Obs α)
  | .push v, l => some (l ++ [v], .unit)
  | .pop, l => some (l.dropLast, .opt l.getLast?)
  | .append o, l => some (l ++ o.data, .other [])
  | .clear, _ => some ([], .unit)
  | .insert i v, l => if i ≤ l.length then some (insertAt l i v, .unit) else none
  | .set i v, l => if i < l.length then some (l.set i v, .opt none) else none
  | .setUnchecked i v, l => if i < l.length then some (l.set i v, .unit) else none
  | .swap i j, l => (swapAt l i j).map (·, .unit)
  | .get i, l => some (l, .opt l[i]?)
  | .getUnchecked i, l => l[i]?.map fun v => (l, .val v)
  | .len, l => some (l, .nat l.length)
  | .isEmpty, l => some (l, .bool l.isEmpty)

/-- The library's implementation of the operations. -/
def Vec.step (g : Growth) : VecOp α → Vec α → Go (Vec α × Obs α)
  | .push v, s => .ok (s.push g v, .unit)
  | .pop, s => do let (s, r) ← s.pop; .ok (s, .opt r.value)
  | .append o, s => let (s, o) := s.append g o; .ok (s, .other o.data)
  | .clear, s => .ok (s.clear, .unit)
  | .insert i v, s => do let s ← s.insert g i v; .ok (s, .unit)
  | .set i v, s => do let (s, r) ← s.set i v; .ok (s, .opt r.value)
  | .setUnchecked i v, s => do let s ← s.setUnchecked i v; .ok (s, .unit)
  | .swap i j, s => do let s ← s.swap i j; .ok (s, .unit)
  | .get i, s => do let r ← s.get i; .ok (s, .opt r.value)
  | .getUnchecked i, s => do let v ← s.getUnchecked i; .ok (s, .val v)
  | .len, s => .ok (s, .nat s.len)
  | .isEmpty, s => .ok (s, .bool s.isEmpty)

/-- Run a history; stop at the first panic. -/
def Spec.runOps {S O R : Type} (step : O → S → Option (S × R)) : List O → S → List R × Option S
  | [], s => ([], some s)
  | o :: os, s => match step o s with
    | none => ([], none)
    | some (s', r) => let (rs, e) := runOps step os s'; (r :: rs, e)

/-- Forget which panic it was. -/
def Go.toOption (x : Go β) : Option β := match x with | .ok b => some b | .error _ => none
@[simp] theorem Go.toOption_ok (b : β) : Go.toOption (.ok b) = some b := rfl
@[simp] theorem Go.toOption_error (e : Panic) : Go.toOption (.error e : Go β) = none := rfl

theorem Vec.goAppend_data (g : Growth) (v : Vec α) (xs : List α) : (v.goAppend g xs).data = v.data ++ xs :=
  rfl

theorem copyWithin_insert (l : List α) (v : α) (i : Nat) (h : i ≤ l.length) :
    copyWithin (l ++ [v]) (i + 1) i = .ok ((l ++ [v]).take (i + 1) ++ l.drop i) := by
  unfold copyWithin
  have h1 : (decide (i + 1 ≤ (l ++ [v]).length) && decide (i ≤ (l ++ [v]).length)) = true := by
    simp; omega
  rw [if_pos h1]
  have h2 : min ((l ++ [v]).length - (i + 1)) ((l ++ [v]).length - i) = l.length - i := by
    simp; omega
  simp only [h2]
  have h3 : (l ++ [v]).drop (i + 1 + (l.length - i)) = [] := by
    apply List.drop_of_length_le; simp; omega
  have h4 : ((l ++ [v]).drop i).take (l.length - i) = l.drop i := by
    rw [List.drop_append_of_le_length h, List.take_append_of_le_length (by simp)]
    apply List.take_of_length_le; simp
  rw [h3, h4, List.append_nil]

theorem Vec.insert_ok (g : Growth) (s : Vec α) (i : Nat) (v : α) (h : i ≤ s.data.length) :
    ∃ c, s.insert g i v = .ok ⟨insertAt s.data i v, c⟩ := by
  refine ⟨(s.goAppend g [v]).cap, ?_⟩
  unfold Vec.insert
  simp only [Vec.goAppend_data, copyWithin_insert _ _ _ h, Go.bind_ok]
  rw [setIndex_lt (by simp; omega)]
  simp only [Go.bind_ok, insertAt]
  congr 2
  have h5 : (s.data ++ [v]).take (i + 1) = s.data.take i ++ ((s.data.drop i ++ [v]).take 1) := by
    have e : s.data ++ [v] = s.data.take i ++ (s.data.drop i ++ [v]) := by
      rw [← List.append_assoc, List.take_append_drop]
    conv => lhs; rw [e]
    rw [List.take_append, List.length_take, Nat.min_eq_left h, List.take_of_length_le (by simp; omega)]
    congr 2; omega
  rw [h5, List.append_assoc, List.set_append_right _ _ (by simp; omega)]
  have h6 : i - (s.data.take i).length = 0 := by simp; omega
  rw [h6]
  cases hd : s.data.drop i with
  | nil => simp
  | cons x xs => simp

theorem Vec.insert_panic (g : Growth) (s : Vec α) (i : Nat) (v : α) (h : s.data.length < i) :
    s.insert g i v = .error .sliceBounds := by
  unfold Vec.insert
  have : copyWithin (s.goAppend g [v]).data (i + 1) i = .error .sliceBounds := by
    unfold copyWithin
    rw [if_neg]
    simp [Vec.goAppend_data]; omega
  simp only [this, Go.bind_error]

theorem Vec.swapData_spec (l : List α) (i j : Nat) :
    Go.toOption (Vec.swapData l i j) = swapAt l i j := by
  unfold Vec.swapData swapAt
  by_cases hj : j < l.length
  · by_cases hi : i < l.length
    · simp [index_lt hj, index_lt hi, setIndex_lt hi, setIndex_lt (l := l.set i l[j]) (i := j) (by simpa using hj)]
      simp [hi, hj]
    · have hi : l.length ≤ i := by omega
      simp [index_lt hj, index_ge hi, hi]
  · have hj : l.length ≤ j := by omega
    simp [index_ge hj, hj]

/-- One step of the vector refines one step of the list. -/
theorem Vec.step_refines (g : Growth) (o : VecOp α) (s : Vec α) :
    (Go.toOption (s.step g o)).map (fun r => (r.1.data, r.2)) = Spec.vecStep o s.data := by
  cases o with
  | push v => rfl
  | pop =>
    simp only [Vec.step, Vec.pop, Spec.vecStep]
    rcases List.eq_nil_or_concat s.data with h | ⟨l, v, h⟩
    · simp [h, Opt.none]
    · simp [h, index, Opt.some]
  | append o => rfl
  | clear => rfl
  | insert i v =>
    simp only [Vec.step, Spec.vecStep]
    split
    · next h =>
      obtain ⟨c, hc⟩ := Vec.insert_ok g s i v h
      simp [hc]
    · next h => simp [Vec.insert_panic g s i v (by omega)]
  | set i v =>
    simp only [Vec.step, Vec.set, Spec.vecStep, Vec.len]
    by_cases h : i < s.data.length
    · rw [if_neg (by omega)]
      simp [setIndex_lt h, h, Opt.none]
    · rw [if_pos (by omega)]
      simp [index_ge (Nat.le_of_not_lt h), h]
  | setUnchecked i v =>
    simp only [Vec.step, Vec.setUnchecked, Spec.vecStep]
    by_cases h : i < s.data.length
    · simp [setIndex_lt h, h]
    · simp [setIndex_ge (Nat.le_of_not_lt h), h]
  | swap i j =>
    simp only [Vec.step, Vec.swap, Spec.vecStep, ← Vec.swapData_spec]
    cases Vec.swapData s.data i j <;> rfl
  | get i =>
    simp only [Vec.step, Vec.get, Spec.vecStep, Vec.len]
    by_cases h : i < s.data.length
    · rw [if_neg (by omega)]
      simp [index_lt h, Opt.some]
    · rw [if_pos (by omega)]
      simp [Opt.none]; omega
  | getUnchecked i =>
    simp only [Vec.step, Vec.getUnchecked, Spec.vecStep]
    by_cases h : i < s.data.length
    · simp [index_lt h, h]
    · simp [index_ge (Nat.le_of_not_lt h), h]
  | len => rfl
  | isEmpty =>
    simp only [Vec.step, Spec.vecStep, Vec.isEmpty, Vec.len]
    cases h : s.data <;> simp [h]

theorem Spec.runOps_refines {S T O R : Type} (f : S → T) (stepS : O → S → Option (S × R))
    (stepT : O → T → Option (T × R))
    (h : ∀ o s, (stepS o s).map (fun r => (f r.1, r.2)) = stepT o (f s)) (os : List O) (s : S) :
    ((Spec.runOps stepS os s).1, (Spec.runOps stepS os s).2.map f) = Spec.runOps stepT os (f s) := by
  induction os generalizing s with
  | nil => rfl
  | cons o os ih =>
    simp only [Spec.runOps, ← h]
    cases stepS o s with
    | none => rfl
    | some r =>
      obtain ⟨s', r⟩ := r
      simp only [Option.map_some, ← ih]

/-- C45: for every growth policy and every history of operations on a vector, the results and the final
contents are those of a mathematical list, and the history panics exactly where the list operation is
outside its domain (Set is included for indices in range only; out of range see C47). -/
theorem C45_vec_history (g : Growth) (ops : List (VecOp α)) (s : Vec α) :
    ((Spec.runOps (fun o s => Go.toOption (Vec.step g o s)) ops s).1,
      (Spec.runOps (fun o s => Go.toOption (Vec.step g o s)) ops s).2.map (·.data)) =
    Spec.runOps Spec.vecStep ops s.data :=
  Spec.runOps_refines (·.data) _ _ (fun o s => Vec.step_refines g o s) ops s

/-- The capacity is at least the length. -/
def Vec.CapOk (v : Vec α) : Prop := v.data.length ≤ v.cap

theorem Vec.goAppend_capOk (g : Growth) (v : Vec α) (xs : List α) : (v.goAppend g xs).CapOk := by
  unfold Vec.CapOk Vec.goAppend
  simp only [List.length_append]
  split
  · assumption
  · exact g.enough _ _

/-- C45: the capacity reported by Capacity is never below the length, after every operation; the
constructors give the documented lengths and capacities. -/
theorem C45_vec_capacity (g : Growth) (o : VecOp α) (s s' : Vec α) (r : Obs α) (h : s.CapOk)
    (hs : s.step g o = .ok (s', r)) : s'.CapOk ∧ (Vec.new : Vec α).CapOk ∧
    (∀ n, n < 2 ^ 63 → ∃ v : Vec α, Vec.withCapacity n = .ok v ∧ v.data = [] ∧ v.capacity = n) ∧
    (∀ n, 2 ^ 63 ≤ n → (Vec.withCapacity n : Go (Vec α)) = .error .makeLen) := by
  refine ⟨?_, Nat.le_refl _, ?_, ?_⟩
  · cases o with
    | push v => cases hs; exact Vec.goAppend_capOk _ _ _
    | pop =>
      simp only [Vec.step, Vec.pop] at hs
      split at hs
      · cases hs; exact h
      · simp only [index] at hs
        split at hs
        · cases hs; simp [Vec.CapOk] at h ⊢; omega
        · cases hs
    | append o => cases hs; exact Vec.goAppend_capOk _ _ _
    | clear => cases hs; exact Nat.le_refl _
    | insert i v =>
      rcases Nat.lt_or_ge s.data.length i with hi | hi
      · simp [Vec.step, Vec.insert_panic g s i v hi] at hs
      · unfold Vec.step Vec.insert at hs
        simp only [Vec.goAppend_data, copyWithin_insert _ _ _ hi, Go.bind_ok] at hs
        rw [setIndex_lt (by simp; omega)] at hs
        cases hs
        have := Vec.goAppend_capOk g s [v]
        simp [Vec.CapOk, Vec.goAppend_data] at this ⊢
        omega
    | set i v =>
      simp only [Vec.step, Vec.set, Vec.len] at hs
      by_cases hi : i < s.data.length
      · rw [if_neg (by omega), setIndex_lt hi] at hs; cases hs; simpa [Vec.CapOk] using h
      · rw [if_pos (by omega)] at hs
        simp [index_ge (Nat.le_of_not_lt hi)] at hs
    | setUnchecked i v =>
      simp only [Vec.step, Vec.setUnchecked, setIndex] at hs
      split at hs <;> cases hs
      simpa [Vec.CapOk] using h
    | swap i j =>
      simp only [Vec.step, Vec.swap] at hs
      have := Vec.swapData_spec s.data i j
      cases he : Vec.swapData s.data i j with
      | error e => simp [he] at hs
      | ok d =>
        rw [he] at hs this
        cases hs
        simp only [Go.toOption_ok, swapAt] at this
        split at this <;> cases this
        simpa [Vec.CapOk] using h
    | get i =>
      simp only [Vec.step] at hs
      cases hg : s.get i <;> rw [hg] at hs <;> cases hs
      exact h
    | getUnchecked i =>
      simp only [Vec.step] at hs
      cases hg : s.getUnchecked i <;> rw [hg] at hs <;> cases hs
      exact h
    | len => cases hs; exact h
    | isEmpty => cases hs; exact h
  · intro n hn; exact ⟨⟨[], n⟩, by simp [Vec.withCapacity, makeLen, hn], rfl, rfl⟩
  · intro n hn
    have : ¬ n < 2 ^ 63 := by omega
    simp [Vec.withCapacity, makeLen, this]

/-- A doubling growth policy exists. -/
def doubling : Growth := ⟨fun c n => max (2 * c) n, fun _ _ => by omega⟩

/-- A history with every operation, ending in the panic of an unchecked access. -/
example : (Spec.runOps (fun o s => Go.toOption (Vec.step doubling o s))
    [.push 1, .push 2, .insert 1 7, .swap 0 2, .append ⟨[8, 9], 5⟩, .pop, .set 0 4, .get 9, .len,
      .getUnchecked 3]
    (Vec.new : Vec Nat)).2 = some ⟨[4, 7, 1, 8], 8⟩ ∧
    (Vec.step doubling (.getUnchecked 4) (⟨[4, 7, 1, 8], 8⟩ : Vec Nat)).toOption.isNone := by
  decide

/-! ### C46 -/

/-- C46, full property: after Reserve(n) the contents are unchanged and Capacity ≥ Len + n.  Proved: it
holds exactly if the capacity was sufficient already.  Missing: every other call (see `C46_reserve_fails`). -/
theorem C46_reserve_partial [Inhabited α] (g : Growth) (v : Vec α) (h : v.CapOk) (hc : v.cap < 2 ^ 63)
    (n : Nat) (hn : n < 2 ^ 64) :
    (∃ v', v.reserve g n = .ok v' ∧ v'.data = v.data ∧ v'.len + n ≤ v'.capacity) ↔
      v.len + n ≤ v.capacity := by
  have hmod : usize (v.len + n) = if v.len + n < 2 ^ 64 then v.len + n else v.len + n - 2 ^ 64 := by
    unfold Vec.CapOk at h
    unfold usize Vec.len
    split <;> omega
  unfold Vec.CapOk at h
  constructor
  · rintro ⟨v', hr, hd, hcap⟩
    unfold Vec.reserve at hr
    split at hr
    · unfold makeLen at hr
      split at hr
      · cases hr
        have := congrArg List.length hd
        simp only [Vec.goAppend_data, List.length_append, List.length_replicate] at this
        have : n = 0 := by omega
        subst this
        simpa [Vec.len, Vec.capacity] using h
      · cases hr
    · cases hr; exact hcap
  · intro hs
    refine ⟨v, ?_, rfl, hs⟩
    unfold Vec.reserve
    rw [if_neg]
    rw [hmod]
    unfold Vec.capacity at *
    split <;> omega

/-- C46 is violated by every Reserve that has to grow the vector: it appends `n` zero values to the
contents (as long as Len + n does not overflow), and if Len + n overflows the request is silently
ignored. -/
theorem C46_reserve_fails [Inhabited α] (g : Growth) (v : Vec α) (h : v.CapOk) (hc : v.cap < 2 ^ 63)
    (n : Nat) (hgrow : v.capacity < v.len + n) :
    (n < 2 ^ 63 → ∃ v', v.reserve g n = .ok v' ∧ v'.data = v.data ++ List.replicate n default ∧
      v'.data ≠ v.data) ∧
    (2 ^ 64 ≤ v.len + n → n < 2 ^ 64 → v.reserve g n = .ok v) := by
  unfold Vec.CapOk at h
  have h0 : 0 < n := by unfold Vec.capacity Vec.len at hgrow; omega
  constructor
  · intro hn
    refine ⟨_, by
      unfold Vec.reserve
      rw [if_pos (by unfold usize; unfold Vec.capacity Vec.len at *; omega)]
      unfold makeLen
      rw [if_pos hn]
      rfl, rfl, ?_⟩
    intro hd
    have := congrArg List.length hd
    simp [Vec.goAppend_data] at this
    omega
  · intro hn hn'
    unfold Vec.reserve
    rw [if_neg]
    unfold usize Vec.capacity Vec.len at *
    omega

example : (⟨[5], 1⟩ : Vec Nat).reserve doubling 2 = .ok ⟨[5, 0, 0], 3⟩ ∧
    (⟨[5], 4⟩ : Vec Nat).reserve doubling 2 = .ok ⟨[5], 4⟩ ∧
    (⟨[5], 4⟩ : Vec Nat).reserve doubling (2 ^ 64 - 1) = .ok ⟨[5], 4⟩ := by decide

/-! ### C47 -/

/-- C47, full property: Set out of range does not panic and changes nothing.  Proved: Set in range
stores the value, returns None and changes nothing else.  Missing: out of range, see
`C47_set_fails`. -/
theorem C47_set_partial (v : Vec α) (i : Nat) (x : α) (h : i < v.len) :
    ∃ v', v.set i x = .ok (v', Opt.none) ∧ v'.len = v.len ∧ v'.data[i]? = some x ∧
      ∀ j, j ≠ i → v'.data[j]? = v.data[j]? := by
  unfold Vec.len at h
  refine ⟨⟨v.data.set i x, v.cap⟩, ?_, by simp [Vec.len], by simp [h], ?_⟩
  · unfold Vec.set Vec.len
    rw [if_neg (by omega), setIndex_lt h]; rfl
  · intro j hj
    simp [Ne.symm hj]

/-- C47 is violated by every out-of-range call: it panics. -/
theorem C47_set_fails (v : Vec α) (i : Nat) (x : α) (h : v.len ≤ i) :
    v.set i x = .error .indexOutOfRange := by
  unfold Vec.set
  rw [if_pos h, index_ge h]; rfl

example : (⟨[5, 6], 2⟩ : Vec Nat).set 1 9 = .ok (⟨[5, 9], 2⟩, Opt.none) ∧
    (⟨[5, 6], 2⟩ : Vec Nat).set 2 9 = .error .indexOutOfRange := by decide

/-! ### C48 -/

theorem Vec.retainLoop_eq (g : Growth) (p : α → Eff σ Bool) (l : List α) (acc : Vec α)
    (h : acc.data.length + l.length ≤ acc.cap) :
    Vec.retainLoop g p l acc = mapE p l >>= fun bs => pure ⟨acc.data ++ select l bs, acc.cap⟩ := by
  induction l generalizing acc with
  | nil => simp [Vec.retainLoop, mapE]
  | cons a l ih =>
    simp only [List.length_cons] at h
    simp only [Vec.retainLoop, mapE, LawfulMonad.bind_assoc, Eff.pure_bind]
    congr 1
    funext b
    cases b with
    | true =>
      simp only [if_true]
      rw [ih]
      · simp only [Vec.goAppend_data, select_cons, if_true, List.append_assoc, List.singleton_append]
        have : (acc.goAppend g [a]).cap = acc.cap := by
          simp [Vec.goAppend]; intro; omega
        rw [this]
      · simp [Vec.goAppend]; split <;> omega
    | false =>
      simp only [Bool.false_eq_true, if_false, select_cons]
      exact ih acc (by omega)

theorem Vec.fillLoop_eq (x : α) (n i : Nat) (l : List α) (h : i + n = l.length) :
    Vec.fillLoop x n i l = .ok (l.take i ++ List.replicate n x) := by
  induction n generalizing i l with
  | zero =>
    have : l.take i = l := List.take_of_length_le (by omega)
    simp [Vec.fillLoop, this]
  | succ n ih =>
    simp only [Vec.fillLoop]
    rw [setIndex_lt (by omega)]
    simp only [Go.bind_ok]
    rw [ih (i + 1) _ (by simp; omega)]
    congr 1
    rw [List.take_add_one]
    have : i < l.length := by omega
    simp [List.replicate_succ, List.take_set_of_le, this]

theorem Vec.fillWithLoop_eq (f : Eff σ α) (m l : List α) (i : Nat) (h : i + m.length = l.length) :
    Vec.fillWithLoop f m.length i l = mapE (fun _ => f) m >>= fun xs => pure (l.take i ++ xs) := by
  induction m generalizing i l with
  | nil =>
    simp at h
    simp [Vec.fillWithLoop, mapE, h]
  | cons a m ih =>
    simp only [List.length_cons] at h
    simp only [List.length_cons, Vec.fillWithLoop, mapE, LawfulMonad.bind_assoc, Eff.pure_bind]
    congr 1
    funext x
    rw [setIndex_lt (by omega)]
    simp only [Eff.lift_ok, Eff.pure_bind]
    rw [ih _ _ (by simp; omega)]
    congr 1
    funext xs
    congr 1
    rw [List.take_add_one]
    have : i < l.length := by omega
    simp [this, List.take_set_of_le]

theorem Vec.reverseLoop_eq (n i : Nat) (l : List α) (h : i + n = l.length / 2) :
    ∃ l', Vec.reverseLoop n i l = .ok l' ∧ l'.length = l.length ∧ ∀ k, k < l.length →
      l'[k]? = if i ≤ k ∧ k < l.length - i then l[l.length - 1 - k]? else l[k]? := by
  induction n generalizing i l with
  | zero =>
    refine ⟨l, rfl, rfl, fun k hk => ?_⟩
    split
    · next hb =>
      have : l.length - 1 - k = k := by omega
      rw [this]
    · rfl
  | succ n ih =>
    have hi : i < l.length := by omega
    have hj : l.length - 1 - i < l.length := by omega
    have hs : Vec.swapData l i (l.length - 1 - i) =
        .ok ((l.set i l[l.length - 1 - i]).set (l.length - 1 - i) l[i]) := by
      unfold Vec.swapData
      rw [index_lt hj, index_lt hi]
      simp only [Go.bind_ok]
      rw [setIndex_lt hi]
      simp only [Go.bind_ok]
      rw [setIndex_lt (by simpa using hj)]
    simp only [Vec.reverseLoop, hs, Go.bind_ok]
    obtain ⟨l', h1, h2, h3⟩ := ih (i + 1)
      ((l.set i l[l.length - 1 - i]).set (l.length - 1 - i) l[i]) (by simp; omega)
    simp only [List.length_set] at h2 h3
    refine ⟨l', by simpa using h1, h2, fun k hk => ?_⟩
    rw [h3 k hk]
    simp only [List.getElem?_set, List.length_set]
    by_cases hk1 : k = i
    · subst hk1
      have n1 : ¬ (k + 1 ≤ k ∧ k < l.length - (k + 1)) := by omega
      have n2 : k ≤ k ∧ k < l.length - k := by omega
      have n3 : ¬ l.length - 1 - k = k := by omega
      rw [if_neg n1, if_pos n2]
      simp [hi, hj, n3]
    · by_cases hk2 : k = l.length - 1 - i
      · subst hk2
        have e : l.length - 1 - (l.length - 1 - i) = i := by omega
        have n1 : ¬ (i + 1 ≤ l.length - 1 - i ∧ l.length - 1 - i < l.length - (i + 1)) := by omega
        have n2 : i ≤ l.length - 1 - i ∧ l.length - 1 - i < l.length - i := by omega
        simp [n1, n2, e, hi, hj]
      · by_cases hb : i + 1 ≤ k ∧ k < l.length - (i + 1)
        · have n2 : i ≤ k ∧ k < l.length - i := by omega
          have n3 : ¬ l.length - 1 - i = l.length - 1 - k := by omega
          have n4 : ¬ i = l.length - 1 - k := by omega
          simp [hb, n2, n3, n4]
        · have n2 : ¬ (i ≤ k ∧ k < l.length - i) := by omega
          have n3 : ¬ l.length - 1 - i = k := by omega
          have n4 : ¬ i = k := by omega
          simp [hb, n2, n3, n4]

/-- C48: Retain calls the predicate once per element, in order, and keeps exactly the accepted
elements; FillWith calls its function once per element and stores the results in order; a panic of the
callback is passed on. -/
theorem C48_retain_fillWith (g : Growth) (v : Vec α) (p : α → Eff σ Bool) (f : Eff σ α) :
    v.retain g p = (mapE p v.data >>= fun bs => pure ⟨select v.data bs, v.len⟩) ∧
    v.fillWith f = (mapE (fun _ => f) v.data >>= fun xs => pure ⟨xs, v.cap⟩) := by
  constructor
  · unfold Vec.retain
    rw [Vec.retainLoop_eq _ _ _ _ (by simp)]; rfl
  · unfold Vec.fillWith
    rw [Vec.fillWithLoop_eq f v.data v.data 0 (by simp)]
    simp

/-- C48 for callbacks without effects: Retain is filter, Fill and FillWith set every element, Reverse
reverses; none of them panics. -/
theorem C48_retain_fill_reverse (g : Growth) (v : Vec α) (p : α → Bool) (x : α) (s : σ) :
    v.retain g (fun a => pure (p a)) s = (.ok ⟨v.data.filter p, v.len⟩, s) ∧
    v.fill x = .ok ⟨List.replicate v.len x, v.cap⟩ ∧
    v.fillWith (pure x) s = (.ok ⟨List.replicate v.len x, v.cap⟩, s) ∧
    v.reverse = .ok ⟨v.data.reverse, v.cap⟩ := by
  refine ⟨?_, ?_, ?_, ?_⟩
  · rw [(C48_retain_fillWith g v (fun a => (pure (p a) : Eff σ Bool)) (pure x)).1]
    simp [select_map]
  · unfold Vec.fill
    rw [Vec.fillLoop_eq _ _ _ _ (by simp)]; simp [Vec.len]
  · rw [(C48_retain_fillWith g v (fun a => (pure (p a) : Eff σ Bool)) (pure x)).2]
    simp [Vec.len, List.map_const']
  · unfold Vec.reverse
    obtain ⟨l', h1, h2, h3⟩ := Vec.reverseLoop_eq (v.data.length / 2) 0 v.data (by simp)
    rw [h1]
    simp only [Go.bind_ok]
    congr 2
    apply List.ext_getElem?
    intro k
    by_cases hk : k < v.data.length
    · rw [h3 k hk, if_pos (by omega), List.getElem?_reverse hk]
    · rw [List.getElem?_eq_none (by omega), List.getElem?_eq_none (by simp; omega)]

/-- A predicate that counts its calls and panics on 0. -/
example :
    let p : Nat → Eff Nat Bool := fun a n => (if a = 0 then .error .explicit else .ok (a % 2 == 1), n + 1)
    ((⟨[1, 2, 3], 7⟩ : Vec Nat).retain doubling p 0 = (.ok ⟨[1, 3], 3⟩, 3)) ∧
    ((⟨[1, 0, 3], 7⟩ : Vec Nat).retain doubling p 0 = (.error .explicit, 2)) ∧
    (⟨[1, 2, 3, 4, 5], 7⟩ : Vec Nat).reverse = .ok ⟨[5, 4, 3, 2, 1], 7⟩ := by decide

/-! ### C49, C50 -/

theorem runHeads.go_congr (eq : α → α → Bool) (he : Spec.PEquiv eq) (a b : α) (h : eq a b = true)
    (l : List α) : runHeads.go eq a l = runHeads.go eq b l := by
  cases l with
  | nil => rfl
  | cons c l =>
    have : eq a c = eq b c := by
      rw [Bool.eq_iff_iff]
      exact ⟨fun h' => he.trans _ _ _ (he.symm _ _ h) h', fun h' => he.trans _ _ _ h h'⟩
    simp only [runHeads.go, this]

theorem Vec.dedupLoop_eq (deq : α → α → Bool) (he : Spec.PEquiv deq) (n i prev : Nat) (l : List α)
    (a : α) (hi : i + n = l.length) (hp : prev < i) (ha : l[prev]? = some a) :
    ∃ prev' l', Vec.dedupLoop deq n i prev l = .ok (prev', l') ∧
      l'.take (prev' + 1) = l.take (prev + 1) ++ runHeads.go deq a (l.drop i) := by
  induction n generalizing i prev l a with
  | zero =>
    refine ⟨prev, l, rfl, ?_⟩
    have : l.drop i = [] := List.drop_of_length_le (by omega)
    simp [this, runHeads.go]
  | succ n ih =>
    have hil : i < l.length := by omega
    have hpl : prev < l.length := by omega
    have hae : l[prev] = a := by
      rw [List.getElem?_eq_getElem hpl] at ha; exact Option.some.inj ha
    have hdrop : l.drop i = l[i] :: l.drop (i + 1) := List.drop_eq_getElem_cons hil
    simp only [Vec.dedupLoop, index_lt hpl, index_lt hil, Go.bind_ok, hae]
    by_cases hd : deq a l[i] = true
    · simp only [hd, Bool.not_true, Bool.false_eq_true, if_false]
      obtain ⟨p', l', h1, h2⟩ := ih (i + 1) prev l a (by omega) (by omega) ha
      refine ⟨p', l', h1, ?_⟩
      rw [h2, hdrop, runHeads.go, if_pos hd, runHeads.go_congr deq he _ _ hd]
    · have hd' : deq a l[i] = false := by simpa using hd
      simp only [hd', Bool.not_false, if_true]
      rw [setIndex_lt (by omega)]
      simp only [Go.bind_ok]
      obtain ⟨p', l', h1, h2⟩ := ih (i + 1) (prev + 1) (l.set (prev + 1) l[i]) l[i]
        (by simp; omega) (by omega) (by rw [List.getElem?_set]; simp; omega)
      refine ⟨p', l', h1, ?_⟩
      rw [h2, hdrop, runHeads.go, if_neg hd]
      have h5 : prev + 1 < l.length := by omega
      have e1 : (l.set (prev + 1) l[i]).drop (i + 1) = l.drop (i + 1) := by
        rw [List.drop_set_of_lt (by omega)]
      have e2 : (l.set (prev + 1) l[i]).take (prev + 1 + 1) = l.take (prev + 1) ++ [l[i]] := by
        rw [List.take_add_one, List.getElem?_set]
        simp [h5, List.take_set_of_le]
      rw [e1, e2]; simp

/-- C49: Dedup keeps exactly the first element of every run of equal elements, in order; it does not
panic.  `deepEqual` (reflect.DeepEqual) has to be symmetric and transitive on the element type;
it need not be reflexive (NaN). -/
theorem C49_vec_dedup (deepEqual : α → α → Bool) (he : Spec.PEquiv deepEqual) (v : Vec α) :
    v.dedup deepEqual = .ok ⟨runHeads deepEqual v.data, v.cap⟩ := by
  obtain ⟨data, cap⟩ := v
  unfold Vec.dedup
  match data with
  | [] => rfl
  | [a] => rfl
  | a :: b :: l =>
    rw [if_neg (by simp)]
    obtain ⟨p, l', h1, h2⟩ := Vec.dedupLoop_eq deepEqual he ((a :: b :: l).length - 1) 1 0 (a :: b :: l) a
      (by simp; omega) (by omega) rfl
    simp only [h1, Go.bind_ok, h2]
    rfl

example : (⟨[1, 1, 2, 1, 3, 3], 6⟩ : Vec Nat).dedup (· == ·) = .ok ⟨[1, 2, 1, 3], 6⟩ ∧
    Spec.Equiv (fun a b : Nat => a == b) :=
  ⟨by decide, by simp, fun _ _ h => by rw [beq_iff_eq] at *; exact h.symm, fun _ _ _ h h' => by simp_all⟩

/-- An equality that is not reflexive: `none` stands for NaN, of which Dedup keeps every one. -/
example : (⟨[none, none, some 1, some 1, none], 6⟩ : Vec (Option Nat)).dedup (fun a b => a.isSome && a == b) =
      .ok ⟨[none, none, some 1, none], 6⟩ ∧
    Spec.PEquiv (fun a b : Option Nat => a.isSome && a == b) :=
  ⟨by decide, fun a b h => by simp at h ⊢; obtain ⟨h1, rfl⟩ := h; exact ⟨h1, rfl⟩,
    fun a b c h h' => by simp at h h' ⊢; exact ⟨h.1, h.2.trans h'.2⟩⟩

/-- The first occurrences of every key (what DedupByKey computes). -/
def firstKeys (keq : κ → κ → Bool) (key : α → κ) : List κ → List α → List α
  | _, [] => []
  | seen, a :: l =>
    if seen.any (keq (key a)) then firstKeys keq key seen l
    else a :: firstKeys keq key (key a :: seen) l

theorem Vec.dedupByKeyLoop_eq (g : Growth) (keq : κ → κ → Bool) (key : α → κ) (l : List α)
    (seen : List κ) (acc : Vec α) (h : acc.data.length + l.length ≤ acc.cap) :
    Vec.dedupByKeyLoop g keq (fun a => (pure (key a) : Eff σ κ)) l seen acc =
      pure ⟨acc.data ++ firstKeys keq key seen l, acc.cap⟩ := by
  induction l generalizing seen acc with
  | nil => simp [Vec.dedupByKeyLoop, firstKeys]
  | cons a l ih =>
    simp only [List.length_cons] at h
    simp only [Vec.dedupByKeyLoop, Eff.pure_bind, firstKeys]
    cases seen.any (keq (key a)) with
    | true => simp only [Bool.not_true, Bool.false_eq_true, if_false, if_true]; exact ih _ _ (by omega)
    | false =>
      simp only [Bool.not_false, Bool.false_eq_true, if_false, if_true]
      rw [ih]
      · have : (acc.goAppend g [a]).cap = acc.cap := by simp [Vec.goAppend]; intro; omega
        rw [this]; simp [Vec.goAppend_data]
      · simp [Vec.goAppend]; split <;> omega

/-- The keys of the result of DedupByKey are pairwise different, so it can only be the list of run
heads if no key comes back after its run. -/
theorem firstKeys_runHeads (keq : κ → κ → Bool) (he : Spec.Equiv keq) (key : α → κ) (l : List α) (a : α)
    (seen : List κ) (hseen : ∃ k ∈ seen, keq (key a) k = true) :
    firstKeys keq key seen l = runHeads.go (fun x y => keq (key x) (key y)) a l ↔
      ∀ pre b post, l = pre ++ b :: post → (∃ k ∈ seen, keq (key b) k = true) ∨
        (∃ c ∈ pre, keq (key b) (key c) = true) →
        keq (key (pre.getLast?.getD a)) (key b) = true := by
  induction l generalizing a seen with
  | nil => simp [firstKeys, runHeads.go]
  | cons b l ih =>
    by_cases hb : ∃ k ∈ seen, keq (key b) k = true
    · -- the key of b was seen: the code drops b
      have hany : seen.any (keq (key b)) = true := by simpa using hb
      simp only [firstKeys, hany, if_true, runHeads.go]
      by_cases hab : keq (key a) (key b) = true
      · simp only [hab, if_true]
        rw [ih b seen hb]
        constructor
        · intro h pre c post hl hc
          cases pre with
          | nil =>
            simp only [List.nil_append, List.cons.injEq] at hl
            simpa [← hl.1] using hab
          | cons d pre =>
            simp only [List.cons_append, List.cons.injEq] at hl
            obtain ⟨rfl, hl⟩ := hl
            have := h pre c post hl (by
              rcases hc with hc | ⟨x, hx, hcx⟩
              · exact .inl hc
              · rcases List.mem_cons.1 hx with rfl | hx
                · obtain ⟨k, hk, hbk⟩ := hb
                  exact .inl ⟨k, hk, he.trans _ _ _ hcx hbk⟩
                · exact .inr ⟨x, hx, hcx⟩)
            rwa [List.getLast?_cons, Option.getD_some]
        · intro h pre c post hl hc
          have := h (b :: pre) c post (by simp [hl]) (by
            rcases hc with hc | ⟨x, hx, hcx⟩
            · exact .inl hc
            · exact .inr ⟨x, by simp [hx], hcx⟩)
          rwa [List.getLast?_cons, Option.getD_some] at this
      · -- b starts a new run with an old key: violation on both sides
        simp only [hab, Bool.false_eq_true, if_false]
        constructor
        · intro hEq
          exfalso
          -- count elements whose key equals key b
          have hnot : ∀ (l : List α) (seen : List κ), (∃ k ∈ seen, keq (key b) k = true) →
              ∀ x ∈ firstKeys keq key seen l, ¬ keq (key x) (key b) = true := by
            intro l
            induction l with
            | nil => intro seen _ x hx; simp [firstKeys] at hx
            | cons c l ihl =>
              intro seen hs x hx
              simp only [firstKeys] at hx
              split at hx
              · exact ihl seen hs x hx
              · next hc =>
                rcases List.mem_cons.1 hx with rfl | hx
                · intro hxb
                  obtain ⟨k, hk, hbk⟩ := hs
                  exact hc (by simpa using ⟨k, hk, he.trans _ _ _ hxb hbk⟩)
                · obtain ⟨k, hk, hbk⟩ := hs
                  exact ihl _ ⟨k, by simp [hk], hbk⟩ x hx
          have := hnot l seen hb b (by rw [hEq]; simp)
          exact this (he.refl _)
        · intro h
          have := h [] b l rfl (.inl hb)
          exact absurd this hab
    · -- a new key: the code keeps b
      have hany : seen.any (keq (key b)) = false := by
        rw [Bool.eq_false_iff]; simpa using hb
      have hab : ¬ keq (key a) (key b) = true := by
        intro hab
        obtain ⟨k, hk, hak⟩ := hseen
        exact hb ⟨k, hk, he.trans _ _ _ (he.symm _ _ hab) hak⟩
      simp only [firstKeys, hany, Bool.false_eq_true, if_false, runHeads.go, hab, List.cons.injEq,
        true_and]
      rw [ih b (key b :: seen) ⟨key b, by simp, he.refl _⟩]
      constructor
      · intro h pre c post hl hc
        cases pre with
        | nil =>
          simp only [List.nil_append, List.cons.injEq] at hl
          obtain ⟨rfl, hl⟩ := hl
          rcases hc with hc | ⟨x, hx, _⟩
          · exact absurd hc hb
          · simp at hx
        | cons d pre =>
          simp only [List.cons_append, List.cons.injEq] at hl
          obtain ⟨rfl, hl⟩ := hl
          have := h pre c post hl (by
            rcases hc with ⟨k, hk, hck⟩ | ⟨x, hx, hcx⟩
            · exact .inl ⟨k, by simp [hk], hck⟩
            · rcases List.mem_cons.1 hx with rfl | hx
              · exact .inl ⟨_, by simp, hcx⟩
              · exact .inr ⟨x, hx, hcx⟩)
          rwa [List.getLast?_cons, Option.getD_some]
      · intro h pre c post hl hc
        have := h (b :: pre) c post (by simp [hl]) (by
          rcases hc with ⟨k, hk, hck⟩ | ⟨x, hx, hcx⟩
          · rcases List.mem_cons.1 hk with rfl | hk
            · exact .inr ⟨b, by simp, hck⟩
            · exact .inl ⟨k, hk, hck⟩
          · exact .inr ⟨x, by simp [hx], hcx⟩)
        rwa [List.getLast?_cons, Option.getD_some] at this

/-- Every element whose key occurred before has the same key as its predecessor. -/
def KeysContiguous (keq : κ → κ → Bool) (key : α → κ) (l : List α) : Prop :=
  ∀ pre p b post, l = pre ++ p :: b :: post →
    (∃ c ∈ pre ++ [p], keq (key b) (key c) = true) → keq (key p) (key b) = true

/-- C50, full property: DedupByKey keeps exactly the first element of every run of equal keys.
Proved: it does so exactly if equal keys are contiguous (in particular on vectors sorted by key).
Missing: all other vectors, where it removes too much, see `C50_dedupByKey_fails`. -/
theorem C50_dedupByKey_partial (g : Growth) (keq : κ → κ → Bool) (he : Spec.Equiv keq) (key : α → κ)
    (v : Vec α) (s : σ) :
    v.dedupByKey g keq (fun a => (pure (key a) : Eff σ κ)) s =
        (.ok ⟨runHeads (fun x y => keq (key x) (key y)) v.data, v.len⟩, s) ↔
      KeysContiguous keq key v.data := by
  unfold Vec.dedupByKey
  rw [Vec.dedupByKeyLoop_eq g keq key v.data [] ⟨[], v.data.length⟩ (by simp)]
  simp only [List.nil_append, Eff.pure_run, Vec.len]
  cases hd : v.data with
  | nil => simp [firstKeys, runHeads, KeysContiguous]
  | cons a l =>
    have h := firstKeys_runHeads keq he key l a [key a] ⟨key a, by simp, he.refl _⟩
    simp only [firstKeys, List.any_nil, Bool.false_eq_true, if_false, runHeads]
    constructor
    · intro h1
      have h2 : firstKeys keq key [key a] l = runHeads.go (fun x y => keq (key x) (key y)) a l := by
        simpa using h1
      rw [h] at h2
      intro pre p b post hl hc
      cases pre with
      | nil =>
        simp only [List.nil_append, List.cons.injEq] at hl
        obtain ⟨rfl, hl⟩ := hl
        obtain ⟨c, hc, hbc⟩ := hc
        have : c = a := by simpa using hc
        subst this
        exact he.symm _ _ hbc
      | cons d pre =>
        simp only [List.cons_append, List.cons.injEq] at hl
        obtain ⟨rfl, hl⟩ := hl
        have := h2 (pre ++ [p]) b post (by simp [hl]) (by
          obtain ⟨c, hc, hbc⟩ := hc
          rcases List.mem_cons.1 hc with rfl | hc
          · exact .inl ⟨_, by simp, hbc⟩
          · exact .inr ⟨c, hc, hbc⟩)
        simpa using this
    · intro hk
      have h2 : firstKeys keq key [key a] l = runHeads.go (fun x y => keq (key x) (key y)) a l := by
        rw [h]
        intro pre b post hl hc
        rcases List.eq_nil_or_concat pre with rfl | ⟨pre', p, rfl⟩
        · simp only [List.nil_append] at hl
          refine hk [] a b post (by simp [hl]) ?_
          rcases hc with ⟨k, hk, hbk⟩ | ⟨c, hc, _⟩
          · have : k = key a := by simpa using hk
            exact ⟨a, by simp, this ▸ hbk⟩
          · simp at hc
        · simp only [List.concat_eq_append, List.getLast?_append, List.getLast?_singleton,
            Option.some_or]
          refine hk (a :: pre') p b post (by simp [hl]) ?_
          rcases hc with ⟨k, hk, hbk⟩ | ⟨c, hc, hbc⟩
          · have : k = key a := by simpa using hk
            exact ⟨a, by simp, this ▸ hbk⟩
          · exact ⟨c, by simp at hc ⊢; exact .inr hc, hbc⟩
      rw [h2]

/-- C50 is violated by every vector in which a key comes back after a different one. -/
theorem C50_dedupByKey_fails (g : Growth) (keq : κ → κ → Bool) (he : Spec.Equiv keq) (key : α → κ)
    (pre post : List α) (a p b : α) (mid : List α) (cap : Nat)
    (hab : keq (key a) (key b) = true) (hpb : keq (key p) (key b) = false) (s : σ) :
    (⟨pre ++ a :: mid ++ p :: b :: post, cap⟩ : Vec α).dedupByKey g keq
        (fun a => (pure (key a) : Eff σ κ)) s ≠
      (.ok ⟨runHeads (fun x y => keq (key x) (key y)) (pre ++ a :: mid ++ p :: b :: post),
        (pre ++ a :: mid ++ p :: b :: post).length⟩, s) := by
  intro h
  have := (C50_dedupByKey_partial g keq he key _ s).1 h (pre ++ a :: mid) p b post rfl
    ⟨a, by simp, he.symm _ _ hab⟩
  rw [hpb] at this; cases this

example : ((⟨[1, 11, 2, 21], 4⟩ : Vec Nat).dedupByKey doubling (· == ·)
        (fun a => (pure (a % 10) : Eff Unit Nat)) () = (.ok ⟨[1, 2], 4⟩, ())) ∧
    runHeads (fun x y => x % 10 == y % 10) [1, 11, 2, 21] = [1, 2, 21] ∧
    runHeads (fun x y => x % 10 == y % 10) [1, 11, 21, 2] = [1, 2] := by decide

/-! ### C135: a vector appended to itself -/

/-- C135, full property: after `v.Append(&v)` every element `v` had is still in `v`.  Proved: exactly what happens - the
vector ends up empty; so the elements survive exactly if there were none.  Missing: every nonempty vector, see
`C135_append_self_fails`. -/
theorem C135_append_self_partial (g : Growth) (v : Vec α) :
    (v.appendSelf g).data = [] ∧ ((∀ x ∈ v.data, x ∈ (v.appendSelf g).data) ↔ v.data = []) := by
  refine ⟨rfl, fun h => ?_, fun h => by simp [h]⟩
  cases hd : v.data with
  | nil => rfl
  | cons x xs => exact absurd (h x (by simp [hd])) (by simp [Vec.appendSelf, Vec.new])

/-- C135 is violated by every nonempty vector: appended to itself it loses all its elements, while the same call with
another vector of the same contents doubles them. -/
theorem C135_append_self_fails (g : Growth) (v w : Vec α) (hne : v.data ≠ []) (hw : w.data = v.data) :
    (v.appendSelf g).len = 0 ∧ v.len ≠ 0 ∧ (v.append g w).1.data = v.data ++ v.data := by
  refine ⟨rfl, fun h => hne (List.length_eq_zero_iff.1 h), ?_⟩
  rw [← hw]
  show (v.goAppend g w.data).data = _
  rw [Vec.goAppend_data, hw]

example : (⟨[1, 2], 2⟩ : Vec Nat).appendSelf doubling = ⟨[], 0⟩ := by decide

end Gost
