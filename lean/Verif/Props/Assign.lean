import Verif.Model.Assign
import Verif.Lemmas.Ints
import Verif.Props.Ints
import Verif.Props.Int128
import Verif.Lemmas.I128
import Verif.Spec.Ints
/-
Property C112: the operators and the assignment operators; C20 for I128.
-/
namespace Gost
open Gost.Ints Spec

variable {α : Type}

/-! ### The operators of the fixed-width types -/

/-- C112: on the signed types Add, Sub and Mul give the result modulo 2^w, Div and Rem truncate toward zero (the
one quotient that does not fit wraps) and panic exactly for a zero divisor. -/
theorem C112_signed {w : Nat} (a b : BitVec w) :
    (∃ r, (Operators.signed w).add a b = .ok r ∧ CongMod w r.toInt (a.toInt + b.toInt)) ∧
    (∃ r, (Operators.signed w).sub a b = .ok r ∧ CongMod w r.toInt (a.toInt - b.toInt)) ∧
    (∃ r, (Operators.signed w).mul a b = .ok r ∧ CongMod w r.toInt (a.toInt * b.toInt)) ∧
    (b.toInt = 0 → (Operators.signed w).div a b = .error .divideByZero ∧
      (Operators.signed w).rem a b = .error .divideByZero) ∧
    (b.toInt ≠ 0 → ∃ q r, (Operators.signed w).div a b = .ok q ∧ (Operators.signed w).rem a b = .ok r ∧
      CongMod w q.toInt (a.toInt.tdiv b.toInt) ∧ r.toInt = a.toInt.tmod b.toInt) := by
  refine ⟨⟨_, rfl, ?_⟩, ⟨_, rfl, ?_⟩, ⟨_, rfl, ?_⟩, fun h => ?_, fun h => ?_⟩
  · unfold Ints.add; rw [BitVec.toInt_add]; exact congMod_bmod _
  · unfold Ints.sub; rw [BitVec.toInt_sub]; exact congMod_bmod _
  · unfold Ints.mul; rw [BitVec.toInt_mul]; exact congMod_bmod _
  · have hb : b = 0#w := BitVec.eq_of_toInt_eq (by simpa using h)
    subst hb
    exact ⟨by simp [Operators.signed, Ints.sDivM, Ints.goSDiv], by simp [Operators.signed, Ints.sRemM, Ints.goSRem]⟩
  · have hb : b ≠ 0#w := by rintro rfl; simp at h
    refine ⟨a.sdiv b, a.srem b, by simp [Operators.signed, Ints.sDivM, Ints.goSDiv, hb],
      by simp [Operators.signed, Ints.sRemM, Ints.goSRem, hb], ?_, BitVec.toInt_srem a b⟩
    rw [BitVec.toInt_sdiv]; exact congMod_bmod _

/-- C112: likewise on the unsigned types (and Byte). -/
theorem C112_unsigned {w : Nat} (a b : BitVec w) :
    (∃ r, (Operators.unsigned w).add a b = .ok r ∧ r.toNat = (a.toNat + b.toNat) % 2 ^ w) ∧
    (∃ r, (Operators.unsigned w).sub a b = .ok r ∧ CongMod w r.toNat ((a.toNat : Int) - b.toNat)) ∧
    (∃ r, (Operators.unsigned w).mul a b = .ok r ∧ r.toNat = a.toNat * b.toNat % 2 ^ w) ∧
    (b.toNat = 0 → (Operators.unsigned w).div a b = .error .divideByZero ∧
      (Operators.unsigned w).rem a b = .error .divideByZero) ∧
    (b.toNat ≠ 0 → ∃ q r, (Operators.unsigned w).div a b = .ok q ∧ (Operators.unsigned w).rem a b = .ok r ∧
      a.toNat = q.toNat * b.toNat + r.toNat ∧ r.toNat < b.toNat) := by
  refine ⟨⟨_, rfl, BitVec.toNat_add ..⟩, ⟨_, rfl, ?_⟩, ⟨_, rfl, BitVec.toNat_mul ..⟩, fun h => ?_, fun h => ?_⟩
  · rw [show Ints.sub a b = Ints.wrappingSub a b from rfl, (C10_wrappingSub a b).2]; exact congMod_emod _
  · have hb : b = 0#w := BitVec.eq_of_toNat_eq (by simpa using h)
    subst hb
    exact ⟨by simp [Operators.unsigned, Ints.uDivM, Ints.goUDiv], by simp [Operators.unsigned, Ints.uRemM, Ints.goURem]⟩
  · have hb : b ≠ 0#w := by rintro rfl; simp at h
    refine ⟨a.udiv b, a.umod b, by simp [Operators.unsigned, Ints.uDivM, Ints.goUDiv, hb],
      by simp [Operators.unsigned, Ints.uRemM, Ints.goURem, hb], ?_, ?_⟩
    · simp only [BitVec.udiv_eq, BitVec.umod_eq, BitVec.toNat_udiv, BitVec.toNat_umod]
      exact (Nat.div_add_mod' _ _).symm
    · simp only [BitVec.umod_eq, BitVec.toNat_umod]
      exact Nat.mod_lt _ (by omega)

/-! ### The assignment operators -/

/-- The five pairs of an operator and its assignment form. -/
def assignments (o : Operators α) : List ((α → α → Go α) × (List α → Option Nat → α → Go (List α))) :=
  [(o.add, addAssign o), (o.sub, subAssign o), (o.mul, mulAssign o), (o.div, divAssign o), (o.rem, remAssign o)]

/-- C112: `x.OpAssign(y)` leaves in `x` what `x.Op(y)` returns, changes no other variable, and panics exactly when
`x.Op(y)` panics, changing nothing; on a nil pointer it panics. -/
theorem C112_assign (o : Operators α) (op : α → α → Go α) (asg : List α → Option Nat → α → Go (List α))
    (ho : (op, asg) ∈ assignments o) (vars : List α) (p : Nat) (hp : p < vars.length) (y : α) :
    (∀ r, op vars[p] y = .ok r → ∃ vars', asg vars (some p) y = .ok vars' ∧ vars'.length = vars.length ∧
      vars'[p]? = some r ∧ ∀ q, q ≠ p → vars'[q]? = vars[q]?) ∧
    (∀ e, op vars[p] y = .error e → asg vars (some p) y = .error e) ∧
    asg vars none y = .error .nilDeref := by
  have key : asg = opAssign op := by
    simp only [assignments, List.mem_cons, Prod.mk.injEq, List.not_mem_nil, or_false] at ho
    rcases ho with ⟨rfl, rfl⟩ | ⟨rfl, rfl⟩ | ⟨rfl, rfl⟩ | ⟨rfl, rfl⟩ | ⟨rfl, rfl⟩ <;> rfl
  subst key
  refine ⟨fun r h => ⟨vars.set p r, ?_, by simp, by simp [hp], ?_⟩, fun e h => ?_, rfl⟩
  · simp [opAssign, index_lt hp, h, setIndex_lt hp]
  · intro q hq
    rw [List.getElem?_set_ne (Ne.symm hq)]
  · simp [opAssign, index_lt hp, h]

/-- `x.AddAssign(y)` for each `y` of a list in turn. -/
def addAll (o : Operators α) (p : Nat) : List α → List α → Go (List α)
  | [], vars => .ok vars
  | y :: ys, vars => do
    let vars ← addAssign o vars (some p) y
    addAll o p ys vars

/-- C112: adding any number of values one after the other leaves the sum modulo 2^w. -/
theorem C112_sum {w : Nat} (ys : List (BitVec w)) (vars : List (BitVec w)) (p : Nat)
    (hp : p < vars.length) :
    ∃ vars' r, addAll (Operators.signed w) p ys vars = .ok vars' ∧ vars'[p]? = some r ∧
      CongMod w r.toInt (vars[p].toInt + (ys.map BitVec.toInt).sum) := by
  induction ys generalizing vars with
  | nil => exact ⟨vars, vars[p], rfl, by simp [hp], 0, by simp⟩
  | cons y ys ih =>
    obtain ⟨r0, e0, k0, c0⟩ := (C112_signed vars[p] y).1
    obtain ⟨vars1, e1, l1, g1, -⟩ := (C112_assign (Operators.signed w) _ _ (List.mem_cons_self ..) vars p hp y).1 r0 e0
    obtain ⟨vars2, r, e2, g2, k, c⟩ := ih vars1 (by omega)
    refine ⟨vars2, r, by simp [addAll, e1, e2], g2, k + k0, ?_⟩
    have : vars1[p]'(by omega) = r0 := by
      rw [List.getElem?_eq_getElem (by omega)] at g1; exact Option.some.inj g1
    rw [this] at c
    rw [c, c0, List.map_cons, List.sum_cons, Int.add_mul]
    omega

/-- C112 for U128: Add, Sub and Mul modulo 2^128, Div and Rem with remainder. -/
theorem C112_u128 (a b : U128) :
    (∃ r, Operators.u128.add a b = .ok r ∧ (r.val : Int) = ((a.val : Int) + b.val) % 2 ^ 128) ∧
    (∃ r, Operators.u128.sub a b = .ok r ∧ (r.val : Int) = ((a.val : Int) - b.val) % 2 ^ 128) ∧
    (∃ r, Operators.u128.mul a b = .ok r ∧ r.val = a.val * b.val % 2 ^ 128) ∧
    (b.val = 0 → Operators.u128.div a b = .error .divideByZero ∧ Operators.u128.rem a b = .error .divideByZero) ∧
    (b.val ≠ 0 → ∃ q r, Operators.u128.div a b = .ok q ∧ Operators.u128.rem a b = .ok r ∧
      a.val = q.val * b.val + r.val ∧ r.val < b.val) :=
  ⟨⟨_, rfl, (C25_u128_add_sub a b).1⟩, ⟨_, rfl, (C25_u128_add_sub a b).2⟩, ⟨_, rfl, C26_u128_mul a b⟩,
    (C27_u128_div_rem a b).1, (C27_u128_div_rem a b).2⟩

/-- C112 for I128, sums: AddAssign of any number of values leaves the sum modulo 2^128. -/
theorem C112_i128_sum (ys : List I128) (vars : List I128) (p : Nat) (hp : p < vars.length) :
    ∃ vars' r, addAll Operators.i128 p ys vars = .ok vars' ∧ vars'[p]? = some r ∧
      CongMod 128 r.val (vars[p].val + (ys.map I128.val).sum) := by
  induction ys generalizing vars with
  | nil => exact ⟨vars, vars[p], rfl, by simp [hp], 0, by simp⟩
  | cons y ys ih =>
    obtain ⟨k0, c0⟩ := C29_i128_add vars[p] y
    obtain ⟨vars1, e1, l1, g1, -⟩ :=
      (C112_assign Operators.i128 _ _ (List.mem_cons_self ..) vars p hp y).1 (vars[p].add y) rfl
    obtain ⟨vars2, r, e2, g2, k, c⟩ := ih vars1 (by omega)
    refine ⟨vars2, r, by simp [addAll, e1, e2], g2, k + k0, ?_⟩
    have : vars1[p]'(by omega) = vars[p].add y := by
      rw [List.getElem?_eq_getElem (by omega)] at g1; exact Option.some.inj g1
    rw [this] at c
    rw [c, c0, List.map_cons, List.sum_cons, Int.add_mul]
    omega

example : addAll Operators.i128 0 [⟨0#64, 5#64⟩, ⟨-1#64, -3#64⟩] [⟨0#64, 1#64⟩] = .ok [⟨0#64, 3#64⟩] := by decide
example : subAssign Operators.u128 [⟨1#64, 0#64⟩] (some 0) ⟨0#64, 1#64⟩ = .ok [⟨0#64, -1#64⟩] := by decide

-- x += 100, x += 100 on an I8 wraps to -56; other variables keep their values
example : addAll (Operators.signed 8) 1 [100#8, 100#8] [1#8, 0#8, 3#8] = .ok [1#8, -56#8, 3#8] := by decide
example : divAssign (Operators.signed 8) [-128#8] (some 0) (-1#8) = .ok [-128#8] := by decide
example : remAssign (Operators.unsigned 8) [7#8] (some 0) 0#8 = .error .divideByZero := by decide

/-! ### C20 for I128 -/

/-- C20, in part: Abs of an I128 is the absolute value (modulo 2^128) exactly if the number is not negative or its
low half is mixed (Neg is wrong otherwise, C30). -/
theorem C20_i128_abs_partial (a : I128) :
    CongMod 128 a.abs.val a.val.natAbs ↔ (0 ≤ a.val ∨ LowMixed a.val) := by
  unfold I128.abs
  by_cases hn : a.val < 0
  · rw [if_pos ((I128.high_neg_iff a).2 hn), show ((a.val.natAbs : Nat) : Int) = -a.val by omega, I128.neg_val_iff]
    exact ⟨Or.inr, fun h => h.resolve_left (by omega)⟩
  · rw [if_neg (fun h' => hn ((I128.high_neg_iff a).1 h'))]
    exact ⟨fun _ => Or.inl (by omega), fun _ => ⟨0, by omega⟩⟩

/-- C20 fails: Abs of a negative multiple of 2^64 is wrong. -/
theorem C20_i128_abs_fails (a : I128) (h : a.val < 0) (hm : a.val % 2 ^ 64 = 0) :
    ¬ CongMod 128 a.abs.val a.val.natAbs := by
  rw [C20_i128_abs_partial]
  intro hc
  rcases hc with hc | hc
  · omega
  · exact hc.1 hm
example : (I128.abs ⟨-1#64, 0#64⟩).val = 0 := by decide
example : (I128.abs ⟨-1#64, -5#64⟩).val = 5 := by decide
end Gost
