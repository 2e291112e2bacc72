/-
Specification of machine integer arithmetic in terms of mathematical integers.
Independent of the model: a machine word is only looked at through its signed value
(`BitVec.toInt`) or unsigned value (`BitVec.toNat`).
-/
namespace Gost.Spec

/-- `x` is representable in a signed `w`-bit type. -/
def SFits (w : Nat) (x : Int) : Prop := -(2 : Int) ^ (w - 1) ≤ x ∧ x < (2 : Int) ^ (w - 1)

instance (w : Nat) (x : Int) : Decidable (SFits w x) := by unfold SFits; infer_instance

/-- `x` is representable in an unsigned `w`-bit type. -/
def UFits (w : Nat) (x : Int) : Prop := 0 ≤ x ∧ x < (2 : Int) ^ w

instance (w : Nat) (x : Int) : Decidable (UFits w x) := by unfold UFits; infer_instance

/-- `r` is the exact checked result for the mathematical value `x` (signed type). -/
def SChecked {w : Nat} (x : Int) (r : Option (BitVec w)) : Prop :=
  (SFits w x → ∃ v, r = some v ∧ v.toInt = x) ∧ (¬ SFits w x → r = none)

/-- `r` is the exact checked result for the mathematical value `x` (unsigned type). -/
def UChecked {w : Nat} (x : Int) (r : Option (BitVec w)) : Prop :=
  (UFits w x → ∃ v, r = some v ∧ (v.toNat : Int) = x) ∧ (¬ UFits w x → r = none)

/-- `x` clamped to the interval `[lo, hi]`. -/
def clamp (lo hi x : Int) : Int := if x < lo then lo else if hi < x then hi else x

/-- The signed `w`-bit value nearest to `x`. -/
def sClamp (w : Nat) (x : Int) : Int := clamp (-(2 : Int) ^ (w - 1)) ((2 : Int) ^ (w - 1) - 1) x

/-- The unsigned `w`-bit value nearest to `x`. -/
def uClamp (w : Nat) (x : Int) : Int := clamp 0 ((2 : Int) ^ w - 1) x

/-- `v` is congruent to `x` modulo `2^w`. -/
def CongMod (w : Nat) (v x : Int) : Prop := ∃ k : Int, v = x + k * (2 : Int) ^ w

/-- There is exactly one signed value of a given residue: `SFits` and congruent determine it. -/
theorem CongMod.unique {w : Nat} {u v x : Int} (hw : 0 < w)
    (hu : SFits w u) (hv : SFits w v) (h1 : CongMod w u x) (h2 : CongMod w v x) : u = v := by
  obtain ⟨k, hk⟩ := h1
  obtain ⟨l, hl⟩ := h2
  have hpow : (2 : Int) ^ w = 2 * 2 ^ (w - 1) := by
    conv => lhs; rw [show w = (w - 1) + 1 by omega, Int.pow_succ]
    omega
  unfold SFits at hu hv
  rw [hpow] at hk hl
  generalize (2 : Int) ^ (w - 1) = M at *
  have h3 : u - v = (k - l) * (2 * M) := by rw [hk, hl, Int.sub_mul]; omega
  have hM : 0 < M := by omega
  rcases Int.lt_trichotomy (k - l) 0 with h | h | h
  · have : (k - l) * (2 * M) ≤ -1 * (2 * M) := Int.mul_le_mul_of_nonneg_right (by omega) (by omega)
    omega
  · rw [h] at h3; omega
  · have : 1 * (2 * M) ≤ (k - l) * (2 * M) := Int.mul_le_mul_of_nonneg_right (by omega) (by omega)
    omega

end Gost.Spec
