import Verif.Model.Ints
import Verif.Spec.Ints
/- Helper lemmas: signed and unsigned values of wrapping operations. -/
namespace Gost.Ints
open Gost.Spec

variable {w : Nat}

theorem two_pow_eq (hw : 0 < w) : (2 : Int) ^ w = 2 * 2 ^ (w - 1) := by
  conv => lhs; rw [show w = (w - 1) + 1 by omega, Int.pow_succ]
  omega

theorem two_pow_pos' (n : Nat) : (0 : Int) < 2 ^ n := Int.pow_pos (by decide)

theorem half_ge_two (hw : 1 < w) : (2 : Int) ≤ 2 ^ (w - 1) := by
  have : w - 1 = (w - 2) + 1 := by omega
  rw [this, Int.pow_succ]
  have := two_pow_pos' (w - 2)
  omega

theorem toInt_fits (_hw : 0 < w) (a : BitVec w) : SFits w a.toInt := by
  constructor
  · exact BitVec.le_toInt a
  · exact BitVec.toInt_lt

theorem toInt_le (a : BitVec w) : a.toInt < 2 ^ (w - 1) := BitVec.toInt_lt
theorem le_toInt (a : BitVec w) : -(2 : Int) ^ (w - 1) ≤ a.toInt := BitVec.le_toInt a

/-- the wrapped value of `x` when `x` fits -/
theorem bmod_of_fits {x : Int} (hw : 0 < w) (h : SFits w x) : x.bmod (2 ^ w) = x := by
  have h2 := two_pow_eq hw
  obtain ⟨h3, h4⟩ := h
  have h5 : ((2 ^ w : Nat) : Int) = 2 * 2 ^ (w - 1) := by rw [← h2]; simp
  apply Int.bmod_eq_of_le
  · rw [h5]; omega
  · rw [h5]; omega

theorem toInt_add_cases (hw : 0 < w) (a b : BitVec w) :
    ((a + b).toInt = a.toInt + b.toInt ∧ SFits w (a.toInt + b.toInt)) ∨
    ((a + b).toInt = a.toInt + b.toInt - 2 * 2 ^ (w - 1) ∧ (2 : Int) ^ (w - 1) ≤ a.toInt + b.toInt) ∨
    ((a + b).toInt = a.toInt + b.toInt + 2 * 2 ^ (w - 1) ∧ a.toInt + b.toInt < -(2 : Int) ^ (w - 1)) := by
  have ha := toInt_fits hw a
  have hb := toInt_fits hw b
  have h2 := two_pow_eq hw
  have h5 : ((2 ^ w : Nat) : Int) = 2 * 2 ^ (w - 1) := by rw [← h2]; simp
  rw [BitVec.toInt_add]
  by_cases h1 : SFits w (a.toInt + b.toInt)
  · left; exact ⟨bmod_of_fits hw h1, h1⟩
  · unfold SFits at *
    by_cases h3 : (2 : Int) ^ (w - 1) ≤ a.toInt + b.toInt
    · right; left
      refine ⟨?_, h3⟩
      have h7 := bmod_of_fits (x := a.toInt + b.toInt - 2 * 2 ^ (w - 1)) hw (by unfold SFits; omega)
      rw [← h7, ← h5]
      rw [Int.sub_bmod_right]
    · right; right
      refine ⟨?_, by omega⟩
      have h7 := bmod_of_fits (x := a.toInt + b.toInt + 2 * 2 ^ (w - 1)) hw (by unfold SFits; omega)
      rw [← h7, ← h5]
      rw [Int.add_bmod_right]

theorem toInt_sub_cases (hw : 0 < w) (a b : BitVec w) :
    ((a - b).toInt = a.toInt - b.toInt ∧ SFits w (a.toInt - b.toInt)) ∨
    ((a - b).toInt = a.toInt - b.toInt - 2 * 2 ^ (w - 1) ∧ (2 : Int) ^ (w - 1) ≤ a.toInt - b.toInt) ∨
    ((a - b).toInt = a.toInt - b.toInt + 2 * 2 ^ (w - 1) ∧ a.toInt - b.toInt < -(2 : Int) ^ (w - 1)) := by
  have ha := toInt_fits hw a
  have hb := toInt_fits hw b
  have h2 := two_pow_eq hw
  have h5 : ((2 ^ w : Nat) : Int) = 2 * 2 ^ (w - 1) := by rw [← h2]; simp
  rw [BitVec.toInt_sub]
  by_cases h1 : SFits w (a.toInt - b.toInt)
  · left; exact ⟨bmod_of_fits hw h1, h1⟩
  · unfold SFits at *
    by_cases h3 : (2 : Int) ^ (w - 1) ≤ a.toInt - b.toInt
    · right; left
      refine ⟨?_, h3⟩
      have h7 := bmod_of_fits (x := a.toInt - b.toInt - 2 * 2 ^ (w - 1)) hw (by unfold SFits; omega)
      rw [← h7, ← h5]
      rw [Int.sub_bmod_right]
    · right; right
      refine ⟨?_, by omega⟩
      have h7 := bmod_of_fits (x := a.toInt - b.toInt + 2 * 2 ^ (w - 1)) hw (by unfold SFits; omega)
      rw [← h7, ← h5]
      rw [Int.add_bmod_right]

theorem toInt_sMax (_hw : 0 < w) : (sMax w).toInt = 2 ^ (w - 1) - 1 := by
  rw [BitVec.toInt_intMax]

theorem toInt_sMin (hw : 0 < w) : (sMin w).toInt = -2 ^ (w - 1) := by
  rw [BitVec.toInt_intMin, Nat.mod_eq_of_lt (Nat.pow_lt_pow_right (by decide) (by omega))]
  push_cast
  rfl

theorem toInt_zero' : (0#w).toInt = 0 := by simp

theorem slt_iff (a b : BitVec w) : slt a b = true ↔ a.toInt < b.toInt := by
  simp [slt, BitVec.slt]

theorem ult_iff (a b : BitVec w) : ult a b = true ↔ a.toNat < b.toNat := by
  simp [ult, BitVec.ult]

theorem toNat_add_cases (a b : BitVec w) :
    ((a + b).toNat = a.toNat + b.toNat ∧ a.toNat + b.toNat < 2 ^ w) ∨
    ((a + b).toNat + 2 ^ w = a.toNat + b.toNat ∧ 2 ^ w ≤ a.toNat + b.toNat) := by
  have ha := a.isLt
  have hb := b.isLt
  rw [BitVec.toNat_add]
  by_cases h : a.toNat + b.toNat < 2 ^ w
  · left; exact ⟨Nat.mod_eq_of_lt h, h⟩
  · right
    have : (a.toNat + b.toNat) % 2 ^ w = a.toNat + b.toNat - 2 ^ w := by
      rw [Nat.mod_eq_sub_mod (by omega), Nat.mod_eq_of_lt (by omega)]
    omega

theorem toNat_sub_cases (a b : BitVec w) :
    ((a - b).toNat = a.toNat - b.toNat ∧ b.toNat ≤ a.toNat) ∨
    ((a - b).toNat = a.toNat + 2 ^ w - b.toNat ∧ a.toNat < b.toNat) := by
  have ha := a.isLt
  have hb := b.isLt
  rw [BitVec.toNat_sub]
  by_cases h : b.toNat ≤ a.toNat
  · left
    refine ⟨?_, h⟩
    rw [show 2 ^ w - b.toNat + a.toNat = (a.toNat - b.toNat) + 2 ^ w by omega, Nat.add_mod_right]
    exact Nat.mod_eq_of_lt (by omega)
  · right
    refine ⟨?_, by omega⟩
    rw [Nat.mod_eq_of_lt (by omega)]; omega

/-! ### The overflow predicates -/

theorem sHasOverflowAdd_iff (hw : 0 < w) (a b : BitVec w) :
    sHasOverflowAdd a b = true ↔ ¬ SFits w (a.toInt + b.toInt) := by
  have ha := toInt_fits hw a
  have hb := toInt_fits hw b
  have h1 := toInt_sub_cases hw (sMax w) a
  have h2 := toInt_sub_cases hw (sMin w) a
  have e1 := toInt_sMax hw
  have e2 := toInt_sMin hw
  have e0 := toInt_zero' (w := w)
  simp only [sHasOverflowAdd, SFits] at *
  split
  · rename_i h
    simp only [Bool.and_eq_true, slt_iff] at h
    simp only [true_iff]
    omega
  · rename_i h
    simp only [Bool.and_eq_true, slt_iff] at h
    split
    · rename_i h'
      simp only [Bool.and_eq_true, slt_iff] at h'
      simp only [true_iff]
      omega
    · rename_i h'
      simp only [Bool.and_eq_true, slt_iff] at h'
      simp only [Bool.false_eq_true, false_iff]
      omega

theorem sHasUnderflowSub_iff (hw : 0 < w) (a b : BitVec w) :
    sHasUnderflowSub a b = true ↔ ¬ SFits w (a.toInt - b.toInt) := by
  have ha := toInt_fits hw a
  have hb := toInt_fits hw b
  have h1 := toInt_add_cases hw (sMax w) b
  have h2 := toInt_add_cases hw (sMin w) b
  have e1 := toInt_sMax hw
  have e2 := toInt_sMin hw
  have e0 := toInt_zero' (w := w)
  simp only [sHasUnderflowSub, SFits] at *
  split
  · rename_i h
    simp only [Bool.and_eq_true, slt_iff] at h
    simp only [true_iff]
    omega
  · rename_i h
    simp only [Bool.and_eq_true, slt_iff] at h
    split
    · rename_i h'
      simp only [Bool.and_eq_true, slt_iff] at h'
      simp only [true_iff]
      omega
    · rename_i h'
      simp only [Bool.and_eq_true, slt_iff] at h'
      simp only [Bool.false_eq_true, false_iff]
      omega

/-- The helper used by `SaturatingSub` also fires when the exact difference is `MIN`. -/
theorem sHasOverflowSub_imp (hw : 0 < w) (a b : BitVec w) (h : sHasOverflowSub a b = true) :
    ¬ SFits w (a.toInt - b.toInt) ∨ (a.toInt < 0 ∧ a.toInt - b.toInt = -2 ^ (w - 1)) := by
  have ha := toInt_fits hw a
  have hb := toInt_fits hw b
  have h1 := toInt_add_cases hw (sMax w) a
  have h2 := toInt_add_cases hw (sMin w) a
  have e1 := toInt_sMax hw
  have e2 := toInt_sMin hw
  have e0 := toInt_zero' (w := w)
  simp only [sHasOverflowSub, SFits] at *
  split at h
  · rename_i h'
    simp only [Bool.and_eq_true, slt_iff] at h'
    omega
  · split at h
    · rename_i h'
      simp only [Bool.and_eq_true, slt_iff] at h'
      omega
    · cases h

theorem isizeHasOverflowSub_iff (a b : BitVec 64) :
    isizeHasOverflowSub a b = true ↔ ¬ SFits 64 (a.toInt - b.toInt) := by
  rw [← sHasUnderflowSub_iff (by decide)]
  unfold isizeHasOverflowSub sHasUnderflowSub
  split <;> split <;> simp_all

theorem isizeHasUnderflowSub_iff (a b : BitVec 64) :
    isizeHasUnderflowSub a b = true ↔
      (0 < b.toInt ∧ a.toInt - b.toInt < -2147483648) ∨
      (b.toInt < 0 ∧ 2147483647 < a.toInt - b.toInt) := by
  have ha := toInt_fits (w := 64) (by decide) a
  have hb := toInt_fits (w := 64) (by decide) b
  have h1 := toInt_add_cases (w := 64) (by decide) (BitVec.ofInt 64 (-2147483648)) b
  have h2 := toInt_add_cases (w := 64) (by decide) (BitVec.ofInt 64 2147483647) b
  have e1 : (BitVec.ofInt 64 (-2147483648)).toInt = -2147483648 := by decide
  have e2 : (BitVec.ofInt 64 2147483647).toInt = 2147483647 := by decide
  have e0 := toInt_zero' (w := 64)
  simp only [isizeHasUnderflowSub, SFits] at *
  split
  · rename_i h
    simp only [Bool.and_eq_true, slt_iff] at h
    simp only [true_iff]
    omega
  · rename_i h
    simp only [Bool.and_eq_true, slt_iff] at h
    split
    · rename_i h'
      simp only [Bool.and_eq_true, slt_iff] at h'
      simp only [true_iff]
      omega
    · rename_i h'
      simp only [Bool.and_eq_true, slt_iff] at h'
      simp only [Bool.false_eq_true, false_iff]
      omega

theorem uHasOverflowMul_iff (a b : BitVec w) :
    uHasOverflowMul a b = true ↔ 2 ^ w ≤ a.toNat * b.toNat := by
  have hp : 0 < 2 ^ w := Nat.two_pow_pos w
  unfold uHasOverflowMul
  have h0 : (a != 0#w) = true ↔ a.toNat ≠ 0 := by
    simp [bne_iff_ne, BitVec.toNat_eq]
  have h1 : (a != 0#w && ult ((uMax w).udiv a) b) = true ↔ 2 ^ w ≤ a.toNat * b.toNat := by
    rw [Bool.and_eq_true, ult_iff, h0]
    simp only [BitVec.udiv_eq, BitVec.toNat_udiv, uMax, BitVec.toNat_allOnes]
    constructor
    · rintro ⟨h2, h3⟩
      rw [Nat.div_lt_iff_lt_mul (by omega), Nat.mul_comm] at h3
      omega
    · intro h
      have h2 : a.toNat ≠ 0 := by intro h0; rw [h0] at h; omega
      refine ⟨h2, ?_⟩
      rw [Nat.div_lt_iff_lt_mul (by omega), Nat.mul_comm]
      omega
  split
  · rename_i h; rw [h1] at h; simp [h]
  · rename_i h; rw [h1] at h; simpa using h

theorem usizeHasOverflowMul_iff (a b : BitVec 64) :
    usizeHasOverflowMul a b = true ↔ 2 ^ 32 ≤ a.toNat * b.toNat := by
  unfold usizeHasOverflowMul
  have h0 : (a != 0#64) = true ↔ a.toNat ≠ 0 := by
    simp [bne_iff_ne, BitVec.toNat_eq]
  have hK : (4294967295#64).toNat = 4294967295 := by decide
  have h1 : (a != 0#64 && ult ((4294967295#64).udiv a) b) = true ↔
      2 ^ 32 ≤ a.toNat * b.toNat := by
    rw [Bool.and_eq_true, ult_iff, h0]
    simp only [BitVec.udiv_eq, BitVec.toNat_udiv, hK]
    constructor
    · rintro ⟨h2, h3⟩
      rw [Nat.div_lt_iff_lt_mul (by omega), Nat.mul_comm] at h3
      omega
    · intro h
      have h2 : a.toNat ≠ 0 := by intro h0; rw [h0] at h; omega
      refine ⟨h2, ?_⟩
      rw [Nat.div_lt_iff_lt_mul (by omega), Nat.mul_comm]
      omega
  split
  · rename_i h; rw [h1] at h; simp [h]
  · rename_i h; rw [h1] at h; simpa using h

/-- value of the truncated quotient of `MAX` by a non-zero divisor -/
theorem toInt_sMax_sdiv (hw : 1 < w) (b : BitVec w) :
    ((sMax w).sdiv b).toInt = (2 ^ (w - 1) - 1 : Int).tdiv b.toInt := by
  rw [BitVec.toInt_sdiv, toInt_sMax (by omega)]
  apply bmod_of_fits (by omega)
  have hM := half_ge_two hw
  have hle := Int.natAbs_tdiv_le_natAbs (2 ^ (w - 1) - 1 : Int) b.toInt
  unfold SFits
  omega

theorem tdiv_pos_lt_iff {m b a : Int} (hm : 0 ≤ m) (hb : 0 < b) : m.tdiv b < a ↔ m < a * b := by
  rw [Int.tdiv_eq_ediv_of_nonneg hm]
  exact Int.ediv_lt_iff_lt_mul hb

/-- What `_HasOverflow_Mul` really decides: mixed signs (and 0 against a positive number) are
always reported. -/
theorem sHasOverflowMul_iff (hw : 1 < w) (a b : BitVec w) :
    sHasOverflowMul a b = true ↔
      (0 < a.toInt ∧ b.toInt ≤ 0) ∨ (a.toInt ≤ 0 ∧ 0 < b.toInt) ∨
      ¬ SFits w (a.toInt * b.toInt) := by
  have hM := half_ge_two hw
  have ha := toInt_fits (by omega) a
  have hb := toInt_fits (by omega) b
  have e0 := toInt_zero' (w := w)
  have ne0 : (a != 0#w) = true ↔ a.toInt ≠ 0 := by
    simp only [bne_iff_ne, ne_eq, ← BitVec.toInt_inj, e0]
  unfold sHasOverflowMul SFits at *
  have qa := toInt_sMax_sdiv hw a
  have qb := toInt_sMax_sdiv hw b
  by_cases ca : 0 < a.toInt
  · rw [if_pos (by rw [slt_iff, e0]; exact ca)]
    by_cases cb : 0 < b.toInt
    · rw [if_pos (by rw [slt_iff, e0]; exact cb)]
      have h1 := tdiv_pos_lt_iff (m := 2 ^ (w - 1) - 1) (a := a.toInt) (by omega) cb
      have hp : 0 < a.toInt * b.toInt := Int.mul_pos ca cb
      split
      · rename_i h; rw [slt_iff, qb, h1] at h; simp only [true_iff]; omega
      · rename_i h; rw [slt_iff, qb, h1] at h; simp only [Bool.false_eq_true, false_iff]; omega
    · rw [if_neg (by rw [slt_iff, e0]; exact cb)]
      have h1 : (1 : Int) ≤ (2 ^ (w - 1) - 1 : Int).tdiv a.toInt := by
        rw [Int.tdiv_eq_ediv_of_nonneg (by omega)]
        exact Int.le_ediv_of_mul_le ca (by omega)
      rw [if_pos (by rw [slt_iff, qa]; omega)]
      simp only [true_iff]; omega
  · rw [if_neg (by rw [slt_iff, e0]; exact ca)]
    by_cases cb : 0 < b.toInt
    · rw [if_pos (by rw [slt_iff, e0]; exact cb)]
      have h1 : (1 : Int) ≤ (2 ^ (w - 1) - 1 : Int).tdiv b.toInt := by
        rw [Int.tdiv_eq_ediv_of_nonneg (by omega)]
        exact Int.le_ediv_of_mul_le cb (by omega)
      rw [if_pos (by rw [slt_iff, qb]; omega)]
      simp only [true_iff]; omega
    · rw [if_neg (by rw [slt_iff, e0]; exact cb)]
      by_cases c0 : a.toInt = 0
      · rw [if_neg (by rw [Bool.and_eq_true, ne0]; omega)]
        rw [c0]
        simp only [Bool.false_eq_true, false_iff]; omega
      · have h1 := tdiv_pos_lt_iff (m := 2 ^ (w - 1) - 1) (a := -b.toInt) (b := -a.toInt)
          (by omega) (by omega)
        rw [Int.tdiv_neg, Int.neg_mul_neg, Int.mul_comm] at h1
        have hp : 0 ≤ a.toInt * b.toInt := Int.mul_nonneg_of_nonpos_of_nonpos (by omega) (by omega)
        split
        · rename_i h; rw [Bool.and_eq_true, ne0, slt_iff, qa] at h; simp only [true_iff]; omega
        · rename_i h; rw [Bool.and_eq_true, ne0, slt_iff, qa] at h
          simp only [Bool.false_eq_true, false_iff]; omega

/-- in-range products are computed exactly -/
theorem toInt_mul_of_fits (hw : 0 < w) (a b : BitVec w) (h : SFits w (a.toInt * b.toInt)) :
    (a * b).toInt = a.toInt * b.toInt := by
  rw [BitVec.toInt_mul, bmod_of_fits hw h]

theorem toNat_mul_of_fits (a b : BitVec w) (h : a.toNat * b.toNat < 2 ^ w) :
    (a * b).toNat = a.toNat * b.toNat := by
  rw [BitVec.toNat_mul, Nat.mod_eq_of_lt h]

theorem toNat_cases (hw : 0 < w) (a : BitVec w) :
    ((a.toNat : Int) = a.toInt ∧ 0 ≤ a.toInt) ∨
    ((a.toNat : Int) = a.toInt + 2 * 2 ^ (w - 1) ∧ a.toInt < 0) := by
  have h2 := two_pow_eq hw
  have h5 : ((2 ^ w : Nat) : Int) = 2 * 2 ^ (w - 1) := by rw [← h2]; simp
  have hlt := a.isLt
  rw [BitVec.toInt_eq_toNat_cond]
  split <;> omega

theorem congMod_bmod (x : Int) : CongMod w (x.bmod (2 ^ w)) x := by
  refine ⟨-(x.bdiv (2 ^ w)), ?_⟩
  rw [Int.bmod_eq_self_sub_bdiv_mul, Int.neg_mul]
  push_cast
  omega

theorem congMod_emod (x : Int) : CongMod w (x % 2 ^ w) x := by
  refine ⟨-(x / 2 ^ w), ?_⟩
  rw [Int.emod_def, Int.neg_mul, Int.mul_comm]
  omega

/-- signed and unsigned value of a word are congruent -/
theorem congMod_toInt_toNat (hw : 0 < w) (a : BitVec w) : CongMod w a.toInt a.toNat := by
  have h2 := two_pow_eq hw
  rcases toNat_cases hw a with h | h
  · exact ⟨0, by omega⟩
  · exact ⟨-1, by omega⟩

theorem CongMod.trans' {a b c : Int} (h1 : CongMod w a b) (h2 : CongMod w b c) : CongMod w a c := by
  obtain ⟨k, hk⟩ := h1
  obtain ⟨l, hl⟩ := h2
  exact ⟨k + l, by rw [hk, hl, Int.add_mul]; omega⟩

theorem CongMod.symm' {a b : Int} (h1 : CongMod w a b) : CongMod w b a := by
  obtain ⟨k, hk⟩ := h1
  exact ⟨-k, by rw [hk, Int.neg_mul]; omega⟩

end Gost.Ints
