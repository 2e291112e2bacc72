import Verif.Lemmas.Ints
/-
Properties C01 - C22: fixed-width integer arithmetic.
The width `w` is arbitrary (at least 2 bits); the Go types are the instances 8, 16, 32, 64
(ISize and USize are 64).  The `example`s after each theorem are concrete instances.
-/
namespace Gost
open Gost.Ints Gost.Spec

variable {w : Nat}

/-! ### C01 CheckedAdd -/

/-- C01 (signed): `a.CheckedAdd(b)` is `Some(a+b)` iff the sum is representable. -/
theorem C01_checkedAdd_signed (hw : 1 < w) (a b : BitVec w) :
    SChecked (a.toInt + b.toInt) (sCheckedAdd a b) := by
  have h := sHasOverflowAdd_iff (by omega) a b
  have hc := toInt_add_cases (by omega) a b
  unfold SChecked sCheckedAdd
  constructor
  · intro hf
    refine ⟨a + b, ?_, ?_⟩
    · rw [if_neg (by rw [h]; exact fun hn => hn hf)]
    · unfold SFits at *; omega
  · intro hf
    rw [if_pos (h.2 hf)]

/-- C01 (unsigned). -/
theorem C01_checkedAdd_unsigned (a b : BitVec w) :
    UChecked ((a.toNat : Int) + b.toNat) (uCheckedAdd a b) := by
  have hc := toNat_add_cases a b
  have ha := a.isLt
  have hb := b.isLt
  have e : ((2 ^ w : Nat) : Int) = (2 : Int) ^ w := by simp
  unfold UChecked UFits uCheckedAdd
  simp only [Bool.or_eq_true, ult_iff]
  rw [← e]
  constructor
  · intro hf
    refine ⟨a + b, ?_, ?_⟩
    · rw [if_neg (by omega)]
    · omega
  · intro hf
    rw [if_pos (by omega)]

example : sCheckedAdd (100 : BitVec 8) 27 = some 127 ∧ sCheckedAdd (100 : BitVec 8) 28 = none ∧
    sCheckedAdd (-128 : BitVec 8) (-1) = none ∧ uCheckedAdd (200 : BitVec 8) 56 = none := by decide

/-! ### C02, C03 CheckedSub -/

/-- C02: unsigned `CheckedSub` is exact. -/
theorem C02_checkedSub_unsigned (a b : BitVec w) :
    UChecked ((a.toNat : Int) - b.toNat) (uCheckedSub a b) := by
  have hc := toNat_sub_cases a b
  have ha := a.isLt
  have hb := b.isLt
  have e : ((2 ^ w : Nat) : Int) = (2 : Int) ^ w := by simp
  unfold UChecked UFits uCheckedSub uHasUnderflowSub
  rw [← e]
  constructor
  · intro hf
    refine ⟨a - b, ?_, ?_⟩
    · have : ¬ (ult a b = true) := by rw [ult_iff]; omega
      simp [this]
    · omega
  · intro hf
    have : (ult a b = true) := by rw [ult_iff]; omega
    simp [this]

example : uCheckedSub (5 : BitVec 8) 3 = some 2 ∧ uCheckedSub (3 : BitVec 8) 5 = none := by decide

/-- C03, full property `SChecked (a - b) (a.CheckedSub b)` (I8..I64): it holds exactly on the inputs
whose *sum* is representable whenever their difference is.  Missing: the other inputs, where the
code reports a spurious overflow (see `C03_checkedSub_signed_fails`). -/
theorem C03_checkedSub_signed_partial (hw : 1 < w) (a b : BitVec w) :
    SChecked (a.toInt - b.toInt) (sCheckedSub a b) ↔
      (SFits w (a.toInt - b.toInt) → SFits w (a.toInt + b.toInt)) := by
  have h1 := sHasOverflowAdd_iff (by omega) a b
  have h2 := sHasUnderflowSub_iff (by omega) a b
  have hc := toInt_sub_cases (by omega) a b
  unfold SChecked sCheckedSub
  have hd : (sHasOverflowAdd a b || sHasUnderflowSub a b) = true ↔
      ¬ SFits w (a.toInt + b.toInt) ∨ ¬ SFits w (a.toInt - b.toInt) := by
    rw [Bool.or_eq_true, h1, h2]
  constructor
  · rintro ⟨h3, _⟩ hf
    obtain ⟨v, hv, _⟩ := h3 hf
    apply Decidable.byContradiction
    intro hn
    rw [if_pos (hd.2 (Or.inl hn))] at hv
    cases hv
  · intro hi
    constructor
    · intro hf
      refine ⟨a - b, ?_, ?_⟩
      · rw [if_neg]; rw [hd]; rintro (h | h)
        · exact h (hi hf)
        · exact h hf
      · unfold SFits at *; omega
    · intro hf
      rw [if_pos (hd.2 (Or.inr hf))]

/-- C03: whatever the inputs, a `Some` result is the exact difference (the code errs only towards
`None`). -/
theorem C03_checkedSub_signed_sound_partial (hw : 1 < w) (a b v : BitVec w)
    (h : sCheckedSub a b = some v) : v.toInt = a.toInt - b.toInt := by
  have h2 := sHasUnderflowSub_iff (by omega) a b
  have hc := toInt_sub_cases (by omega) a b
  unfold sCheckedSub at h
  split at h
  · cases h
  · rename_i h3
    simp only [Bool.or_eq_true, not_or] at h3
    have : SFits w (a.toInt - b.toInt) := Decidable.byContradiction fun hn => h3.2 (h2.2 hn)
    cases h
    unfold SFits at *; omega

/-- C03 is violated in every width: `MAX.CheckedSub(MAX)` is `None` although the difference is 0. -/
theorem C03_checkedSub_signed_fails (hw : 1 < w) :
    ¬ ∀ a b : BitVec w, SChecked (a.toInt - b.toInt) (sCheckedSub a b) := by
  intro h
  have h1 := (C03_checkedSub_signed_partial hw _ _).1 (h (sMax w) (sMax w))
  have hM := half_ge_two hw
  rw [toInt_sMax (by omega)] at h1
  unfold SFits at h1
  omega

example : sCheckedSub (100 : BitVec 8) 27 = some 73 ∧ sCheckedSub (100 : BitVec 8) 100 = none ∧
    sCheckedSub (-128 : BitVec 8) 1 = none := by decide

/-- C03 for ISize: exact domain.  The code uses 32-bit bounds, so a representable difference below
`-2^31` (for positive `b`) or above `2^31-1` (for negative `b`) is reported as overflow. -/
theorem C03_checkedSub_isize_partial (a b : BitVec 64) :
    SChecked (a.toInt - b.toInt) (isizeCheckedSub a b) ↔
      (SFits 64 (a.toInt - b.toInt) →
        (0 < b.toInt → -2147483648 ≤ a.toInt - b.toInt) ∧
        (b.toInt < 0 → a.toInt - b.toInt ≤ 2147483647)) := by
  have h1 := isizeHasOverflowSub_iff a b
  have h2 := isizeHasUnderflowSub_iff a b
  have hc := toInt_sub_cases (by omega) a b
  unfold SChecked isizeCheckedSub
  have hd : (isizeHasOverflowSub a b || isizeHasUnderflowSub a b) = true ↔
      ¬ SFits 64 (a.toInt - b.toInt) ∨
      ((0 < b.toInt ∧ a.toInt - b.toInt < -2147483648) ∨
      (b.toInt < 0 ∧ 2147483647 < a.toInt - b.toInt)) := by
    rw [Bool.or_eq_true, h1, h2]
  constructor
  · rintro ⟨h3, _⟩ hf
    obtain ⟨v, hv, _⟩ := h3 hf
    split at hv
    · cases hv
    · rename_i hn
      rw [hd] at hn
      omega
  · intro hi
    constructor
    · intro hf
      refine ⟨a - b, ?_, ?_⟩
      · rw [if_neg]; rw [hd]; rintro (h | h)
        · exact h hf
        · have := hi hf; omega
      · unfold SFits at *; omega
    · intro hf
      rw [if_pos (hd.2 (Or.inl hf))]

/-- C03 for ISize: the result is never wrong when it is `Some`. -/
theorem C03_checkedSub_isize_sound_partial (a b v : BitVec 64)
    (h : isizeCheckedSub a b = some v) : v.toInt = a.toInt - b.toInt := by
  have h2 := isizeHasOverflowSub_iff a b
  have hc := toInt_sub_cases (by omega) a b
  unfold isizeCheckedSub at h
  split at h
  · cases h
  · rename_i h3
    simp only [Bool.or_eq_true, not_or] at h3
    have : SFits 64 (a.toInt - b.toInt) := Decidable.byContradiction fun hn => h3.1 (h2.2 hn)
    cases h
    unfold SFits at *; omega

/-- C03 is violated for ISize: `ISize(0).CheckedSub(2^31 + 1)` is `None`. -/
theorem C03_checkedSub_isize_fails :
    ¬ ∀ a b : BitVec 64, SChecked (a.toInt - b.toInt) (isizeCheckedSub a b) := by
  intro h
  have h1 := (C03_checkedSub_isize_partial _ _).1 (h 0 2147483649#64)
  revert h1
  unfold SFits
  decide

example : isizeCheckedSub 100 27 = some 73 ∧ isizeCheckedSub 0 2147483649#64 = none := by decide

/-! ### C04, C05, C06 CheckedMul -/

/-- C04: unsigned `CheckedMul` (U8..U64) is exact. -/
theorem C04_checkedMul_unsigned (a b : BitVec w) :
    UChecked ((a.toNat : Int) * b.toNat) (uCheckedMul a b) := by
  have h := uHasOverflowMul_iff a b
  have e : ((2 ^ w : Nat) : Int) = (2 : Int) ^ w := by simp
  have e2 : ((a.toNat * b.toNat : Nat) : Int) = (a.toNat : Int) * b.toNat := by simp
  unfold UChecked UFits uCheckedMul
  rw [← e, ← e2]
  constructor
  · intro hf
    refine ⟨a * b, ?_, ?_⟩
    · rw [if_neg (by rw [h]; omega)]
    · rw [toNat_mul_of_fits _ _ (by omega)]
  · intro hf
    rw [if_pos (by rw [h]; omega)]

example : uCheckedMul (15 : BitVec 8) 17 = some 255 ∧ uCheckedMul (16 : BitVec 8) 16 = none := by
  decide

/-- C05, full property `UChecked (a * b) (a.CheckedMul b)` for USize: holds exactly when the product
is below `2^32` or at least `2^64`.  Missing: products in between, reported as overflow. -/
theorem C05_checkedMul_usize_partial (a b : BitVec 64) :
    UChecked ((a.toNat : Int) * b.toNat) (usizeCheckedMul a b) ↔
      (a.toNat * b.toNat < 2 ^ 32 ∨ 2 ^ 64 ≤ a.toNat * b.toNat) := by
  have h := usizeHasOverflowMul_iff a b
  have e2 : ((a.toNat * b.toNat : Nat) : Int) = (a.toNat : Int) * b.toNat := by simp
  unfold UChecked UFits usizeCheckedMul
  rw [← e2]
  constructor
  · rintro ⟨h1, _⟩
    apply Decidable.byContradiction
    intro hn
    obtain ⟨v, hv, _⟩ := h1 (by omega)
    rw [if_pos (by rw [h]; omega)] at hv
    cases hv
  · intro hd
    constructor
    · intro hf
      refine ⟨a * b, ?_, ?_⟩
      · rw [if_neg (by rw [h]; omega)]
      · rw [toNat_mul_of_fits _ _ (by omega)]
    · intro hf
      rw [if_pos (by rw [h]; omega)]

/-- C05 is violated: `USize(65536).CheckedMul(65536)` is `None`. -/
theorem C05_checkedMul_usize_fails :
    ¬ ∀ a b : BitVec 64, UChecked ((a.toNat : Int) * b.toNat) (usizeCheckedMul a b) := by
  intro h
  have h1 := (C05_checkedMul_usize_partial _ _).1 (h 65536#64 65536#64)
  revert h1
  decide

example : usizeCheckedMul 10 12 = some 120 ∧ usizeCheckedMul 65536#64 65536#64 = none ∧
    usizeCheckedMul 8589934592#64 8589934592#64 = none := by decide

/-- C06, full property `SChecked (a * b) (a.CheckedMul b)`: holds exactly when the signs agree
(both positive, or both non-positive) or the product overflows.  Missing: representable products
of mixed signs (and of 0 with a positive number), always reported as overflow. -/
theorem C06_checkedMul_signed_partial (hw : 1 < w) (a b : BitVec w) :
    SChecked (a.toInt * b.toInt) (sCheckedMul a b) ↔
      ((0 < a.toInt ∧ 0 < b.toInt) ∨ (a.toInt ≤ 0 ∧ b.toInt ≤ 0) ∨
        ¬ SFits w (a.toInt * b.toInt)) := by
  have h := sHasOverflowMul_iff hw a b
  unfold SChecked sCheckedMul
  constructor
  · rintro ⟨h1, _⟩
    by_cases hf : SFits w (a.toInt * b.toInt)
    · obtain ⟨v, hv, _⟩ := h1 hf
      split at hv
      · cases hv
      · rename_i hn
        rw [h] at hn
        omega
    · exact Or.inr (Or.inr hf)
  · intro hd
    constructor
    · intro hf
      refine ⟨a * b, ?_, toInt_mul_of_fits (by omega) _ _ hf⟩
      rw [if_neg]
      rw [h]
      rintro (h1 | h1 | h1)
      · rcases hd with h2 | h2 | h2
        · omega
        · omega
        · exact h2 hf
      · rcases hd with h2 | h2 | h2
        · omega
        · omega
        · exact h2 hf
      · exact h1 hf
    · intro hf
      rw [if_pos]
      rw [h]
      exact Or.inr (Or.inr hf)

/-- C06: a `Some` result is always the exact product. -/
theorem C06_checkedMul_signed_sound_partial (hw : 1 < w) (a b v : BitVec w)
    (h : sCheckedMul a b = some v) : v.toInt = a.toInt * b.toInt := by
  have h2 := sHasOverflowMul_iff hw a b
  unfold sCheckedMul at h
  split at h
  · cases h
  · rename_i h3
    rw [h2] at h3
    cases h
    apply toInt_mul_of_fits (by omega)
    exact Decidable.byContradiction fun hn => h3 (Or.inr (Or.inr hn))

/-- C06 is violated in every width: `0.CheckedMul(1)` is `None`. -/
theorem C06_checkedMul_signed_fails (hw : 1 < w) :
    ¬ ∀ a b : BitVec w, SChecked (a.toInt * b.toInt) (sCheckedMul a b) := by
  intro h
  have h1 := (C06_checkedMul_signed_partial hw _ _).1 (h 0#w (sMax w))
  have hM := half_ge_two hw
  rw [toInt_sMax (by omega), toInt_zero'] at h1
  unfold SFits at h1
  simp only [Int.zero_mul] at h1
  omega

example : sCheckedMul (11 : BitVec 8) 11 = some 121 ∧ sCheckedMul (-11 : BitVec 8) (-11) = some 121 ∧
    sCheckedMul (2 : BitVec 8) 0 = none ∧ sCheckedMul (-2 : BitVec 8) 3 = none := by decide

/-! ### C07 CheckedDiv -/

/-- C07 (signed): `None` for a zero divisor; otherwise the truncated quotient, `None` exactly when
it is not representable.  The call never panics. -/
theorem C07_checkedDiv_signed (hw : 1 < w) (a b : BitVec w) :
    ∃ r, sCheckedDiv a b = .ok r ∧
      (b.toInt = 0 → r = none) ∧
      (b.toInt ≠ 0 → SChecked (a.toInt.tdiv b.toInt) r) := by
  have hM := half_ge_two hw
  have ha := toInt_fits (by omega) a
  have hb := toInt_fits (by omega) b
  have e0 := toInt_zero' (w := w)
  have e1 : (-1#w).toInt = -1 := by
    have h := toInt_sub_cases (w := w) (by omega) 0#w 1#w
    have e1 : (1#w).toInt = 1 := BitVec.toInt_one (by omega)
    rw [e0, e1] at h
    rw [show -1#w = 0#w - 1#w from (BitVec.zero_sub _).symm]
    unfold SFits at h
    omega
  have em := toInt_sMin (w := w) (by omega)
  unfold sCheckedDiv sHasOverflowDiv
  by_cases hz : b = 0#w
  · subst hz
    refine ⟨none, ?_, fun _ => rfl, ?_⟩
    · simp
    · intro h; rw [e0] at h; exact absurd rfl h
  · have hz' : b.toInt ≠ 0 := by
      rw [← e0, ne_eq, BitVec.toInt_inj]; exact hz
    by_cases ho : a = sMin w ∧ b = -1#w
    · obtain ⟨rfl, rfl⟩ := ho
      refine ⟨none, ?_, fun _ => rfl, fun _ => ⟨?_, fun _ => rfl⟩⟩
      · simp
      · rw [e1, em, Int.tdiv_neg]
        simp only [Int.tdiv_one, Int.neg_neg]
        unfold SFits; omega
    · have hfit : SFits w (a.toInt.tdiv b.toInt) := by
        have hle := Int.natAbs_tdiv_le_natAbs a.toInt b.toInt
        by_cases hneg : b.toInt = -1
        · rw [hneg, Int.tdiv_neg, Int.tdiv_one]
          have : a.toInt ≠ -2 ^ (w - 1) := by
            intro h
            apply ho
            constructor
            · rw [← BitVec.toInt_inj, em, h]
            · rw [← BitVec.toInt_inj, e1, hneg]
          unfold SFits at *; omega
        · have hq : a.toInt.tdiv b.toInt ≠ 2 ^ (w - 1) := by
            intro hq
            by_cases h1 : b.toInt = 1
            · rw [h1, Int.tdiv_one] at hq; unfold SFits at *; omega
            · have h3 : (a.toInt.tdiv b.toInt).natAbs * 2 ≤ a.toInt.natAbs := by
                rw [Int.natAbs_tdiv]
                have h4 : 2 ≤ b.toInt.natAbs := by omega
                have h5 : a.toInt.natAbs / b.toInt.natAbs * 2 ≤
                    a.toInt.natAbs / b.toInt.natAbs * b.toInt.natAbs := Nat.mul_le_mul_left _ h4
                exact Nat.le_trans h5 (Nat.div_mul_le_self _ _)
              unfold SFits at *; omega
          unfold SFits at *; omega
      refine ⟨some (a.sdiv b), ?_, fun h => absurd h hz', fun _ => ⟨fun _ => ⟨_, rfl, ?_⟩, fun h => absurd hfit h⟩⟩
      · have : ¬ (a == sMin w && b == -1#w) = true := by
          simpa using ho
        have hz2 : ¬ (b == 0#w) = true := by simpa using hz
        rw [if_neg hz2, if_neg this]
        simp [goSDiv, hz, bind, Except.bind]
      · rw [BitVec.toInt_sdiv, bmod_of_fits (by omega) hfit]

/-- C07 (unsigned). -/
theorem C07_checkedDiv_unsigned (a b : BitVec w) :
    ∃ r, uCheckedDiv a b = .ok r ∧
      (b.toNat = 0 → r = none) ∧
      (b.toNat ≠ 0 → ∃ v, r = some v ∧ v.toNat = a.toNat / b.toNat) := by
  unfold uCheckedDiv goUDiv
  by_cases hz : b = 0#w
  · subst hz
    exact ⟨none, by simp, fun _ => rfl, fun h => absurd (by simp) h⟩
  · refine ⟨some (a.udiv b), by simp [hz, bind, Except.bind], ?_, ?_⟩
    · intro h; exact absurd (BitVec.eq_of_toNat_eq (by simpa using h)) hz
    · intro _; exact ⟨_, rfl, by simp⟩

example : sCheckedDiv (-128 : BitVec 8) (-1) = .ok none ∧ sCheckedDiv (-7 : BitVec 8) 2 = .ok (some (-3)) ∧
    sCheckedDiv (5 : BitVec 8) 0 = .ok none ∧ uCheckedDiv (200 : BitVec 8) 3 = .ok (some 66) := by decide

/-! ### C08, C09 CheckedRem -/

/-- C08: unsigned `CheckedRem` is `None` for a zero divisor and `Some(a mod b)` otherwise. -/
theorem C08_checkedRem_unsigned (a b : BitVec w) :
    ∃ r, uCheckedRem a b = .ok r ∧
      (b.toNat = 0 → r = none) ∧
      (b.toNat ≠ 0 → ∃ v, r = some v ∧ v.toNat = a.toNat % b.toNat) := by
  unfold uCheckedRem goURem
  by_cases hz : b = 0#w
  · subst hz
    exact ⟨none, by simp, fun _ => rfl, fun h => absurd (by simp) h⟩
  · have hn : b.toNat ≠ 0 := fun h => hz (BitVec.eq_of_toNat_eq (by simpa using h))
    refine ⟨some (a.umod b), ?_, fun h => absurd h hn, fun _ => ⟨_, rfl, by simp⟩⟩
    have h1 : ¬ (ult a (a.umod b) || ult b (a.umod b)) = true := by
      rw [Bool.or_eq_true, ult_iff, ult_iff]
      simp only [BitVec.umod_eq, BitVec.toNat_umod]
      have := Nat.mod_lt a.toNat (Nat.pos_of_ne_zero hn)
      have := Nat.mod_le a.toNat b.toNat
      omega
    simp [hz, bind, Except.bind] at h1 ⊢
    exact h1

example : uCheckedRem (200 : BitVec 8) 7 = .ok (some 4) ∧ uCheckedRem (1 : BitVec 8) 0 = .ok none := by
  decide

/-- What the signed CheckedRem should return (Rust's `checked_rem`): `None` when the divisor is 0 or
the division overflows (`MIN / -1`), else the truncated remainder. -/
def C09_spec (w : Nat) (a b : Int) (r : Option (BitVec w)) : Prop :=
  ((b = 0 ∨ (a = -2 ^ (w - 1) ∧ b = -1)) → r = none) ∧
  (¬ (b = 0 ∨ (a = -2 ^ (w - 1) ∧ b = -1)) → ∃ v, r = some v ∧ v.toInt = a.tmod b)

/-- C09: the call never panics, and it is exact precisely for a zero divisor, for `MIN % -1`, and for
a positive divisor with `a > -b`.  Missing: all other inputs (negative divisor, or `a ≤ -b`), where
the code returns `None` although the remainder is fine. -/
theorem C09_checkedRem_signed_partial (hw : 1 < w) (a b : BitVec w) :
    ∃ r, sCheckedRem a b = .ok r ∧
      (C09_spec w a.toInt b.toInt r ↔
        (b.toInt = 0 ∨ (0 < b.toInt ∧ -b.toInt < a.toInt) ∨
          (a.toInt = -2 ^ (w - 1) ∧ b.toInt = -1))) := by
  have hM := half_ge_two hw
  have ha := toInt_fits (by omega) a
  have hb := toInt_fits (by omega) b
  have e0 := toInt_zero' (w := w)
  unfold sCheckedRem goSRem
  by_cases hz : b = 0#w
  · subst hz
    refine ⟨none, by simp, ?_⟩
    rw [e0]
    simp [C09_spec]
  · have hz' : b.toInt ≠ 0 := by
      rw [← e0, ne_eq, BitVec.toInt_inj]; exact hz
    have hr : (a.srem b).toInt = a.toInt.tmod b.toInt := BitVec.toInt_srem a b
    have hz2 : ¬ (b == 0#w) = true := by simpa using hz
    rw [if_neg hz2, if_neg hz]
    simp only [bind, Except.bind]
    have e : (if (slt a (a.srem b) || slt b (a.srem b)) = true then .ok none
          else .ok (some (a.srem b)) : Go (Option (BitVec w)))
        = .ok (if (slt a (a.srem b) || slt b (a.srem b)) = true then none else some (a.srem b)) := by
      split <;> rfl
    rw [e]
    refine ⟨_, rfl, ?_⟩
    simp only [Bool.or_eq_true, slt_iff, hr]
    have hsgn : a.toInt.tmod b.toInt = 0 ∨ (0 < a.toInt ∧ 0 < a.toInt.tmod b.toInt) ∨ (a.toInt < 0 ∧ a.toInt.tmod b.toInt < 0) := by
      by_cases h : 0 ≤ a.toInt
      · have := Int.tmod_nonneg b.toInt h
        by_cases h2 : a.toInt = 0
        · rw [h2]; left; exact Int.zero_tmod _
        · omega
      · have h1 := Int.tmod_nonneg b.toInt (a := -a.toInt) (by omega)
        rw [Int.neg_tmod] at h1
        omega
    have hlt : (a.toInt.tmod b.toInt).natAbs < b.toInt.natAbs := by
      rw [Int.natAbs_tmod]; exact Nat.mod_lt _ (by omega)
    have hle : (a.toInt.tmod b.toInt).natAbs ≤ a.toInt.natAbs := by
      rw [Int.natAbs_tmod]; exact Nat.mod_le _ _
    have heq : a.toInt.natAbs < b.toInt.natAbs → a.toInt.tmod b.toInt = a.toInt := by
      intro h
      have : (a.toInt.tmod b.toInt).natAbs = a.toInt.natAbs := by
        rw [Int.natAbs_tmod]; exact Nat.mod_eq_of_lt h
      omega
    unfold C09_spec SFits at *
    split
    · rename_i hc
      constructor
      · rintro ⟨_, h2⟩
        by_cases h3 : b.toInt = 0 ∨ (a.toInt = -2 ^ (w - 1) ∧ b.toInt = -1)
        · rcases h3 with h3 | h3
          · exact Or.inl h3
          · exact Or.inr (Or.inr h3)
        · obtain ⟨v, hv, _⟩ := h2 h3
          cases hv
      · intro hd
        refine ⟨fun _ => rfl, fun h => ?_⟩
        exfalso
        omega
    · rename_i hc
      constructor
      · rintro -
        omega
      · intro hd
        refine ⟨fun h => ?_, fun _ => ⟨_, rfl, hr⟩⟩
        exfalso
        rcases h with h | ⟨h1, h2⟩
        · exact hz' h
        · have : a.toInt.tmod b.toInt = 0 := by rw [h2, Int.tmod_neg, Int.tmod_one]
          omega

/-- C09 is violated: `I8(-5).CheckedRem(3)` is `None`, and so is `I8(5).CheckedRem(-3)`. -/
theorem C09_checkedRem_signed_fails :
    sCheckedRem (-5 : BitVec 8) 3 = .ok none ∧ sCheckedRem (5 : BitVec 8) (-3) = .ok none ∧
    ¬ C09_spec 8 (-5) 3 none ∧ ¬ C09_spec 8 5 (-3) none := by
  refine ⟨by decide, by decide, ?_, ?_⟩ <;>
  · rintro ⟨_, h⟩
    obtain ⟨v, hv, _⟩ := h (by decide)
    cases hv

example : sCheckedRem (17 : BitVec 8) 5 = .ok (some 2) ∧ sCheckedRem (-2 : BitVec 8) 5 = .ok (some (-2)) := by
  decide

/-! ### C10, C11, C12 Wrapping -/

/-- C10: signed WrappingAdd is addition modulo `2^w`. -/
theorem C10_wrappingAdd_signed (a b : BitVec w) :
    CongMod w (sWrappingAdd a b).toInt (a.toInt + b.toInt) := by
  unfold sWrappingAdd; rw [BitVec.toInt_add]; exact congMod_bmod _

/-- C10: unsigned WrappingAdd is addition modulo `2^w` (the correction term is 0 mod `2^w`). -/
theorem C10_wrappingAdd_unsigned (a b : BitVec w) :
    (uWrappingAdd a b).toNat = (a.toNat + b.toNat) % 2 ^ w := by
  have h : uWrappingAdd a b = a + b := by
    unfold uWrappingAdd
    simp only
    split
    · rw [uMax, ← BitVec.neg_one_eq_allOnes, BitVec.sub_neg, BitVec.add_sub_cancel]
    · rfl
  rw [h, BitVec.toNat_add]

/-- C10: WrappingSub is subtraction modulo `2^w`, on the signed and on the unsigned value. -/
theorem C10_wrappingSub (a b : BitVec w) :
    CongMod w (wrappingSub a b).toInt (a.toInt - b.toInt) ∧
    ((wrappingSub a b).toNat : Int) = ((a.toNat : Int) - b.toNat) % 2 ^ w := by
  constructor
  · unfold wrappingSub; rw [BitVec.toInt_sub]; exact congMod_bmod _
  · unfold wrappingSub
    have ha := a.isLt
    have hb := b.isLt
    have e : ((2 ^ w : Nat) : Int) = (2 : Int) ^ w := by simp
    rw [← e]
    rcases toNat_sub_cases a b with ⟨h1, h2⟩ | ⟨h1, h2⟩
    · rw [h1, Int.emod_eq_of_lt] <;> omega
    · rw [h1, ← Int.add_emod_right, Int.emod_eq_of_lt] <;> omega

example : sWrappingAdd (127 : BitVec 8) 2 = -127 ∧ uWrappingAdd (255 : BitVec 8) 200 = 199 ∧
    wrappingSub (-2 : BitVec 8) 127 = 127 := by decide

/-- C11: WrappingMul (all types but ISize) is multiplication modulo `2^w`, on the signed and on the
unsigned value. -/
theorem C11_wrappingMul (a b : BitVec w) :
    CongMod w (wrappingMul a b).toInt (a.toInt * b.toInt) ∧
    (wrappingMul a b).toNat = (a.toNat * b.toNat) % 2 ^ w := by
  unfold wrappingMul
  exact ⟨by rw [BitVec.toInt_mul]; exact congMod_bmod _, BitVec.toNat_mul a b⟩

example : wrappingMul (11 : BitVec 8) 12 = -124 ∧ wrappingMul (25 : BitVec 8) 12 = 44 := by decide

/-- C12, full property `CongMod 64 (a.WrappingMul b) (a*b)` for ISize: holds exactly when the wrapped
product is at least as large as both operands.  Missing: all other operands, where the code subtracts
`2^63`. -/
theorem C12_isizeWrappingMul_partial (a b : BitVec 64) :
    CongMod 64 (isizeWrappingMul a b).toInt (a.toInt * b.toInt) ↔
      (a.toInt ≤ (a.toInt * b.toInt).bmod (2 ^ 64) ∧ b.toInt ≤ (a.toInt * b.toInt).bmod (2 ^ 64)) := by
  have hm : (a * b).toInt = (a.toInt * b.toInt).bmod (2 ^ 64) := BitVec.toInt_mul a b
  have hc := congMod_bmod (w := 64) (a.toInt * b.toInt)
  unfold isizeWrappingMul
  simp only [Bool.or_eq_true, slt_iff]
  split
  · rename_i h
    rw [hm] at h
    constructor
    · intro hcon
      exfalso
      have h1 := CongMod.trans' hcon (CongMod.symm' hc)
      obtain ⟨k, hk⟩ := h1
      rw [← hm] at hk
      have e : a * b - sMax 64 - 1#64 = a * b - BitVec.ofInt 64 (2 ^ 63) := by
        have : (BitVec.ofInt 64 (2 ^ 63)) = sMax 64 + 1#64 := by decide
        rw [this, BitVec.sub_eq_add_neg, BitVec.sub_eq_add_neg, BitVec.sub_eq_add_neg, BitVec.neg_add,
          BitVec.sub_eq_add_neg, BitVec.add_assoc]
      rw [e] at hk
      have h2 := toInt_sub_cases (by decide) (a * b) (BitVec.ofInt 64 (2 ^ 63))
      have h3 : (BitVec.ofInt 64 (2 ^ 63)).toInt = -9223372036854775808 := by decide
      rw [h3] at h2
      simp only [Nat.add_one_sub_one, Int.reducePow] at h2 hk
      omega
    · omega
  · rename_i h
    rw [hm] at h ⊢
    simp only [hc, true_iff]
    omega

/-- C12 is violated: `ISize(0).WrappingMul(5)` is `MinInt` instead of 0, and `3 * (-1)` is not -3. -/
theorem C12_isizeWrappingMul_fails :
    isizeWrappingMul 0 5 = sMin 64 ∧ ¬ CongMod 64 (isizeWrappingMul 0 5).toInt 0 ∧
    ¬ CongMod 64 (isizeWrappingMul 3 (-1)).toInt (-3) := by
  refine ⟨by decide, ?_, ?_⟩
  · have := C12_isizeWrappingMul_partial 0 5
    have h2 : (0 : BitVec 64).toInt * (5 : BitVec 64).toInt = 0 := by decide
    rw [h2] at this
    rw [this]; decide
  · have := C12_isizeWrappingMul_partial 3 (-1)
    have h2 : (3 : BitVec 64).toInt * (-1 : BitVec 64).toInt = -3 := by decide
    rw [h2] at this
    rw [this]; decide

example : isizeWrappingMul 10 12 = 120 := by decide

/-! ### C13 - C18 Saturating -/

/-- C134: WrappingDiv of the signed types gives the quotient truncated toward zero modulo 2^n (so the one quotient that
does not fit, MIN / -1, is MIN) and panics exactly for a zero divisor. -/
theorem C134_wrappingDiv_signed (hw : 0 < w) (a b : BitVec w) :
    (b.toInt = 0 → sWrappingDiv a b = .error .divideByZero) ∧
    (b.toInt ≠ 0 → ∃ q, sWrappingDiv a b = .ok q ∧ CongMod w q.toInt (a.toInt.tdiv b.toInt) ∧
      (SFits w (a.toInt.tdiv b.toInt) → q.toInt = a.toInt.tdiv b.toInt)) := by
  refine ⟨fun h => ?_, fun h => ?_⟩
  · have hb : b = 0#w := BitVec.eq_of_toInt_eq (by simpa using h)
    subst hb
    simp [sWrappingDiv, goSDiv]
  · have hb : b ≠ 0#w := by rintro rfl; simp at h
    refine ⟨a.sdiv b, by simp [sWrappingDiv, goSDiv, hb], ?_, fun hn => ?_⟩
    · rw [BitVec.toInt_sdiv]
      exact congMod_bmod _
    · refine CongMod.unique hw (toInt_fits hw _) hn (x := a.toInt.tdiv b.toInt) ?_ ⟨0, by simp⟩
      rw [BitVec.toInt_sdiv]
      exact congMod_bmod _

/-- C134: WrappingDiv of the unsigned types is division without remainder and panics exactly for a zero divisor. -/
theorem C134_wrappingDiv_unsigned (a b : BitVec w) :
    (b.toNat = 0 → uWrappingDiv a b = .error .divideByZero) ∧
    (b.toNat ≠ 0 → ∃ q, uWrappingDiv a b = .ok q ∧ q.toNat = a.toNat / b.toNat) := by
  refine ⟨fun h => ?_, fun h => ?_⟩
  · have hb : b = 0#w := BitVec.eq_of_toNat_eq (by simpa using h)
    subst hb
    simp [uWrappingDiv, goUDiv]
  · have hb : b ≠ 0#w := by rintro rfl; simp at h
    exact ⟨a.udiv b, by simp [uWrappingDiv, goUDiv, hb], by simp⟩

example : sWrappingDiv (-128#8) (-1#8) = .ok (-128#8) ∧ sWrappingDiv (-7#8) 2#8 = .ok (-3#8) ∧
    sWrappingDiv 7#8 0#8 = .error .divideByZero ∧ uWrappingDiv 200#8 7#8 = .ok 28#8 := by decide

/-- C13 (signed): SaturatingAdd clamps the exact sum. -/
theorem C13_saturatingAdd_signed (hw : 1 < w) (a b : BitVec w) :
    (sSaturatingAdd a b).toInt = sClamp w (a.toInt + b.toInt) := by
  have h := sHasOverflowAdd_iff (by omega) a b
  have hc := toInt_add_cases (by omega) a b
  have hM := half_ge_two hw
  have ha := toInt_fits (by omega) a
  have hb := toInt_fits (by omega) b
  have e0 := toInt_zero' (w := w)
  unfold sSaturatingAdd sClamp clamp
  unfold SFits at *
  split
  · rename_i h1
    rw [h] at h1
    split
    · rename_i h2
      rw [slt_iff, e0] at h2
      rw [toInt_sMin (by omega)]
      split
      · rfl
      · split <;> omega
    · rename_i h2
      rw [slt_iff, e0] at h2
      rw [toInt_sMax (by omega)]
      split
      · omega
      · split <;> omega
  · rename_i h1
    rw [h] at h1
    split
    · omega
    · split <;> omega

/-- C13 (unsigned). -/
theorem C13_saturatingAdd_unsigned (a b : BitVec w) :
    ((uSaturatingAdd a b).toNat : Int) = uClamp w ((a.toNat : Int) + b.toNat) := by
  have hc := toNat_add_cases a b
  have ha := a.isLt
  have hb := b.isLt
  have e : ((2 ^ w : Nat) : Int) = (2 : Int) ^ w := by simp
  unfold uSaturatingAdd uClamp clamp
  rw [← e]
  simp only [Bool.or_eq_true, ult_iff]
  split
  · rw [uMax, BitVec.toNat_allOnes]
    split
    · omega
    · split <;> omega
  · split
    · omega
    · split <;> omega

example : sSaturatingAdd (100 : BitVec 8) 100 = 127 ∧ sSaturatingAdd (-100 : BitVec 8) (-100) = -128 ∧
    uSaturatingAdd (200 : BitVec 8) 100 = 255 := by decide

/-- C14 (signed, I8..I64): SaturatingSub clamps the exact difference. -/
theorem C14_saturatingSub_signed (hw : 1 < w) (a b : BitVec w) :
    (sSaturatingSub a b).toInt = sClamp w (a.toInt - b.toInt) := by
  have h1 := sHasUnderflowSub_iff (by omega) a b
  have h2 := sHasOverflowSub_imp (by omega) a b
  have hc := toInt_sub_cases (by omega) a b
  have hM := half_ge_two hw
  have ha := toInt_fits (by omega) a
  have hb := toInt_fits (by omega) b
  have e0 := toInt_zero' (w := w)
  unfold sSaturatingSub sClamp clamp
  unfold SFits at *
  simp only [Bool.or_eq_true, h1]
  split
  · rename_i h3
    split
    · rename_i h4
      rw [slt_iff, e0] at h4
      rw [toInt_sMin (by omega)]
      split
      · rfl
      · split
        · omega
        · rcases h3 with h3 | h3
          · have := h2 h3; omega
          · omega
    · rename_i h4
      rw [slt_iff, e0] at h4
      rw [toInt_sMax (by omega)]
      split
      · omega
      · split
        · rfl
        · rcases h3 with h3 | h3
          · have := h2 h3; omega
          · omega
  · rename_i h3
    split
    · omega
    · split <;> omega

/-- C14 (unsigned, including USize). -/
theorem C14_saturatingSub_unsigned (a b : BitVec w) :
    ((uSaturatingSub a b).toNat : Int) = uClamp w ((a.toNat : Int) - b.toNat) := by
  have hc := toNat_sub_cases a b
  have ha := a.isLt
  have hb := b.isLt
  have e : ((2 ^ w : Nat) : Int) = (2 : Int) ^ w := by simp
  unfold uSaturatingSub uClamp clamp
  rw [← e]
  simp only [ult_iff]
  split
  · rw [show (0#w).toNat = 0 by simp]
    split
    · omega
    · split <;> omega
  · split
    · omega
    · split <;> omega

example : sSaturatingSub (-1 : BitVec 8) 127 = -128 ∧ sSaturatingSub (100 : BitVec 8) (-100) = 127 ∧
    uSaturatingSub (3 : BitVec 8) 5 = 0 ∧ uSaturatingSub (5 : BitVec 8) 3 = 2 := by decide

/-- C15, full property: ISize.SaturatingSub clamps the exact difference.  It holds exactly when the
32-bit test of the code does not fire, or the difference overflows 64 bits, or the clamped value
happens to coincide.  Missing: representable differences beyond 32 bits. -/
theorem C15_saturatingSub_isize_partial (a b : BitVec 64) :
    (isizeSaturatingSub a b).toInt = sClamp 64 (a.toInt - b.toInt) ↔
      (¬ SFits 64 (a.toInt - b.toInt) ∨
       ¬ ((0 < b.toInt ∧ a.toInt - b.toInt < -2147483648) ∨
          (b.toInt < 0 ∧ 2147483647 < a.toInt - b.toInt)) ∨
       (0 < b.toInt ∧ a.toInt - b.toInt = -2 ^ 63) ∨
       (b.toInt < 0 ∧ 0 ≤ a.toInt ∧ a.toInt - b.toInt = 2 ^ 63 - 1)) := by
  have h1 := isizeHasOverflowSub_iff a b
  have h2 := isizeHasUnderflowSub_iff a b
  have hc := toInt_sub_cases (by omega) a b
  have ha := toInt_fits (w := 64) (by decide) a
  have hb := toInt_fits (w := 64) (by decide) b
  have e0 := toInt_zero' (w := 64)
  unfold isizeSaturatingSub sClamp clamp
  unfold SFits at *
  simp only [Bool.or_eq_true, h1, h2, Nat.reduceSub, Int.reducePow] at *
  split
  · rename_i h3
    split
    · rename_i h4
      rw [slt_iff, e0] at h4
      rw [show (sMin 64).toInt = -9223372036854775808 by decide]
      split
      · omega
      · split <;> omega
    · rename_i h4
      rw [slt_iff, e0] at h4
      rw [show (sMax 64).toInt = 9223372036854775807 by decide]
      split
      · omega
      · split <;> omega
  · rename_i h3
    split
    · omega
    · split <;> omega

/-- C15 is violated: `ISize(0).SaturatingSub(2^31+1)` is `MaxInt`, the true value is negative. -/
theorem C15_saturatingSub_isize_fails :
    isizeSaturatingSub 0 2147483649#64 = sMax 64 ∧
    ¬ ∀ a b : BitVec 64, (isizeSaturatingSub a b).toInt = sClamp 64 (a.toInt - b.toInt) := by
  refine ⟨by decide, fun h => ?_⟩
  have := h 0 2147483649#64
  revert this
  decide

example : isizeSaturatingSub 100 27 = 73 ∧ isizeSaturatingSub (sMin 64) 2 = sMin 64 := by decide

/-- C16: unsigned SaturatingMul (U8..U64) clamps the exact product. -/
theorem C16_saturatingMul_unsigned (a b : BitVec w) :
    ((uSaturatingMul a b).toNat : Int) = uClamp w ((a.toNat : Int) * b.toNat) := by
  have h := uHasOverflowMul_iff a b
  have hp : 0 < 2 ^ w := Nat.two_pow_pos w
  have e : ((2 ^ w : Nat) : Int) = (2 : Int) ^ w := by simp
  have e2 : ((a.toNat * b.toNat : Nat) : Int) = (a.toNat : Int) * b.toNat := by simp
  unfold uSaturatingMul uClamp clamp
  rw [← e, ← e2]
  simp only [h]
  split
  · rw [uMax, BitVec.toNat_allOnes]
    split
    · omega
    · split <;> omega
  · rw [toNat_mul_of_fits _ _ (by omega)]
    split
    · omega
    · split <;> omega

example : uSaturatingMul (16 : BitVec 8) 16 = 255 ∧ uSaturatingMul (15 : BitVec 8) 17 = 255 ∧
    uSaturatingMul (7 : BitVec 8) 6 = 42 := by decide

/-- C17 (signed), full property: SaturatingMul clamps the exact product.  Exact domain: both operands
positive; or both non-positive with a representable product; or negative times positive with a product
`≤ MIN`.  Missing: all other operands. -/
theorem C17_saturatingMul_signed_partial (hw : 1 < w) (a b : BitVec w) :
    (sSaturatingMul a b).toInt = sClamp w (a.toInt * b.toInt) ↔
      ((0 < a.toInt ∧ 0 < b.toInt) ∨
       (a.toInt < 0 ∧ 0 < b.toInt ∧ a.toInt * b.toInt ≤ -2 ^ (w - 1)) ∨
       (a.toInt ≤ 0 ∧ b.toInt ≤ 0 ∧ a.toInt * b.toInt < 2 ^ (w - 1))) := by
  have h := sHasOverflowMul_iff hw a b
  have hM := half_ge_two hw
  have ha := toInt_fits (by omega) a
  have hb := toInt_fits (by omega) b
  have e0 := toInt_zero' (w := w)
  have hs1 : 0 < a.toInt → 0 < b.toInt → 0 < a.toInt * b.toInt := fun h1 h2 => Int.mul_pos h1 h2
  have hs2 : 0 < a.toInt → b.toInt ≤ 0 → a.toInt * b.toInt ≤ 0 := fun h1 h2 =>
    Int.mul_nonpos_of_nonneg_of_nonpos (by omega) h2
  have hs3 : a.toInt ≤ 0 → 0 < b.toInt → a.toInt * b.toInt ≤ 0 := fun h1 h2 =>
    Int.mul_nonpos_of_nonpos_of_nonneg h1 (by omega)
  have hs4 : a.toInt ≤ 0 → b.toInt ≤ 0 → 0 ≤ a.toInt * b.toInt := fun h1 h2 =>
    Int.mul_nonneg_of_nonpos_of_nonpos h1 h2
  have hs5 : a.toInt = 0 → a.toInt * b.toInt = 0 := fun h => by rw [h]; simp
  have hmul : SFits w (a.toInt * b.toInt) → (a * b).toInt = a.toInt * b.toInt :=
    toInt_mul_of_fits (by omega) a b
  unfold sSaturatingMul sClamp clamp
  unfold SFits at *
  generalize a.toInt * b.toInt = p at *
  by_cases h1 : sHasOverflowMul a b = true
  · rw [if_pos h1]
    rw [h] at h1
    split
    · rename_i h2
      rw [slt_iff, e0] at h2
      rw [toInt_sMin (by omega)]
      split
      · omega
      · split <;> omega
    · rename_i h2
      rw [slt_iff, e0] at h2
      rw [toInt_sMax (by omega)]
      split
      · omega
      · split <;> omega
  · rw [if_neg h1]
    rw [h] at h1
    rw [hmul (by omega)]
    split
    · omega
    · split <;> omega

/-- C17 (USize), full property: `min(a*b, MAX)`.  Exact domain: product below `2^32` or at least
`2^64-1`. -/
theorem C17_saturatingMul_usize_partial (a b : BitVec 64) :
    ((usizeSaturatingMul a b).toNat : Int) = uClamp 64 ((a.toNat : Int) * b.toNat) ↔
      (a.toNat * b.toNat < 2 ^ 32 ∨ 2 ^ 64 - 1 ≤ a.toNat * b.toNat) := by
  have h := usizeHasOverflowMul_iff a b
  have e2 : ((a.toNat * b.toNat : Nat) : Int) = (a.toNat : Int) * b.toNat := by simp
  unfold usizeSaturatingMul uClamp clamp
  rw [← e2]
  simp only [h]
  split
  · rw [uMax, BitVec.toNat_allOnes]
    split
    · omega
    · split <;> omega
  · rw [toNat_mul_of_fits _ _ (by omega)]
    split
    · omega
    · split <;> omega

/-- C17 is violated: `I8(0).SaturatingMul(5) = 127`, `I8(5).SaturatingMul(-1) = 127`,
`I8(-100).SaturatingMul(-100) = -128`, `USize(2^16).SaturatingMul(2^16) = MaxUint`. -/
theorem C17_saturatingMul_fails :
    sSaturatingMul (0 : BitVec 8) 5 = 127 ∧ sSaturatingMul (5 : BitVec 8) (-1) = 127 ∧
    sSaturatingMul (-100 : BitVec 8) (-100) = -128 ∧
    usizeSaturatingMul 65536#64 65536#64 = uMax 64 ∧
    (¬ ∀ a b : BitVec 8, (sSaturatingMul a b).toInt = sClamp 8 (a.toInt * b.toInt)) ∧
    (¬ ∀ a b : BitVec 64,
      ((usizeSaturatingMul a b).toNat : Int) = uClamp 64 ((a.toNat : Int) * b.toNat)) := by
  refine ⟨by decide, by decide, by decide, by decide, fun h => ?_, fun h => ?_⟩
  · have := h 0 5; revert this; decide
  · have := h 65536#64 65536#64; revert this; decide

example : sSaturatingMul (11 : BitVec 8) 12 = 127 ∧ sSaturatingMul (-11 : BitVec 8) (-11) = 121 ∧
    sSaturatingMul (-100 : BitVec 8) 2 = -128 := by decide

/-- C18 (signed): for a non-zero divisor SaturatingDiv is the clamped truncated quotient; for a zero
divisor it returns MIN for negative `a` and MAX otherwise.  It never panics. -/
theorem C18_saturatingDiv_signed (hw : 1 < w) (a b : BitVec w) :
    ∃ r, sSaturatingDiv a b = .ok r ∧
      (b.toInt ≠ 0 → r.toInt = sClamp w (a.toInt.tdiv b.toInt)) ∧
      (b.toInt = 0 → r.toInt = if a.toInt < 0 then -2 ^ (w - 1) else 2 ^ (w - 1) - 1) := by
  obtain ⟨r, hr, h0, h1⟩ := C07_checkedDiv_signed hw a b
  have hM := half_ge_two hw
  have e0 := toInt_zero' (w := w)
  have ez : b = 0#w ↔ b.toInt = 0 := by rw [← e0, BitVec.toInt_inj]
  unfold sCheckedDiv at hr
  unfold sSaturatingDiv
  by_cases ho : sHasOverflowDiv a b = true
  · rw [if_pos ho]
    rw [if_pos ho] at hr
    cases hr
    unfold sHasOverflowDiv at ho
    by_cases hz : b = 0#w
    · have hz' := ez.1 hz
      by_cases hn : a.toInt < 0
      · refine ⟨sMin w, ?_, fun h => absurd hz' h, fun _ => ?_⟩
        · rw [if_neg, if_pos]
          · rw [slt_iff, e0]; exact hn
          · rw [hz]
            simp only [Bool.and_eq_true, beq_iff_eq, not_and]
            intro _ h
            have : (0#w).toNat = (-1#w).toNat := by rw [← h]
            rw [BitVec.neg_one_eq_allOnes, BitVec.toNat_allOnes] at this
            have h3 : 2 ≤ 2 ^ w := by
              calc 2 = 2 ^ 1 := rfl
                _ ≤ 2 ^ w := Nat.pow_le_pow_right (by decide) (by omega)
            simp at this
            omega
        · rw [toInt_sMin (by omega), if_pos hn]
      · refine ⟨sMax w, ?_, fun h => absurd hz' h, fun _ => ?_⟩
        · split
          · rfl
          · rw [if_neg]
            rw [slt_iff, e0]; exact hn
        · rw [toInt_sMax (by omega), if_neg hn]
    · have hz' : b.toInt ≠ 0 := fun h => hz (ez.2 h)
      have hov := (h1 hz').1
      have hnf : ¬ SFits w (a.toInt.tdiv b.toInt) := by
        intro hf; obtain ⟨v, hv, _⟩ := hov hf; cases hv
      have hz2 : ¬ (b == 0#w) = true := by simpa using hz
      rw [if_neg hz2] at ho
      split at ho
      · rename_i hc
        rw [if_pos hc]
        refine ⟨sMax w, rfl, fun _ => ?_, fun h => absurd h hz'⟩
        rw [Bool.and_eq_true, beq_iff_eq, beq_iff_eq] at hc
        have hle := Int.natAbs_tdiv_le_natAbs a.toInt b.toInt
        have hbneg : b.toInt < 0 := by
          rw [hc.2, BitVec.neg_one_eq_allOnes, BitVec.toInt_allOnes]
          rw [if_pos (by omega)]; decide
        have hq : 0 ≤ a.toInt.tdiv b.toInt := by
          rw [← Int.neg_tdiv_neg]
          apply Int.tdiv_nonneg
          · rw [hc.1, toInt_sMin (by omega)]; omega
          · omega
        rw [toInt_sMax (by omega)]
        unfold sClamp clamp
        unfold SFits at hnf
        split
        · omega
        · split <;> omega
      · cases ho
  · rw [if_neg ho]
    rw [if_neg ho] at hr
    unfold goSDiv at hr ⊢
    by_cases hz : b = 0#w
    · exfalso; apply ho; unfold sHasOverflowDiv; simp [hz]
    · rw [if_neg hz] at hr ⊢
      refine ⟨_, rfl, fun hz' => ?_, fun h => absurd (ez.2 h) hz⟩
      simp only [bind, Except.bind] at hr
      cases hr
      have hf : SFits w (a.toInt.tdiv b.toInt) := by
        apply Decidable.byContradiction
        intro hn
        have := (h1 hz').2 hn
        cases this
      obtain ⟨v, hv, he⟩ := (h1 hz').1 hf
      cases hv
      rw [he]
      unfold sClamp clamp
      unfold SFits at hf
      split
      · omega
      · split <;> omega

/-- C18 (unsigned): the quotient for a non-zero divisor, 0 for a zero divisor; never panics. -/
theorem C18_saturatingDiv_unsigned (a b : BitVec w) :
    ∃ r, uSaturatingDiv a b = .ok r ∧
      (b.toNat ≠ 0 → r.toNat = a.toNat / b.toNat) ∧ (b.toNat = 0 → r.toNat = 0) := by
  unfold uSaturatingDiv goUDiv
  by_cases hz : b = 0#w
  · subst hz
    exact ⟨0, by simp, fun h => absurd (by simp) h, fun _ => by simp⟩
  · refine ⟨a.udiv b, by simp [hz], fun _ => by simp, fun h => ?_⟩
    exact absurd (BitVec.eq_of_toNat_eq (by simpa using h)) hz

example : sSaturatingDiv (-128 : BitVec 8) (-1) = .ok 127 ∧ sSaturatingDiv (-7 : BitVec 8) 2 = .ok (-3) ∧
    sSaturatingDiv (-7 : BitVec 8) 0 = .ok (-128) ∧ uSaturatingDiv (7 : BitVec 8) 0 = .ok 0 := by decide

/-! ### C19 AbsDiff, C20 Abs / Neg / sign, C21 Pow -/

/-- C19 (signed): the unsigned value of AbsDiff is `|a - b|`. -/
theorem C19_absDiff_signed (hw : 1 < w) (a b : BitVec w) :
    ((sAbsDiff a b).toNat : Int) = (a.toInt - b.toInt).natAbs := by
  have ha := toInt_fits (by omega) a
  have hb := toInt_fits (by omega) b
  unfold sAbsDiff
  unfold SFits at *
  split
  · rename_i h
    rw [slt_iff] at h
    have h1 := toInt_sub_cases (by omega) a b
    have h2 := toNat_cases (by omega) (a - b)
    unfold SFits at h1
    omega
  · rename_i h
    rw [slt_iff] at h
    have h1 := toInt_sub_cases (by omega) b a
    have h2 := toNat_cases (by omega) (b - a)
    unfold SFits at h1
    omega

/-- C19 (unsigned). -/
theorem C19_absDiff_unsigned (a b : BitVec w) :
    ((uAbsDiff a b).toNat : Int) = ((a.toNat : Int) - b.toNat).natAbs := by
  unfold uAbsDiff
  split
  · rename_i h
    rw [ult_iff] at h
    have h1 := toNat_sub_cases a b
    omega
  · rename_i h
    rw [ult_iff] at h
    have h1 := toNat_sub_cases b a
    omega

example : sAbsDiff (-128 : BitVec 8) 127 = 255 ∧ uAbsDiff (3 : BitVec 8) 250 = 247 := by decide

/-- C20: Abs and Neg are exact except on MIN, which they return unchanged; the sign tests follow the
value. -/
theorem C20_abs_neg_sign (hw : 1 < w) (a r : BitVec w) :
    (a.toInt ≠ -2 ^ (w - 1) → (sAbs a).toInt = a.toInt.natAbs ∧ (sNeg a r).toInt = -a.toInt) ∧
    (a.toInt = -2 ^ (w - 1) → sAbs a = a ∧ sNeg a r = a ∧ (sAbs a).toInt < 0) ∧
    (sIsPositive a = true ↔ 0 < a.toInt) ∧ (sIsNegative a = true ↔ a.toInt < 0) := by
  have hM := half_ge_two hw
  have ha := toInt_fits (by omega) a
  have e0 := toInt_zero' (w := w)
  have h1 := toInt_sub_cases (by omega) 0#w a
  rw [BitVec.zero_sub, e0] at h1
  unfold SFits at *
  refine ⟨fun h => ?_, fun h => ?_, ?_, ?_⟩
  · constructor
    · unfold sAbs
      split
      · rename_i h2; rw [slt_iff, e0] at h2; omega
      · rename_i h2; rw [slt_iff, e0] at h2; omega
    · unfold sNeg; omega
  · have hn : -a = a := by rw [← BitVec.toInt_inj]; omega
    have hab : sAbs a = a := by unfold sAbs; split <;> simp [hn]
    refine ⟨hab, hn, ?_⟩
    rw [hab]; omega
  · unfold sIsPositive; rw [slt_iff, e0]
  · unfold sIsNegative; rw [slt_iff, e0]

example : sAbs (-5 : BitVec 8) = 5 ∧ sAbs (-128 : BitVec 8) = -128 ∧ sNeg (7 : BitVec 8) 0 = -7 := by decide

/-- C21 (unsigned value): `a.Pow(e) = a^e mod 2^w` for every exponent; the recursion terminates. -/
theorem C21_pow_unsigned (a : BitVec w) (e : BitVec 32) :
    (pow a e).toNat = a.toNat ^ e.toNat % 2 ^ w := by
  have h2 : (2#32).toNat = 2 := by decide
  have e2 : ∀ x : Nat, x ^ 2 = x * x := fun x => by rw [Nat.pow_succ, Nat.pow_one]
  fun_induction pow a e with
  | case1 a => simp [BitVec.toNat_ofNat]
  | case2 a h0 => simp [Nat.mod_eq_of_lt a.isLt]
  | case3 a e h0 h1 hm ih =>
    rw [ih]
    simp only [BitVec.udiv_eq, BitVec.toNat_udiv, h2, BitVec.toNat_mul]
    have hm' : e.toNat % 2 = 0 := by
      have := congrArg BitVec.toNat hm
      simpa [h2] using this
    rw [← Nat.pow_mod, ← e2, ← Nat.pow_mul]
    congr 2
    omega
  | case4 a e h0 h1 hm ih =>
    rw [BitVec.toNat_mul, ih]
    simp only [BitVec.udiv_eq, BitVec.toNat_udiv, h2, BitVec.toNat_mul]
    have hm' : e.toNat % 2 = 1 := by
      have : e.toNat % 2 ≠ 0 := by
        intro h
        apply hm
        apply BitVec.eq_of_toNat_eq
        simpa [h2] using h
      omega
    rw [← Nat.pow_mod, ← e2, ← Nat.pow_mul, Nat.mul_mod, Nat.mod_mod, ← Nat.mul_mod]
    congr 1
    rw [← Nat.pow_succ']
    congr 1
    omega

/-- C21 (signed value): `a.Pow(e)` is congruent to `a^e`; equal to it when it is representable. -/
theorem C21_pow_signed (hw : 1 < w) (a : BitVec w) (e : BitVec 32) :
    CongMod w (pow a e).toInt (a.toInt ^ e.toNat) ∧
    (SFits w (a.toInt ^ e.toNat) → (pow a e).toInt = a.toInt ^ e.toNat) := by
  have h1 := congMod_toInt_toNat (by omega) (pow a e)
  have h2 := congMod_toInt_toNat (by omega) a
  have h3 : CongMod w ((a.toNat : Int) ^ e.toNat) (a.toInt ^ e.toNat) := by
    obtain ⟨k, hk⟩ := CongMod.symm' h2
    generalize e.toNat = n
    induction n with
    | zero => exact ⟨0, by simp⟩
    | succ n ih =>
      obtain ⟨l, hl⟩ := ih
      refine ⟨k * a.toInt ^ n + l * (a.toInt + k * 2 ^ w), ?_⟩
      rw [Int.pow_succ, Int.pow_succ, hl]
      rw [hk]
      simp only [Int.add_mul, Int.mul_add]
      have c1 : a.toInt ^ n * (k * 2 ^ w) = k * a.toInt ^ n * 2 ^ w := by
        rw [← Int.mul_assoc, Int.mul_comm (a.toInt ^ n) k]
      have c2 : l * 2 ^ w * a.toInt = l * a.toInt * 2 ^ w := by
        rw [Int.mul_assoc, Int.mul_comm ((2 : Int) ^ w), ← Int.mul_assoc]
      have c3 : l * 2 ^ w * (k * 2 ^ w) = l * (k * 2 ^ w) * 2 ^ w := by
        rw [Int.mul_assoc, Int.mul_comm ((2 : Int) ^ w), ← Int.mul_assoc]
      omega
  have hc : CongMod w (pow a e).toInt (a.toInt ^ e.toNat) := by
    rw [C21_pow_unsigned] at h1
    refine CongMod.trans' h1 (CongMod.trans' ?_ h3)
    have := congMod_emod (w := w) ((a.toNat : Int) ^ e.toNat)
    push_cast
    exact this
  refine ⟨hc, fun hf => ?_⟩
  exact CongMod.unique (by omega) (toInt_fits (by omega) _) hf hc ⟨0, by omega⟩

example : (pow (3 : BitVec 8) 6).toNat = 217 := by rw [C21_pow_unsigned]; decide
example : (pow (-3 : BitVec 8) 3).toInt = -27 := by
  rw [(C21_pow_signed (by decide) _ _).2 (by decide)]; decide

/-! ### C22 Shl / Shr -/

/-- C22, full property: `a.Shl(b) = a * 2^b mod 2^w`, `a.Shr(b) = a / 2^b` for `b < w`.  The code
ignores `b`.  Proved: it holds when `b` happens to equal `a`.  Missing: everything else. -/
theorem C22_shift_partial (a : BitVec w) :
    (uShl a a).toNat = a.toNat * 2 ^ a.toNat % 2 ^ w ∧ (uShr a a).toNat = a.toNat / 2 ^ a.toNat ∧
    (0 ≤ a.toInt → sShl a a = .ok (a <<< a.toNat) ∧ sShr a a = .ok (a.sshiftRight a.toNat)) := by
  refine ⟨?_, ?_, fun h => ?_⟩
  · simp [uShl, goShl, BitVec.toNat_shiftLeft, Nat.shiftLeft_eq]
  · simp only [uShr, goUShr, BitVec.toNat_ushiftRight, Nat.shiftRight_eq_div_pow]
  · have hn : ¬ (slt a 0#w = true) := by rw [slt_iff, toInt_zero']; omega
    simp [sShl, sShr, goShl, goSShr, hn]

/-- C22 is violated for every width, both directions: the right operand has no influence at all, and a
negative left operand always panics. -/
theorem C22_shift_fails (hw : 1 < w) :
    (∀ a b b' : BitVec w, uShl a b = uShl a b' ∧ uShr a b = uShr a b' ∧ sShl a b = sShl a b' ∧
      sShr a b = sShr a b') ∧
    (∀ a b : BitVec w, a.toInt < 0 → sShl a b = .error .negativeShift ∧
      sShr a b = .error .negativeShift) ∧
    (¬ ∀ a b : BitVec w, b.toNat < w → (uShl a b).toNat = a.toNat * 2 ^ b.toNat % 2 ^ w) ∧
    (¬ ∀ a b : BitVec w, b.toNat < w → (uShr a b).toNat = a.toNat / 2 ^ b.toNat) := by
  have h4 : 4 ≤ 2 ^ w := by
    calc 4 = 2 ^ 2 := rfl
      _ ≤ 2 ^ w := Nat.pow_le_pow_right (by decide) (by omega)
  have t0 : (0#w).toNat = 0 := by simp
  have t1 : (1#w).toNat = 1 := by
    rw [BitVec.toNat_ofNat]; exact Nat.mod_eq_of_lt (by omega)
  refine ⟨fun _ _ _ => ⟨rfl, rfl, rfl, rfl⟩, fun a b h => ?_, fun h => ?_, fun h => ?_⟩
  · have : slt a 0#w = true := by rw [slt_iff, toInt_zero']; exact h
    simp [sShl, sShr, this]
  · have h1 := h 1#w 0#w (by rw [t0]; omega)
    simp only [uShl, goShl, BitVec.toNat_shiftLeft, t0, t1, Nat.shiftLeft_eq] at h1
    rw [Nat.mod_eq_of_lt (by omega), Nat.mod_eq_of_lt (by omega)] at h1
    omega
  · have h1 := h 1#w 0#w (by rw [t0]; omega)
    simp only [uShr, goUShr, BitVec.toNat_ushiftRight, t0, t1, Nat.shiftRight_eq_div_pow] at h1
    omega

example : uShl (1 : BitVec 8) 4 = 2 ∧ uShr (8 : BitVec 8) 1 = 0 ∧ sShl (3 : BitVec 8) 1 = .ok 24 := by decide

end Gost
