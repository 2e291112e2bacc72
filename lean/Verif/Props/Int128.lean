import Verif.Lemmas.Shift128
/-
Properties C25 - C36: the 128-bit integer types.
-/
namespace Gost
open Gost.Ints Gost.Spec Gost.Cmp

/-! ### C25 - C28 U128 -/

/-- C25: U128 Add and Sub are arithmetic modulo `2^128`. -/
theorem C25_u128_add_sub (a b : U128) :
    ((a.add b).val : Int) = ((a.val : Int) + b.val) % 2 ^ 128 ∧
    ((a.sub b).val : Int) = ((a.val : Int) - b.val) % 2 ^ 128 := by
  have ha := a.val_lt
  have hb := b.val_lt
  have h1 := U128.add_val a b
  have h2 := U128.sub_val a b
  omega

example : U128.add ⟨1#64, -1#64⟩ ⟨2#64, 1#64⟩ = ⟨4#64, 0#64⟩ ∧
    U128.sub ⟨1#64, 0#64⟩ ⟨0#64, 1#64⟩ = ⟨0#64, -1#64⟩ := by decide

/-- C26: U128 Mul is multiplication modulo `2^128`. -/
theorem C26_u128_mul (a b : U128) : (a.mul b).val = a.val * b.val % 2 ^ 128 := U128.mul_val a b

example : (U128.mul ⟨0#64, -1#64⟩ ⟨0#64, -1#64⟩).val = (2 ^ 64 - 1) * (2 ^ 64 - 1) := by
  rw [C26_u128_mul]; decide

/-- C27: U128 Div and Rem satisfy the division equation and panic on a zero divisor. -/
theorem C27_u128_div_rem (a b : U128) :
    (b.val = 0 → a.div b = .error .divideByZero ∧ a.rem b = .error .divideByZero) ∧
    (b.val ≠ 0 → ∃ q r, a.div b = .ok q ∧ a.rem b = .ok r ∧
      a.val = q.val * b.val + r.val ∧ r.val < b.val) := by
  constructor
  · intro h; exact ⟨(U128.div_val a b).1 h, (U128.rem_val a b).1 h⟩
  · intro h
    obtain ⟨q, hq, vq⟩ := (U128.div_val a b).2 h
    obtain ⟨r, hr, vr⟩ := (U128.rem_val a b).2 h
    refine ⟨q, r, hq, hr, ?_, ?_⟩
    · rw [vq, vr, Nat.mul_comm]; exact (Nat.div_add_mod _ _).symm
    · rw [vr]; exact Nat.mod_lt _ (by omega)

/-- The hypotheses are met, with a quotient and a remainder that are both non-trivial. -/
example : ∃ q r, U128.div ⟨5#64, 7#64⟩ ⟨0#64, 10#64⟩ = .ok q ∧ U128.rem ⟨5#64, 7#64⟩ ⟨0#64, 10#64⟩ = .ok r ∧
    q.val = 9223372036854775808 ∧ r.val = 7 := by
  obtain ⟨q, hq, vq⟩ := (U128.div_val ⟨5#64, 7#64⟩ ⟨0#64, 10#64⟩).2 (by decide)
  obtain ⟨r, hr, vr⟩ := (U128.rem_val ⟨5#64, 7#64⟩ ⟨0#64, 10#64⟩).2 (by decide)
  exact ⟨q, r, hq, hr, by rw [vq]; decide, by rw [vr]; decide⟩

/-- C28: U128.ToString is the canonical decimal numeral of the value; parsing it gives the value back
and different values print differently. -/
theorem C28_u128_toString (a b : U128) :
    IsNumeral a.toStr a.val ∧ Dec.parseInt a.toStr = some (a.val : Int) ∧
    (a.toStr = b.toStr → a = b) := by
  have hp : ∀ x : U128, Dec.parseInt x.toStr = some (x.val : Int) := fun x =>
    Dec.parseInt_numeral (Or.inl ⟨by omega, by simpa using x.toStr_isNumeral⟩)
  refine ⟨a.toStr_isNumeral, hp a, fun h => U128.val_inj ?_⟩
  have h1 := hp a
  rw [h, hp b] at h1
  have h2 := Option.some.inj h1
  omega

/-- 2^64 prints as 18446744073709551616. -/
example : U128.toStr ⟨1#64, 0#64⟩ =
    [49, 56, 52, 52, 54, 55, 52, 52, 48, 55, 51, 55, 48, 57, 53, 53, 49, 54, 49, 54] :=
  Dec.IsNumeral.unique (C28_u128_toString ⟨1#64, 0#64⟩ ⟨0#64, 0#64⟩).1
    ⟨by decide, by decide, by decide, by decide⟩

/-! ### C29 - C33 I128 -/

/-- C29: I128 Add is addition modulo `2^128`. -/
theorem C29_i128_add (a b : I128) : CongMod 128 (a.add b).val (a.val + b.val) := by
  rw [I128.congMod_iff, I128.add_bits_val]
  have ha := a.val_cases
  have hb := b.val_cases
  have := a.bits.val_lt
  have := b.bits.val_lt
  omega

example : I128.add ⟨-1#64, -1#64⟩ ⟨0#64, 1#64⟩ = ⟨0#64, 0#64⟩ := by decide

/-- C30, full property: `a.Neg()` is `-a` and `a.Sub(b)` is `a - b` modulo `2^128`.  Exact domain: the
operand negated must have a low half that is neither all zeros nor all ones.  Missing: the other
operands, where both results are wrong. -/
theorem C30_i128_neg_sub_partial (a b : I128) :
    (CongMod 128 a.neg.val (-a.val) ↔ LowMixed a.val) ∧
    (CongMod 128 (a.sub b).val (a.val - b.val) ↔ LowMixed b.val) := by
  refine ⟨I128.neg_val_iff a, ?_⟩
  rw [← I128.neg_val_iff b]
  rw [I128.congMod_iff, I128.congMod_iff, I128.sub, I128.add_bits_val]
  have ha := a.val_cases
  have h1 := a.bits.val_lt
  have h2 := b.neg.bits.val_lt
  omega

/-- C30 is violated, among others, for zero: `0.Neg()` is `-2^64`, so `a.Sub(0)` is never `a`. -/
theorem C30_i128_neg_sub_fails :
    (I128.neg ⟨0#64, 0#64⟩).val = -2 ^ 64 ∧
    (∀ a : I128, a.sub ⟨0#64, 0#64⟩ ≠ a) ∧
    (∀ h : BitVec 64, ¬ CongMod 128 (I128.neg ⟨h, -1#64⟩).val (-(I128.val ⟨h, -1#64⟩))) := by
  refine ⟨by decide, ?_, ?_⟩
  · intro a h
    have h2 := (C30_i128_neg_sub_partial a ⟨0#64, 0#64⟩).2.1
      ⟨0, by rw [h]; have : I128.val ⟨0#64, 0#64⟩ = 0 := by decide
             omega⟩
    exact absurd h2 (by decide)
  · intro h hc
    have h2 := (I128.neg_val_iff ⟨h, -1#64⟩).1 hc
    have h3 := I128.low_toNat ⟨h, -1#64⟩
    have h4 : (-1#64).toNat = 2 ^ 64 - 1 := by decide
    unfold LowMixed at h2
    rw [← h3] at h2
    simp only [h4] at h2
    omega

example : LowMixed (I128.val ⟨0#64, 5#64⟩) ∧ I128.neg ⟨0#64, 5#64⟩ = ⟨-1#64, -5#64⟩ ∧
    I128.sub ⟨3#64, 0#64⟩ ⟨0#64, 1#64⟩ = ⟨2#64, -1#64⟩ := by decide

/-- C31, full property: `CongMod 128 (a.mul b).val (a.val * b.val)` for all `a`, `b`.  Proved: for
operands that are non-negative or whose low half is mixed, the product is right exactly when the signs
agree or the absolute product has a mixed low half.  The result for all other operands is in
C31_i128_mul_value_partial. -/
theorem C31_i128_mul_partial (a b : I128) (ha : a.val < 0 → LowMixed a.val)
    (hb : b.val < 0 → LowMixed b.val) :
    CongMod 128 (a.mul b).val (a.val * b.val) ↔
      ((a.val < 0 ↔ b.val < 0) ∨ LowMixed (a.val * b.val).natAbs) := by
  have va := I128.abs_val a ha
  have vb := I128.abs_val b hb
  have hx := I128.xor_sign a b
  unfold I128.mul
  simp only
  generalize ea : (if slt a.high 0#64 = true then a.neg else a) = A at *
  generalize eb : (if slt b.high 0#64 = true then b.neg else b) = B at *
  have hm := I128.mulLoop_val A B (by omega)
  have bA := I128.bits_val_of_nonneg A (by omega)
  have bB := I128.bits_val_of_nonneg B (by omega)
  generalize I128.mulLoop 128 ⟨0#64, 0#64⟩ A B = R at *
  have hprod : ((A.bits.val * B.bits.val : Nat) : Int) = (a.val * b.val).natAbs := by
    rw [Int.natCast_mul, bA, bB, va, vb, ← Int.natCast_mul, ← Int.natAbs_mul]
  have hRlow : (R.low.toNat : Int) = ((a.val * b.val).natAbs : Int) % 2 ^ 64 := by
    rw [I128.low_bits, hm, ← hprod]
    omega
  have hRm : LowMixed R.val ↔ LowMixed (a.val * b.val).natAbs := by
    unfold LowMixed
    rw [← I128.low_toNat, hRlow]
  by_cases hs : (a.val < 0 ↔ b.val < 0)
  · rw [if_neg (by rw [hx]; exact fun h => h hs)]
    have hnn : ((a.val * b.val).natAbs : Int) = a.val * b.val := by
      have : 0 ≤ a.val * b.val := by
        by_cases h : a.val < 0
        · exact Int.mul_nonneg_of_nonpos_of_nonpos (by omega) (by have := hs.1 h; omega)
        · exact Int.mul_nonneg (by omega) (by have : ¬ b.val < 0 := fun h' => h (hs.2 h'); omega)
      omega
    refine iff_of_true ?_ (Or.inl hs)
    rw [I128.congMod_iff, hm, ← hnn, ← hprod]
    simp only [Int.natCast_emod]
    rfl
  · rw [if_pos (hx.2 hs), ← hRm]
    have hnn : a.val * b.val = -((a.val * b.val).natAbs : Int) := by
      have : a.val * b.val ≤ 0 := by
        by_cases h : a.val < 0
        · exact Int.mul_nonpos_of_nonpos_of_nonneg (by omega) (by omega)
        · exact Int.mul_nonpos_of_nonneg_of_nonpos (by omega) (by omega)
      omega
    have e : CongMod 128 R.neg.val (a.val * b.val) ↔ CongMod 128 R.neg.val (-R.val) := by
      rw [I128.congMod_iff, I128.congMod_iff, hnn, ← hprod]
      have hc := R.val_cases
      rw [hm] at hc
      generalize A.bits.val * B.bits.val = P at *
      have : (-(P : Int)) % 2 ^ 128 = (-R.val) % 2 ^ 128 := by
        have hmod : (P : Int) = 2 ^ 128 * ((P : Int) / 2 ^ 128) + ((P % 2 ^ 128 : Nat) : Int) := by omega
        generalize (P % 2 ^ 128 : Nat) = Q at *
        rcases hc with h | h
        · rw [h.1]; omega
        · rw [h.1]; omega
      rw [this]
    rw [e, I128.neg_val_iff]
    constructor
    · exact fun h => Or.inr h
    · rintro (h | h)
      · exact absurd h hs
      · exact h

/-- C31 is violated for every negative factor: `a.Mul(0)` is `-2^64`, not 0. -/
theorem C31_i128_mul_fails (a : I128) (h : a.val < 0) :
    (a.mul ⟨0#64, 0#64⟩).val = -2 ^ 64 := by
  have h0 : I128.val ⟨0#64, 0#64⟩ = 0 := by decide
  have hx := I128.xor_sign a ⟨0#64, 0#64⟩
  unfold I128.mul
  simp only
  have hz : (if slt (0#64) 0#64 = true then I128.neg ⟨0#64, 0#64⟩ else (⟨0#64, 0#64⟩ : I128)) =
      ⟨0#64, 0#64⟩ := by decide
  rw [hz, if_pos (hx.2 (by rw [h0]; omega))]
  have hm := I128.mulLoop_val (if slt a.high 0#64 = true then a.neg else a) ⟨0#64, 0#64⟩ (by decide)
  have hb0 : (I128.bits ⟨0#64, 0#64⟩).val = 0 := by decide
  rw [hb0, Nat.mul_zero, Nat.zero_mod] at hm
  have : I128.mulLoop 128 ⟨0#64, 0#64⟩ (if slt a.high 0#64 = true then a.neg else a) ⟨0#64, 0#64⟩ =
      ⟨0#64, 0#64⟩ := I128.bits_inj (U128.val_inj (by rw [hm, hb0]))
  rw [this]
  decide

/-- The hypotheses of the partial theorem are met and the conclusion is not vacuous: -3 * 5 = -15. -/
example : (I128.mul ⟨-1#64, -3#64⟩ ⟨0#64, 5#64⟩).val = -15 := by
  have h := (C31_i128_mul_partial ⟨-1#64, -3#64⟩ ⟨0#64, 5#64⟩ (by decide) (by decide)).2
    (Or.inr (by decide))
  have e1 : I128.val ⟨-1#64, -3#64⟩ = -3 := by decide
  have e2 : I128.val ⟨0#64, 5#64⟩ = 5 := by decide
  rw [e1, e2] at h
  exact I128.eq_of_congMod h (by omega) (by omega)

theorem tdiv_abs (a b : Int) : a.tdiv b =
    if (a < 0 ↔ b < 0) then ((a.natAbs / b.natAbs : Nat) : Int)
    else -((a.natAbs / b.natAbs : Nat) : Int) := by
  by_cases hz : a = 0
  · rw [hz]; simp
  rcases Int.natAbs_eq a with h1 | h1 <;> rcases Int.natAbs_eq b with h2 | h2
  · rw [if_pos (by omega)]; conv => lhs; rw [h1, h2]
    rw [← Int.ofNat_tdiv]
  · by_cases hb : b = 0
    · rw [hb]; simp
    rw [if_neg (by omega)]; conv => lhs; rw [h1, h2]
    rw [Int.tdiv_neg, ← Int.ofNat_tdiv]
  · rw [if_neg (by omega)]; conv => lhs; rw [h1, h2]
    rw [Int.neg_tdiv, ← Int.ofNat_tdiv]
  · by_cases hb : b = 0
    · rw [hb]; simp
    rw [if_pos (by omega)]; conv => lhs; rw [h1, h2]
    rw [Int.neg_tdiv, Int.tdiv_neg, Int.neg_neg, ← Int.ofNat_tdiv]

theorem tmod_abs (a b : Int) : a.tmod b =
    if a < 0 then -((a.natAbs % b.natAbs : Nat) : Int) else ((a.natAbs % b.natAbs : Nat) : Int) := by
  by_cases hz : a = 0
  · rw [hz]; simp
  rcases Int.natAbs_eq a with h1 | h1 <;> rcases Int.natAbs_eq b with h2 | h2
  · rw [if_neg (by omega)]; conv => lhs; rw [h1, h2]
    rw [← Int.ofNat_tmod]
  · rw [if_neg (by omega)]; conv => lhs; rw [h1, h2]
    rw [Int.tmod_neg, ← Int.ofNat_tmod]
  · rw [if_pos (by omega)]; conv => lhs; rw [h1, h2]
    rw [Int.neg_tmod, ← Int.ofNat_tmod]
  · rw [if_pos (by omega)]; conv => lhs; rw [h1, h2]
    rw [Int.neg_tmod, Int.tmod_neg, ← Int.ofNat_tmod]

/-- C32, full property: for `b ≠ 0` and representable quotient, `a.Div(b) = a tdiv b`,
`a.Rem(b) = a tmod b` (truncation toward zero).  Proved: the exact sub-domain on which each result is
right, among the operands that are non-negative or have a mixed low half.  The results for the other
operands are in C32_i128_div_value_partial and C32_i128_rem_value_partial.  Missing: the inputs excluded by the
right-hand sides, where the result is wrong. -/
theorem C32_i128_div_rem_partial (a b : I128) (hb0 : b.val ≠ 0) (ha : a.val < 0 → LowMixed a.val)
    (hb : b.val < 0 → LowMixed b.val) :
    (∃ q, a.div b = .ok q ∧
      (q.val = a.val.tdiv b.val ↔ (a.val < 0 ↔ b.val < 0) ∨ a.val.natAbs < b.val.natAbs ∨
        LowMixed (a.val.natAbs / b.val.natAbs : Nat))) ∧
    (∃ r, a.rem b = .ok r ∧
      (r.val = a.val.tmod b.val ↔ (0 ≤ a.val ∧ 0 < b.val) ∨ (a.val.tmod b.val = 0 ∧ a.val ≠ 0) ∨
        (a.val < 0 ∧ 0 < b.val ∧ LowMixed (a.val.natAbs % b.val.natAbs : Nat)))) := by
  have fa := a.val_fits
  have fb := b.val_fits
  have hAm : a.val.natAbs < 2 ^ 127 := by
    by_cases h : a.val < 0
    · have := ha h; unfold LowMixed at this; omega
    · omega
  have htd := tdiv_abs a.val b.val
  have htm := tmod_abs a.val b.val
  obtain ⟨hd1, hd2⟩ := (I128.div_clean a b ha hb).2 hb0
  obtain ⟨r, hrv, hr1, hr2⟩ := (I128.rem_clean a b ha hb).2 hb0
  constructor
  · by_cases hlt : a.val.natAbs < b.val.natAbs
    · refine ⟨_, hd1 hlt, ?_⟩
      have h0 : I128.val ⟨0#64, 0#64⟩ = 0 := by decide
      rw [h0, htd, Nat.div_eq_of_lt hlt]
      exact iff_of_true (by split <;> rfl) (Or.inr (Or.inl hlt))
    · obtain ⟨q, hqv, hq⟩ := hd2 hlt
      clear hd1 hd2 hr1 hr2 hrv htm
      refine ⟨_, hq, ?_⟩
      have hqlt : a.val.natAbs / b.val.natAbs < 2 ^ 127 :=
        Nat.lt_of_le_of_lt (Nat.div_le_self _ _) hAm
      have hq0 : 0 ≤ q.val := by rw [hqv]; exact Int.natCast_nonneg _
      have hq1 : q.val < 2 ^ 127 := by
        rw [hqv]
        generalize a.val.natAbs / b.val.natAbs = n at hqlt
        omega
      rw [htd]
      by_cases hs : (a.val < 0 ↔ b.val < 0)
      · rw [if_neg (fun h => h hs), if_pos hs, hqv]
        exact iff_of_true rfl (Or.inl hs)
      · rw [if_pos hs, if_neg hs, ← hqv]
        have key : q.neg.val = -q.val ↔ LowMixed q.val := by
          rw [← I128.neg_val_iff]
          constructor
          · intro h; exact ⟨0, by omega⟩
          · intro h; exact I128.eq_of_congMod h (by omega) (by omega)
        rw [key]
        constructor
        · exact fun h => Or.inr (Or.inr h)
        · rintro (h | h | h)
          · exact absurd h hs
          · exact absurd h hlt
          · exact h
  · clear hd1 hd2 htd
    have hrlt : a.val.natAbs % b.val.natAbs < 2 ^ 127 :=
      Nat.lt_of_le_of_lt (Nat.mod_le _ _) hAm
    have key : r.neg.val = -r.val ↔ LowMixed r.val := by
      rw [← I128.neg_val_iff]
      constructor
      · intro h; exact ⟨0, by omega⟩
      · intro h; exact I128.eq_of_congMod h (by omega) (by omega)
    have key2 : r.neg.val ≠ r.val := by
      have h1 := I128.neg_bits_val r
      have h2 := r.low.isLt
      have h3 := r.high.isLt
      intro h
      have hc := I128.val_cases r
      have hc' := I128.val_cases r.neg
      have hbv : r.bits.val = r.high.toNat * 2 ^ 64 + r.low.toNat := rfl
      have : r.neg.bits.val = r.bits.val := by omega
      rw [h1, hbv] at this
      split at this <;> omega
    by_cases hlt : a.val.natAbs < b.val.natAbs
    · refine ⟨_, hr1 hlt, ?_⟩
      clear hr1 hr2
      have hmod := Nat.mod_eq_of_lt hlt
      rw [htm, ← hrv]
      rw [hmod] at hrv
      by_cases hs : (a.val < 0 ↔ b.val < 0)
      · rw [if_neg (fun h => h hs)]
        by_cases hn : a.val < 0
        · rw [if_pos hn]; omega
        · rw [if_neg hn]; exact iff_of_true rfl (by omega)
      · rw [if_pos hs]
        by_cases hn : a.val < 0
        · rw [if_pos hn, key]
          constructor
          · intro h; exact Or.inr (Or.inr ⟨hn, by omega, h⟩)
          · rintro (h | h | h)
            · omega
            · omega
            · exact h.2.2
        · rw [if_neg hn]
          constructor
          · intro h; exact absurd h key2
          · intro h; omega
    · refine ⟨_, hr2 hlt, ?_⟩
      clear hr1 hr2
      rw [htm, ← hrv]
      by_cases hz : r.val = 0
      · rw [if_neg (fun h => h.1 hz), hz]
        refine iff_of_true (by split <;> rfl) (Or.inr (Or.inl ⟨by split <;> rfl, by omega⟩))
      · by_cases hs : (a.val < 0 ↔ b.val < 0)
        · rw [if_neg (fun h => h.2 hs)]
          by_cases hn : a.val < 0
          · rw [if_pos hn]; omega
          · rw [if_neg hn]; exact iff_of_true rfl (by omega)
        · rw [if_pos ⟨hz, hs⟩]
          by_cases hn : a.val < 0
          · rw [if_pos hn, key]
            constructor
            · intro h; exact Or.inr (Or.inr ⟨hn, by omega, h⟩)
            · rintro (h | h | h)
              · omega
              · omega
              · exact h.2.2
          · rw [if_neg hn]
            constructor
            · intro h; exact absurd h key2
            · intro h; omega

/-- C32 is violated: `-7 Rem -3` is `1` (should be `-1`), `0 Rem -3` is not 0, and `-2^64 Div 1` is 0. -/
theorem C32_i128_div_rem_fails :
    (∃ r, I128.rem ⟨-1#64, -7#64⟩ ⟨-1#64, -3#64⟩ = .ok r ∧ r.val ≠ (-7 : Int).tmod (-3)) ∧
    (∃ r, I128.rem ⟨0#64, 0#64⟩ ⟨-1#64, -3#64⟩ = .ok r ∧ r.val ≠ 0) ∧
    (∃ q, I128.div ⟨-1#64, 0#64⟩ ⟨0#64, 1#64⟩ = .ok q ∧ q.val ≠ (-2 ^ 64 : Int).tdiv 1) := by
  refine ⟨?_, ?_, ?_⟩
  · obtain ⟨_, r, hr, h⟩ := C32_i128_div_rem_partial ⟨-1#64, -7#64⟩ ⟨-1#64, -3#64⟩ (by decide)
      (by decide) (by decide)
    refine ⟨r, hr, fun hv => ?_⟩
    have := h.1 (by rw [hv]; decide)
    revert this; decide
  · obtain ⟨_, r, hr, h⟩ := C32_i128_div_rem_partial ⟨0#64, 0#64⟩ ⟨-1#64, -3#64⟩ (by decide)
      (by decide) (by decide)
    refine ⟨r, hr, fun hv => ?_⟩
    have := h.1 (by rw [hv]; decide)
    revert this; decide
  · refine ⟨⟨0#64, 0#64⟩, ?_, by decide⟩
    unfold I128.div
    simp only
    rw [if_pos (by decide)]

/-- -100 / 7 = -14 remainder -2 lies in the domain of the partial theorem. -/
example : (∃ q, I128.div ⟨-1#64, -100#64⟩ ⟨0#64, 7#64⟩ = .ok q ∧ q.val = -14) ∧
    (∃ r, I128.rem ⟨-1#64, -100#64⟩ ⟨0#64, 7#64⟩ = .ok r ∧ r.val = -2) := by
  obtain ⟨⟨q, hq, h1⟩, r, hr, h2⟩ := C32_i128_div_rem_partial ⟨-1#64, -100#64⟩ ⟨0#64, 7#64⟩ (by decide)
    (by decide) (by decide)
  exact ⟨⟨q, hq, h1.2 (by decide)⟩, ⟨r, hr, h2.2 (by decide)⟩⟩

/-- C33, full property: `IsSignedNumeral a.toStr a.val`.  Exact domain: non-negative values and
negative values with a mixed low half.  Missing: the other negative values, which print another
number's numeral. -/
theorem C33_i128_toString_partial (a : I128) :
    IsSignedNumeral a.toStr a.val ↔ (a.val < 0 → LowMixed a.val) := by
  rw [I128.toStr_eq]
  by_cases hn : a.val < 0
  · rw [if_pos hn]
    have hf := Dec.formatInt_isSignedNumeral (-(a.neg.bits.val : Int))
    have hiff := I128.neg_val_iff a
    rw [I128.congMod_iff] at hiff
    have hfit := a.val_fits
    have : (-a.val) % 2 ^ 128 = -a.val := by omega
    rw [this] at hiff
    constructor
    · intro h _
      exact hiff.1 (by have := Dec.IsSignedNumeral.val_unique hf h; omega)
    · intro h
      have := hiff.2 (h hn)
      have e : -(a.neg.bits.val : Int) = a.val := by omega
      rw [← e]
      rw [e]; rw [e] at hf; exact hf
  · rw [if_neg hn]
    exact iff_of_true (Dec.formatInt_isSignedNumeral _) (fun h => absurd h hn)

/-- C33 is violated: `-2^64` prints as "0", and the minimum prints as the numeral of another number. -/
theorem C33_i128_toString_fails :
    I128.toStr ⟨-1#64, 0#64⟩ = [48] ∧ I128.val ⟨-1#64, 0#64⟩ = -2 ^ 64 ∧
    (∀ h : BitVec 64, h.toInt < 0 → ¬ IsSignedNumeral (I128.toStr ⟨h, 0#64⟩) (I128.val ⟨h, 0#64⟩)) := by
  refine ⟨?_, by decide, ?_⟩
  · rw [I128.toStr_eq, if_pos (by decide)]
    have : (I128.neg ⟨-1#64, 0#64⟩).bits.val = 0 := by decide
    rw [this, Dec.formatInt, if_neg (by decide)]
    exact Dec.formatNat_zero
  · intro h hneg hs
    have h1 := (C33_i128_toString_partial ⟨h, 0#64⟩).1 hs
      (by unfold I128.val; simp only [toNat_zero64]; omega)
    have h3 := I128.low_toNat ⟨h, 0#64⟩
    unfold LowMixed at h1
    rw [← h3, toNat_zero64] at h1
    omega

/-- -100 prints as "-100". -/
example : I128.toStr ⟨-1#64, -100#64⟩ = [45, 49, 48, 48] :=
  Dec.IsSignedNumeral.unique ((C33_i128_toString_partial ⟨-1#64, -100#64⟩).2 (by decide))
    (Or.inr ⟨by decide, [49, 48, 48], rfl, by decide, by decide, by decide, by decide⟩)

/-! ### C34 shifts -/

/-- C34, full property: for `k < 128` left shift multiplies by `2^k` modulo `2^128` and right shift
divides by `2^k` rounding down.  Exact domain of each operation: always right for `k = 1`; for other
amounts only under the stated conditions on the half that should be carried over.  Missing: all other
inputs. -/
theorem C34_shift128_partial :
    (∀ a b : U128, b.val < 128 →
      ((a.shl b).val = a.val * 2 ^ b.val % 2 ^ 128 ↔ ShlExact a.low.toNat b.val) ∧
      ((a.shr b).val = a.val / 2 ^ b.val ↔ ShrExact a.high.toNat a.low.toNat b.val)) ∧
    (∀ a b : I128, 0 ≤ b.val → b.val < 128 →
      (CongMod 128 (a.shl b).val (a.val * 2 ^ b.val.toNat) ↔ ShlExact a.low.toNat b.val.toNat) ∧
      ((a.shr b).val = a.val / 2 ^ b.val.toNat ↔ ShrExact a.high.toInt a.low.toNat b.val.toNat)) := by
  refine ⟨fun a b hb => ⟨U128.shl_val_iff a b hb, U128.shr_val_iff a b hb⟩,
    fun a b hb0 hb => ⟨?_, I128.shr_val_iff a b hb0 hb⟩⟩
  have hbv := I128.bits_val_of_nonneg b hb0
  have h1 := U128.shl_val_iff a.bits b.bits (by omega)
  have e : b.bits.val = b.val.toNat := by omega
  rw [e] at h1
  show _ ↔ ShlExact a.bits.low.toNat _
  rw [← h1, I128.congMod_iff, I128.shl_bits]
  have hc := a.val_cases
  have hlt := a.bits.val_lt
  have hp : a.val * ((2 : Int) ^ b.val.toNat) % 2 ^ 128 =
      ((a.bits.val * 2 ^ b.val.toNat % 2 ^ 128 : Nat) : Int) := by
    have hk : ∃ k : Int, a.val = a.bits.val + k * 2 ^ 128 := by
      rcases hc with h | h
      · exact ⟨0, by omega⟩
      · exact ⟨-1, by omega⟩
    obtain ⟨k, hk⟩ := hk
    rw [hk, Int.add_mul, Int.mul_right_comm, Int.add_mul_emod_self_right]
    simp only [Int.natCast_emod, Int.natCast_mul, Int.natCast_pow]
    rfl
  rw [hp]
  constructor
  · intro h; exact_mod_cast h
  · intro h; exact_mod_cast h

/-- C34: shifts by one are exact for every value (this is all the library itself uses). -/
theorem C34_shift128_by_one_partial (a : U128) (b : I128) :
    (a.shl ⟨0#64, 1#64⟩).val = a.val * 2 % 2 ^ 128 ∧ (a.shr ⟨0#64, 1#64⟩).val = a.val / 2 ∧
    CongMod 128 (b.shl ⟨0#64, 1#64⟩).val (b.val * 2) ∧ (b.shr ⟨0#64, 1#64⟩).val = b.val / 2 := by
  have h1 := (C34_shift128_partial.1 a ⟨0#64, 1#64⟩ (by decide))
  have h2 := (C34_shift128_partial.2 b ⟨0#64, 1#64⟩ (by decide) (by decide))
  have e1 : U128.val ⟨0#64, 1#64⟩ = 1 := by decide
  have e2 : (I128.val ⟨0#64, 1#64⟩).toNat = 1 := by decide
  rw [e1] at h1
  rw [e2] at h2
  exact ⟨h1.1.2 (Or.inl rfl), by simpa using h1.2.2 (Or.inl rfl), h2.1.2 (Or.inl rfl),
    h2.2.2 (Or.inl rfl)⟩

/-- C34 is violated for every other shift amount: shifting by `k = 0` or `2 ≤ k < 128` is wrong for
some value, in both directions. -/
theorem C34_shift128_fails (k : Nat) (hk : k < 128) (h1 : k ≠ 1) :
    (∃ a b : U128, b.val = k ∧ (a.shl b).val ≠ a.val * 2 ^ k % 2 ^ 128) ∧
    (∃ a b : U128, b.val = k ∧ (a.shr b).val ≠ a.val / 2 ^ k) := by
  have hb : U128.val ⟨0#64, BitVec.ofNat 64 k⟩ = k := by
    unfold U128.val; rw [toNat_zero64, BitVec.toNat_ofNat]; omega
  constructor
  · refine ⟨⟨0#64, -1#64⟩, ⟨0#64, BitVec.ofNat 64 k⟩, hb, fun h => ?_⟩
    have := (U128.shl_val_iff ⟨0#64, -1#64⟩ ⟨0#64, BitVec.ofNat 64 k⟩ (by omega)).1 (by rw [hb]; exact h)
    rw [hb] at this
    have e : (-1#64).toNat = 2 ^ 64 - 1 := by decide
    unfold ShlExact at this
    simp only [e] at this
    rcases this with h | h | h | h
    · exact h1 h
    · omega
    · have : (2 : Nat) ^ (64 - k) ≤ 2 ^ 62 := Nat.pow_le_pow_right (by omega) (by omega)
      omega
    · omega
  · refine ⟨⟨1#64, 0#64⟩, ⟨0#64, BitVec.ofNat 64 k⟩, hb, fun h => ?_⟩
    have := (U128.shr_val_iff ⟨1#64, 0#64⟩ ⟨0#64, BitVec.ofNat 64 k⟩ (by omega)).1 (by rw [hb]; exact h)
    rw [hb] at this
    unfold ShrExact at this
    simp only [toNat_one64, toNat_zero64] at this
    rcases this with h | h | h | h
    · exact h1 h
    · omega
    · have h4 := pow_ge_four h.1
      have h5 : ((1 : Nat) : Int) % 2 ^ k = ((1 % 2 ^ k : Nat) : Int) := by simp
      have := h.2.2
      rw [h5, Nat.mod_eq_of_lt (by omega)] at this
      omega
    · omega

/-! ### C35, C36 -/

/-- C35: widening conversions preserve the value. -/
theorem C35_widening (x : BitVec 64) :
    (I128.fromI64 x).val = x.toInt ∧ (U128.fromU64 x).val = x.toNat ∧
    (I128.fromU64 x).val = (x.toNat : Int) := by
  refine ⟨?_, ?_, ?_⟩
  · unfold I128.fromI64
    split
    · rename_i h; rw [h]; decide
    · rename_i hz
      have hz' : x.toNat ≠ 0 := fun h => hz (BitVec.eq_of_toNat_eq (by rw [h, toNat_zero64]))
      have hc := I128.hi_cases x
      have hx := x.isLt
      split
      · rename_i hs
        rw [slt_iff, toInt_zero'] at hs
        have hab : sAbs x = -x := by rw [sAbs, if_pos (by rw [slt_iff, toInt_zero']; exact hs)]
        have hn : (-x).toNat = 2 ^ 64 - x.toNat := by
          rw [BitVec.toNat_neg, Nat.mod_eq_of_lt (by omega)]
        have hv : I128.val ⟨0#64, sAbs x⟩ = -x.toInt := by
          unfold I128.val
          rw [hab, hn, toInt_zero']
          omega
        rw [I128.neg_val_of_pos _ (by rw [hv]; omega) (by rw [hv]; unfold LowMixed; omega), hv]
        omega
      · rename_i hs
        rw [slt_iff, toInt_zero'] at hs
        show (0#64).toInt * 2 ^ 64 + (x.toNat : Int) = _
        rw [toInt_zero']
        omega
  · show (0#64).toNat * 2 ^ 64 + x.toNat = _
    rw [toNat_zero64]; omega
  · show (0#64).toInt * 2 ^ 64 + (x.toNat : Int) = _
    rw [toInt_zero']; omega

example : (I128.fromI64 (BitVec.intMin 64)).val = -2 ^ 63 := by decide

/-- C36, full property: `IsPositive ↔ v > 0` and `IsNegative ↔ v < 0`.  IsNegative is right
everywhere; IsPositive exactly outside `0 < v < 2^64`.  Missing: those values. -/
theorem C36_i128_sign_partial (a : I128) :
    (a.isNegative = true ↔ a.val < 0) ∧
    ((a.isPositive = true ↔ 0 < a.val) ↔ ¬ (0 < a.val ∧ a.val < 2 ^ 64)) := by
  refine ⟨I128.high_neg_iff a, ?_⟩
  unfold I128.isPositive
  rw [slt_iff, toInt_zero']
  have h1 := I128.hi_cases a.high
  have h2 := a.low.isLt
  have h3 := a.high.isLt
  unfold I128.val
  omega

/-- C36 is violated by every value strictly between 0 and `2^64`: it is not reported positive. -/
theorem C36_i128_sign_fails (a : I128) (h1 : 0 < a.val) (h2 : a.val < 2 ^ 64) :
    a.isPositive = false := by
  have := (C36_i128_sign_partial a).2
  cases h : a.isPositive with
  | false => rfl
  | true =>
    exact absurd (this.1 (by rw [h]; simp [h1])) (fun hn => hn ⟨h1, h2⟩)

example : I128.isPositive ⟨0#64, 7#64⟩ = false ∧ I128.isPositive ⟨1#64, 7#64⟩ = true ∧
    I128.isNegative ⟨-1#64, 7#64⟩ = true := by decide

end Gost
