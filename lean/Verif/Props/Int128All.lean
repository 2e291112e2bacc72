import Verif.Props.Int128
/-
C31 and C32 for every operand: what Mul, Div and Rem of I128 return also where it is wrong.
-/
namespace Gost
open Spec Ints

namespace Spec
/-- What Neg of I128 computes (before reduction modulo 2^128): numbers whose low half is 0 or 2^64-1 are off. -/
def wrongNeg (x : Int) : Int :=
  if x % 2 ^ 64 = 0 then -x - 2 ^ 64 else if x % 2 ^ 64 = 2 ^ 64 - 1 then -x + (2 ^ 64 - 1) else -x
/-- The absolute value that Mul, Div and Rem work with. -/
def wrongAbs (x : Int) : Int := if x < 0 then wrongNeg x else x
/-- The number whose wrong negation is -2^127. -/
def wrapped : Int := -2 ^ 127 + 2 ^ 64 - 1
end Spec

namespace I128
theorem neg_cong (a : I128) : CongMod 128 a.neg.val (wrongNeg a.val) := by
  have h1 := a.high.isLt
  have h2 := a.low.isLt
  have hl := a.low_toNat
  have hv := hi_cases a.high
  rw [congMod_iff, neg_bits_val, wrongNeg, ← hl]
  unfold I128.val
  split
  · rw [if_neg (by omega), if_pos (by omega)]; omega
  · by_cases h0 : a.low.toNat = 0
    · rw [if_pos (by omega)]; omega
    · rw [if_neg (by omega), if_neg (by omega)]; omega

theorem wrongNeg_cong (x y : Int) (h : x % 2 ^ 128 = y % 2 ^ 128) : wrongNeg x % 2 ^ 128 = wrongNeg y % 2 ^ 128 := by
  have e : x % 2 ^ 64 = y % 2 ^ 64 := by omega
  unfold wrongNeg
  rw [e]
  by_cases h1 : y % 2 ^ 64 = 0
  · rw [if_pos h1, if_pos h1]; omega
  · rw [if_neg h1, if_neg h1]
    by_cases h2 : y % 2 ^ 64 = 2 ^ 64 - 1
    · rw [if_pos h2, if_pos h2]; omega
    · rw [if_neg h2, if_neg h2]; omega

theorem cong_mod (a : I128) (x : Int) : CongMod 128 a.val x ↔ a.val % 2 ^ 128 = x % 2 ^ 128 := by
  rw [congMod_iff]
  have := a.val_cases
  have := a.bits.val_lt
  omega

theorem abs_cong (a : I128) :
    (if slt a.high 0#64 then a.neg else a).val % 2 ^ 128 = wrongAbs a.val % 2 ^ 128 := by
  unfold wrongAbs
  by_cases hn : a.val < 0
  · rw [if_pos ((high_neg_iff a).2 hn), if_pos hn]
    exact (cong_mod _ _).1 (neg_cong a)
  · rw [if_neg (fun h' => hn ((high_neg_iff a).1 h')), if_neg hn]

theorem shr_one_bits (a : I128) :
    (a.shr (fromI64 1#64)).bits.val = a.bits.val / 2 + (if 2 ^ 127 ≤ a.bits.val then 2 ^ 127 else 0) := by
  have h1 := a.high.isLt
  have h2 := a.low.isLt
  have hs := and_one_eq a.high
  have g1 := goUShr_one a.low
  have g2 : (goSShr a.high 1#64).toNat = a.high.toNat / 2 + (if 2 ^ 63 ≤ a.high.toNat then 2 ^ 63 else 0) := by
    unfold goSShr; rw [toNat_one64, sshr_one]
  have hb : a.bits.val = a.high.toNat * 2 ^ 64 + a.low.toNat := rfl
  have hc : (a.shr (fromI64 1#64)).bits.val = (goSShr a.high 1#64).toNat * 2 ^ 64 +
      (if a.high &&& 1#64 = 1#64 then goUShr a.low 1#64 ||| (1#64 <<< 63) else goUShr a.low 1#64).toNat := by
    rw [fromI64_one]; rfl
  rw [hc, hb, g2]
  clear hb hc g2
  by_cases h : a.high.toNat % 2 = 1
  · rw [if_pos (hs.2 h), or_top _ (by omega), g1]
    by_cases h' : 2 ^ 63 ≤ a.high.toNat
    · rw [if_pos h', if_pos (by omega)]; omega
    · rw [if_neg h', if_neg (by omega)]; omega
  · rw [if_neg (fun h' => h (hs.1 h')), g1]
    by_cases h' : 2 ^ 63 ≤ a.high.toNat
    · rw [if_pos h', if_pos (by omega)]; omega
    · rw [if_neg h', if_neg (by omega)]; omega

theorem mod_top (c : Prop) [Decidable c] (x n m : Nat) : (x + (if c then 2 ^ (n + m) else 0)) % 2 ^ n = x % 2 ^ n := by
  split
  · rw [Nat.pow_add, Nat.add_mul_mod_self_left]
  · rfl

theorem mulLoop_any (n : Nat) (hn : n ≤ 128) (r s t : I128) :
    (mulLoop n r s t).bits.val = (r.bits.val + s.bits.val * (t.bits.val % 2 ^ n)) % 2 ^ 128 := by
  induction n generalizing r s t with
  | zero =>
    have := r.bits.val_lt
    rw [mulLoop, Nat.pow_zero, Nat.mod_one, Nat.mul_zero, Nat.add_zero, Nat.mod_eq_of_lt this]
  | succ n ih =>
    have e1 : (fromI64 1#64).bits = U128.fromU64 1#64 := by decide
    rw [mulLoop, ih (by omega), shr_one_bits, shl_bits, e1, U128.shl_one_val]
    have et : (t.bits.val / 2 + (if 2 ^ 127 ≤ t.bits.val then 2 ^ 127 else 0)) % 2 ^ n = t.bits.val / 2 % 2 ^ n := by
      have h := mod_top (2 ^ 127 ≤ t.bits.val) (t.bits.val / 2) n (127 - n)
      rwa [show n + (127 - n) = 127 by omega] at h
    rw [et]
    have ed : t.bits.val % 2 ^ (n + 1) = 2 * (t.bits.val / 2 % 2 ^ n) + t.bits.val % 2 := by
      rw [Nat.pow_succ, Nat.mul_comm (2 ^ n) 2, Nat.mod_mul]; omega
    rw [ed]
    generalize t.bits.val / 2 % 2 ^ n = q
    have hm : (2 * s.bits.val % 2 ^ 128 * q) % 2 ^ 128 = (s.bits.val * (2 * q)) % 2 ^ 128 := by
      rw [Nat.mod_mul_mod, Nat.mul_comm 2 s.bits.val, Nat.mul_assoc]
    have ho : t.low &&& 1#64 = 1#64 ↔ t.bits.val % 2 = 1 := U128.odd_iff t.bits
    by_cases h : t.bits.val % 2 = 1
    · rw [if_pos (ho.2 h), add_bits_val, Nat.mod_add_mod, Nat.add_mod, hm, ← Nat.add_mod, h]
      have e : r.bits.val + s.bits.val + s.bits.val * (2 * q) = r.bits.val + s.bits.val * (2 * q + 1) := by
        rw [Nat.mul_add, Nat.mul_one]; omega
      rw [e]
    · have h0 : t.bits.val % 2 = 0 := by omega
      rw [if_neg (fun h' => h (ho.1 h')), Nat.add_mod, hm, ← Nat.add_mod, h0, Nat.add_zero]

theorem zero_halves (r : I128) : (r.high = 0#64 ∧ r.low = 0#64) ↔ r.val = 0 := by
  constructor
  · rintro ⟨h1, h2⟩
    unfold I128.val; rw [h1, h2]; decide
  · intro h
    have h1 := I128.hi_cases r.high
    have h2 := r.low.isLt
    have h3 := r.high.isLt
    unfold I128.val at h
    constructor <;> apply BitVec.eq_of_toNat_eq <;> rw [toNat_zero64] <;> omega

/-- The wrong absolute value is the value used, except for the one number that wraps. -/
theorem abs_val_all (a : I128) (h : a.val ≠ wrapped) :
    (if slt a.high 0#64 then a.neg else a).val = wrongAbs a.val ∧ 0 ≤ wrongAbs a.val := by
  have hc := abs_cong a
  have f := a.val_fits
  have h0 : 0 ≤ wrongAbs a.val ∧ wrongAbs a.val < 2 ^ 127 := by
    unfold wrapped at h
    unfold wrongAbs wrongNeg
    split
    · split
      · omega
      · split <;> omega
    · omega
  have f2 := (if slt a.high 0#64 then a.neg else a).val_fits
  omega
end I128

/-- C31 for every operand: the product is computed from wrong absolute values and negated wrongly.  (C31 says that it
is congruent to `a.val * b.val`; C31_i128_mul_partial says when the two agree.) -/
theorem C31_i128_mul_value_partial (a b : I128) :
    CongMod 128 (a.mul b).val
      (if (a.val < 0 ↔ b.val < 0) then wrongAbs a.val * wrongAbs b.val
       else wrongNeg (wrongAbs a.val * wrongAbs b.val)) := by
  have va := I128.abs_cong a
  have vb := I128.abs_cong b
  have hx := I128.xor_sign a b
  unfold I128.mul
  simp only
  generalize (if slt a.high 0#64 = true then a.neg else a) = A at *
  generalize (if slt b.high 0#64 = true then b.neg else b) = B at *
  have hm := I128.mulLoop_any 128 (by omega) ⟨0#64, 0#64⟩ A B
  have hz : (I128.bits ⟨0#64, 0#64⟩).val = 0 := by decide
  rw [hz, Nat.zero_add, Nat.mod_eq_of_lt B.bits.val_lt] at hm
  generalize I128.mulLoop 128 ⟨0#64, 0#64⟩ A B = R at *
  have hR : R.val % 2 ^ 128 = (wrongAbs a.val * wrongAbs b.val) % 2 ^ 128 := by
    have e1 : (A.bits.val : Int) % 2 ^ 128 = wrongAbs a.val % 2 ^ 128 := by
      rw [← va]; have := A.val_cases; omega
    have e2 : (B.bits.val : Int) % 2 ^ 128 = wrongAbs b.val % 2 ^ 128 := by
      rw [← vb]; have := B.val_cases; omega
    have e3 : R.val % 2 ^ 128 = (R.bits.val : Int) % 2 ^ 128 := by have := R.val_cases; omega
    rw [e3, hm, Int.natCast_emod, Int.natCast_mul]
    rw [Int.mul_emod (wrongAbs a.val), ← e1, ← e2, ← Int.mul_emod]
    exact Int.emod_emod_of_dvd _ (Int.dvd_refl _)
  by_cases hs : (a.val < 0 ↔ b.val < 0)
  · rw [if_neg (by rw [hx]; exact fun h => h hs), if_pos hs, I128.cong_mod]
    exact hR
  · rw [if_pos (hx.2 hs), if_neg hs, I128.cong_mod, (I128.cong_mod _ _).1 (I128.neg_cong R)]
    exact I128.wrongNeg_cong _ _ hR

/-- Concrete: (-2^64) * 3 is computed as 0 * 3, negated to -2^64. -/
example : wrongAbs (-2 ^ 64) = 0 ∧ wrongNeg (wrongAbs (-2 ^ 64) * wrongAbs 3) = -2 ^ 64 := by decide

/-- C32 for every operand but one (see C32_i128_wrapped_dividend_partial and C32_i128_wrapped_divisor_partial): Div divides the wrong absolute values (by zero if the divisor is 0 or -2^64), the
quotient 0 of a smaller number is not negated, others are negated wrongly. -/
theorem C32_i128_div_value_partial (a b : I128) (ha : a.val ≠ wrapped) (hb : b.val ≠ wrapped) :
    (wrongAbs b.val = 0 → a.div b = .error .divideByZero) ∧
    (0 < wrongAbs b.val → ∃ q, a.div b = .ok q ∧ CongMod 128 q.val
      (if wrongAbs a.val < wrongAbs b.val then 0
       else if (a.val < 0 ↔ b.val < 0) then wrongAbs a.val / wrongAbs b.val
       else wrongNeg (wrongAbs a.val / wrongAbs b.val))) := by
  obtain ⟨va, na⟩ := I128.abs_val_all a ha
  obtain ⟨vb, nb⟩ := I128.abs_val_all b hb
  have hx := I128.xor_sign a b
  unfold I128.div
  simp only
  generalize (if slt a.high 0#64 = true then a.neg else a) = A at *
  generalize (if slt b.high 0#64 = true then b.neg else b) = B at *
  have fA := A.val_fits
  have hc := I128.i128Cmp_lt A B
  rw [I128.toStr_nonneg A (by omega), I128.toStr_nonneg B (by omega)]
  refine ⟨fun h0 => ?_, fun h0 => ?_⟩
  · rw [if_neg (by rw [hc]; omega), U128.bigDiv, if_pos (by omega), Go.bind_error]
  · by_cases hlt : wrongAbs a.val < wrongAbs b.val
    · rw [if_pos (hc.2 (by omega)), if_pos hlt]
      exact ⟨_, rfl, 0, by decide⟩
    · rw [if_neg (by rw [hc]; omega), U128.bigDiv, if_neg (by omega), Go.bind_ok, if_neg hlt, va, vb]
      rw [va] at fA
      generalize wrongAbs a.val = x at *
      generalize wrongAbs b.val = y at *
      obtain ⟨m, rfl⟩ := Int.eq_ofNat_of_zero_le na
      obtain ⟨k, rfl⟩ := Int.eq_ofNat_of_zero_le nb
      have hq : m / k < 2 ^ 127 := Nat.lt_of_le_of_lt (Nat.div_le_self _ _) (by omega)
      obtain ⟨r, hr, hv⟩ := I128.fillBytes_val _ hq
      rw [← Int.natCast_ediv, hr, Go.bind_ok]
      refine ⟨_, rfl, ?_⟩
      rw [← hv]
      by_cases hs : (a.val < 0 ↔ b.val < 0)
      · rw [if_neg (by rw [hx]; exact fun h => h hs), if_pos hs]
        exact ⟨0, by show r.val = r.val + 0 * 2 ^ 128; omega⟩
      · rw [if_pos (hx.2 hs), if_neg hs]
        exact I128.neg_cong r

/-- C32 for every operand but one (see below): Rem takes the remainder of the wrong absolute values and negates it, unless it is 0
after a division, if the signs of the operands differ. -/
theorem C32_i128_rem_value_partial (a b : I128) (ha : a.val ≠ wrapped) (hb : b.val ≠ wrapped) :
    (wrongAbs b.val = 0 → a.rem b = .error .divideByZero) ∧
    (0 < wrongAbs b.val → ∃ r, a.rem b = .ok r ∧ CongMod 128 r.val
      (if (a.val < 0 ↔ b.val < 0) ∨ (wrongAbs b.val ≤ wrongAbs a.val ∧ wrongAbs a.val % wrongAbs b.val = 0) then
         wrongAbs a.val % wrongAbs b.val
       else wrongNeg (wrongAbs a.val % wrongAbs b.val))) := by
  obtain ⟨va, na⟩ := I128.abs_val_all a ha
  obtain ⟨vb, nb⟩ := I128.abs_val_all b hb
  have hx := I128.xor_sign a b
  unfold I128.rem
  simp only
  generalize (if slt a.high 0#64 = true then a.neg else a) = A at *
  generalize (if slt b.high 0#64 = true then b.neg else b) = B at *
  have fA := A.val_fits
  have hc := I128.i128Cmp_lt A B
  rw [I128.toStr_nonneg A (by omega), I128.toStr_nonneg B (by omega)]
  refine ⟨fun h0 => ?_, fun h0 => ?_⟩
  · rw [if_neg (by rw [hc]; omega), U128.bigRem, if_pos (by omega), Go.bind_error]
  · by_cases hlt : wrongAbs a.val < wrongAbs b.val
    · rw [if_pos (hc.2 (by omega)), Int.emod_eq_of_lt na hlt]
      by_cases hs : (a.val < 0 ↔ b.val < 0)
      · rw [if_neg (by rw [hx]; exact fun h => h hs), if_pos (Or.inl hs)]
        exact ⟨_, rfl, 0, by omega⟩
      · rw [if_pos (hx.2 hs), if_neg (by rintro (h | h); exact hs h; omega)]
        rw [← va]
        exact ⟨_, rfl, I128.neg_cong A⟩
    · rw [if_neg (by rw [hc]; omega), U128.bigRem, if_neg (by omega), Go.bind_ok, va, vb]
      rw [va] at fA
      generalize wrongAbs a.val = x at *
      generalize wrongAbs b.val = y at *
      obtain ⟨m, rfl⟩ := Int.eq_ofNat_of_zero_le na
      obtain ⟨k, rfl⟩ := Int.eq_ofNat_of_zero_le nb
      have hq : m % k < 2 ^ 127 := Nat.lt_of_le_of_lt (Nat.mod_le _ _) (by omega)
      obtain ⟨r, hr, hv⟩ := I128.fillBytes_val _ hq
      rw [← Int.ofNat_tmod, hr, Go.bind_ok]
      simp only
      rw [← Int.natCast_emod, ← hv]
      have hz := I128.zero_halves r
      by_cases h0 : r.val = 0
      · rw [if_pos (hz.2 h0), if_pos (Or.inr ⟨by omega, h0⟩)]
        exact ⟨_, rfl, 0, by show r.val = r.val + 0 * 2 ^ 128; omega⟩
      · rw [if_neg (fun h => h0 (hz.1 h))]
        by_cases hs : (a.val < 0 ↔ b.val < 0)
        · rw [if_neg (by rw [hx]; exact fun h => h hs), if_pos (Or.inl hs)]
          exact ⟨_, rfl, 0, by show r.val = r.val + 0 * 2 ^ 128; omega⟩
        · rw [if_pos (hx.2 hs), if_neg (by rintro (h | h); exact hs h; exact h0 h.2)]
          exact ⟨_, rfl, I128.neg_cong r⟩

/-- C32 is violated by a divisor that is not zero: every division by -2^64 panics (but that of the one number that
wraps). -/
theorem C32_i128_div_panics_fails (a : I128) (ha : a.val ≠ wrapped) :
    I128.val ⟨-1#64, 0#64⟩ = -2 ^ 64 ∧ a.div ⟨-1#64, 0#64⟩ = .error .divideByZero ∧
    a.rem ⟨-1#64, 0#64⟩ = .error .divideByZero :=
  ⟨by decide, (C32_i128_div_value_partial a _ ha (by decide)).1 (by decide),
    (C32_i128_rem_value_partial a _ ha (by decide)).1 (by decide)⟩

namespace I128
/-- The number that wraps, and what Div and Rem take for its absolute value: -2^127, which in turn is written as
-(2^127 - 2^64). -/
theorem wrapped_abs (a : I128) (h : a.val = wrapped) :
    (if slt a.high 0#64 then a.neg else a) = ⟨BitVec.ofNat 64 (2 ^ 63), 0#64⟩ := by
  have e : a = ⟨BitVec.ofNat 64 (2 ^ 63), -1#64⟩ := by
    apply I128.bits_inj
    apply U128.val_inj
    have h1 := a.val_cases
    have h2 := a.bits.val_lt
    have h3 : (I128.bits ⟨BitVec.ofNat 64 (2 ^ 63), -1#64⟩).val = 2 ^ 127 + 2 ^ 64 - 1 := by decide
    unfold wrapped at h
    omega
  rw [e]
  decide

theorem wrapped_text : U128.bigOfString (I128.toStr ⟨BitVec.ofNat 64 (2 ^ 63), 0#64⟩) = -(2 ^ 127 - 2 ^ 64) := by
  decide +kernel
end I128

/-- C32 for the one number left, -2^127 + 2^64 - 1, as the dividend: every quotient is 0, even by zero, and the
remainder is -2^127 or 2^127 - 2^64; divided by itself it gives 1 and 0. -/
theorem C32_i128_wrapped_dividend_partial (a b : I128) (ha : a.val = wrapped) :
    (b.val ≠ wrapped → a.div b = .ok ⟨0#64, 0#64⟩ ∧
      ∃ r, a.rem b = .ok r ∧ r.val = if b.val < 0 then -2 ^ 127 else 2 ^ 127 - 2 ^ 64) ∧
    (b.val = wrapped → a.div b = .ok ⟨0#64, 1#64⟩ ∧ a.rem b = .ok ⟨0#64, 0#64⟩) := by
  have wa := I128.wrapped_abs a ha
  have hx := I128.xor_sign a b
  have vA : I128.val ⟨BitVec.ofNat 64 (2 ^ 63), 0#64⟩ = -2 ^ 127 := by decide
  have neg : a.val < 0 := by unfold wrapped at ha; omega
  unfold I128.div I128.rem
  simp only
  rw [wa]
  constructor
  · intro hb
    obtain ⟨vb, nb⟩ := I128.abs_val_all b hb
    generalize (if slt b.high 0#64 = true then b.neg else b) = B at *
    have hc := I128.i128Cmp_lt ⟨BitVec.ofNat 64 (2 ^ 63), 0#64⟩ B
    have hlt := hc.2 (by omega)
    rw [if_pos hlt, if_pos hlt]
    refine ⟨rfl, ?_⟩
    by_cases h : b.val < 0
    · rw [if_pos h, if_neg (by rw [hx]; exact fun h' => h' ⟨fun _ => h, fun _ => neg⟩)]
      exact ⟨_, rfl, vA⟩
    · rw [if_neg h, if_pos (hx.2 fun h' => h (h'.1 neg))]
      exact ⟨_, rfl, by decide⟩
  · intro hb
    have hs : ¬ (xor (slt a.high 0#64) (slt b.high 0#64) = true) := by
      rw [hx]; unfold wrapped at hb; exact fun h' => h' ⟨fun _ => by omega, fun _ => neg⟩
    rw [I128.wrapped_abs b hb, I128.wrapped_text]
    have hc := I128.i128Cmp_lt ⟨BitVec.ofNat 64 (2 ^ 63), 0#64⟩ ⟨BitVec.ofNat 64 (2 ^ 63), 0#64⟩
    have hlt := mt hc.1 (by omega)
    rw [if_neg hlt, if_neg hlt]
    simp only [(Bool.not_eq_true _).mp hs]
    exact ⟨rfl, rfl⟩

/-- C32 for the one number left, -2^127 + 2^64 - 1, as the divisor: it is taken for -(2^127 - 2^64). -/
theorem C32_i128_wrapped_divisor_partial (a b : I128) (ha : a.val ≠ wrapped) (hb : b.val = wrapped) :
    (∃ q, a.div b = .ok q ∧ CongMod 128 q.val
      (if a.val < 0 then wrongAbs a.val / (2 ^ 127 - 2 ^ 64) else wrongNeg (wrongAbs a.val / (2 ^ 127 - 2 ^ 64)))) ∧
    ∃ r, a.rem b = .ok r ∧ CongMod 128 r.val
      (if a.val < 0 ∨ wrongAbs a.val % (2 ^ 127 - 2 ^ 64) = 0 then wrongAbs a.val % (2 ^ 127 - 2 ^ 64)
       else wrongNeg (wrongAbs a.val % (2 ^ 127 - 2 ^ 64))) := by
  obtain ⟨va, na⟩ := I128.abs_val_all a ha
  have hx := I128.xor_sign a b
  have vB : I128.val ⟨BitVec.ofNat 64 (2 ^ 63), 0#64⟩ = -2 ^ 127 := by decide
  have hn : b.val < 0 := by unfold wrapped at hb; omega
  have hx' : xor (slt a.high 0#64) (slt b.high 0#64) = true ↔ ¬ a.val < 0 := by
    rw [hx]
    exact ⟨fun h h' => h ⟨fun _ => hn, fun _ => h'⟩, fun h h' => h (h'.2 hn)⟩
  unfold I128.div I128.rem
  simp only
  rw [I128.wrapped_abs b hb, I128.wrapped_text]
  generalize (if slt a.high 0#64 = true then a.neg else a) = A at *
  have fA := A.val_fits
  have hc := I128.i128Cmp_lt A ⟨BitVec.ofNat 64 (2 ^ 63), 0#64⟩
  have hlt := mt hc.1 (by omega)
  have bd : ∀ x, U128.bigDiv x (-(2 ^ 127 - 2 ^ 64)) = .ok (x / (-(2 ^ 127 - 2 ^ 64))) := fun x => by
    unfold U128.bigDiv; rw [if_neg (by decide)]
  have br : ∀ x, U128.bigRem x (-(2 ^ 127 - 2 ^ 64)) = .ok (x.tmod (-(2 ^ 127 - 2 ^ 64))) := fun x => by
    unfold U128.bigRem; rw [if_neg (by decide)]
  rw [if_neg hlt, if_neg hlt, I128.toStr_nonneg A (by omega), bd, Go.bind_ok, br, Go.bind_ok, va]
  rw [va] at fA
  generalize wrongAbs a.val = x at *
  obtain ⟨m, rfl⟩ := Int.eq_ofNat_of_zero_le na
  have eq1 : (m : Int) / (-(2 ^ 127 - 2 ^ 64)) = -((m / (2 ^ 127 - 2 ^ 64) : Nat) : Int) := by
    rw [Int.ediv_neg]; rfl
  have eq2 : (m : Int).tmod (-(2 ^ 127 - 2 ^ 64)) = ((m % (2 ^ 127 - 2 ^ 64) : Nat) : Int) := by
    rw [Int.tmod_neg]; rfl
  have hq : m / (2 ^ 127 - 2 ^ 64) < 2 ^ 127 := Nat.lt_of_le_of_lt (Nat.div_le_self _ _) (by omega)
  have hq' : m % (2 ^ 127 - 2 ^ 64) < 2 ^ 127 := Nat.lt_of_le_of_lt (Nat.mod_le _ _) (by omega)
  have e1 : (m : Int) / (2 ^ 127 - 2 ^ 64) = ((m / (2 ^ 127 - 2 ^ 64) : Nat) : Int) := rfl
  have e2 : (m : Int) % (2 ^ 127 - 2 ^ 64) = ((m % (2 ^ 127 - 2 ^ 64) : Nat) : Int) := rfl
  rw [eq1, eq2, e1, e2]
  have ef : U128.fillBytes (-((m / (2 ^ 127 - 2 ^ 64) : Nat) : Int)) = U128.fillBytes ((m / (2 ^ 127 - 2 ^ 64) : Nat) : Int) := by
    unfold U128.fillBytes; rw [Int.natAbs_neg]
  rw [ef]
  obtain ⟨q, hr, hv⟩ := I128.fillBytes_val _ hq
  obtain ⟨r, hr', hv'⟩ := I128.fillBytes_val _ hq'
  rw [hr, Go.bind_ok, hr', Go.bind_ok]
  simp only
  rw [← hv, ← hv']
  constructor
  · refine ⟨_, rfl, ?_⟩
    by_cases hs : a.val < 0
    · rw [if_neg (by rw [hx']; exact fun h => h hs), if_pos hs]
      exact ⟨0, by show q.val = q.val + 0 * 2 ^ 128; omega⟩
    · rw [if_pos (hx'.2 hs), if_neg hs]
      exact I128.neg_cong q
  · have hz := I128.zero_halves r
    by_cases h0 : r.val = 0
    · rw [if_pos (hz.2 h0), if_pos (Or.inr h0)]
      exact ⟨_, rfl, 0, by show r.val = r.val + 0 * 2 ^ 128; omega⟩
    · rw [if_neg (fun h => h0 (hz.1 h))]
      by_cases hs : a.val < 0
      · rw [if_neg (by rw [hx']; exact fun h => h hs), if_pos (Or.inl hs)]
        exact ⟨_, rfl, 0, by show r.val = r.val + 0 * 2 ^ 128; omega⟩
      · rw [if_pos (hx'.2 hs), if_neg (by rintro (h | h); exact hs h; exact h0 h)]
        exact ⟨_, rfl, I128.neg_cong r⟩

/-- C32 is violated: division of this number by zero returns 0 instead of panicking. -/
theorem C32_i128_div_zero_fails (a : I128) (ha : a.val = wrapped) :
    a.div ⟨0#64, 0#64⟩ = .ok ⟨0#64, 0#64⟩ ∧ ∃ r, a.rem ⟨0#64, 0#64⟩ = .ok r :=
  have h := (C32_i128_wrapped_dividend_partial a ⟨0#64, 0#64⟩ ha).1 (by decide)
  ⟨h.1, h.2.elim fun r hr => ⟨r, hr.1⟩⟩

example : I128.val ⟨BitVec.ofNat 64 (2 ^ 63), -1#64⟩ = wrapped := by decide
example : I128.div ⟨BitVec.ofNat 64 (2 ^ 63 - 1), 5#64⟩ ⟨BitVec.ofNat 64 (2 ^ 63), -1#64⟩ = .ok ⟨-1#64, -1#64⟩ := by
  decide +kernel

/-- Concrete: 7 / -3 and 7 rem -3 through the formulas: -2 (right) and -1 (the true remainder is 1). -/
example : (∃ q, I128.div ⟨0#64, 7#64⟩ ⟨-1#64, -3#64⟩ = .ok q ∧ CongMod 128 q.val (-2)) ∧
    (∃ r, I128.rem ⟨0#64, 7#64⟩ ⟨-1#64, -3#64⟩ = .ok r ∧ CongMod 128 r.val (-1)) :=
  ⟨(C32_i128_div_value_partial ⟨0#64, 7#64⟩ ⟨-1#64, -3#64⟩ (by decide) (by decide)).2 (by decide),
    (C32_i128_rem_value_partial ⟨0#64, 7#64⟩ ⟨-1#64, -3#64⟩ (by decide) (by decide)).2 (by decide)⟩
end Gost
