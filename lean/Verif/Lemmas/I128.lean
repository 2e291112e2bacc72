import Verif.Lemmas.Int128
/-
I128 in terms of its value: the two's-complement operations are those of U128 on the same bits.
-/
namespace Gost
open Ints Cmp Spec

namespace I128

/-- The same 128 bits read as a U128. -/
def bits (a : I128) : U128 := ⟨a.high, a.low⟩

theorem bits_inj {a b : I128} (h : a.bits = b.bits) : a = b := by
  cases a; cases b; simp only [bits, U128.mk.injEq] at h; simp [h]

/-- `toInt` of a 64-bit word by cases. -/
theorem hi_cases (x : BitVec 64) :
    (x.toInt = x.toNat ∧ x.toNat < 2 ^ 63) ∨ (x.toInt = (x.toNat : Int) - 2 ^ 64 ∧ 2 ^ 63 ≤ x.toNat) := by
  have := x.isLt
  rcases toNat_cases (by decide) x with ⟨h, h0⟩ | ⟨h, h0⟩
  · have := BitVec.toInt_lt (x := x)
    left; omega
  · have := BitVec.le_toInt x
    right; omega

theorem val_cases (a : I128) :
    (a.val = a.bits.val ∧ a.bits.val < 2 ^ 127 ∧ 0 ≤ a.val) ∨
    (a.val = (a.bits.val : Int) - 2 ^ 128 ∧ 2 ^ 127 ≤ a.bits.val ∧ a.val < 0) := by
  have h1 := a.high.isLt
  have h2 := a.low.isLt
  have := hi_cases a.high
  unfold I128.val bits U128.val
  simp only [Int.natCast_add, Int.natCast_mul]
  omega

theorem high_neg_iff (a : I128) : slt a.high 0#64 = true ↔ a.val < 0 := by
  have h2 := a.low.isLt
  have h3 := a.high.isLt
  rw [slt_iff, toInt_zero']
  unfold I128.val
  have := hi_cases a.high
  omega

theorem high_nonneg_iff (a : I128) : slt a.high 0#64 = false ↔ 0 ≤ a.val := by
  rw [← Bool.not_eq_true, high_neg_iff]; omega

theorem val_fits (a : I128) : -(2 : Int) ^ 127 ≤ a.val ∧ a.val < 2 ^ 127 := by
  have := a.bits.val_lt
  have := a.val_cases
  omega

theorem val_congMod (a : I128) : CongMod 128 a.val a.bits.val := by
  rcases a.val_cases with h | h
  · exact ⟨0, by omega⟩
  · exact ⟨-1, by omega⟩

theorem congMod_iff (a : I128) (x : Int) : CongMod 128 a.val x ↔ (a.bits.val : Int) = x % 2 ^ 128 := by
  have hb := a.bits.val_lt
  have hc := a.val_cases
  constructor
  · rintro ⟨k, hk⟩
    have : ∃ j : Int, (a.bits.val : Int) = x + j * 2 ^ 128 := by
      rcases hc with h | h
      · exact ⟨k, by omega⟩
      · exact ⟨k + 1, by omega⟩
    obtain ⟨j, hj⟩ := this
    omega
  · intro h
    rcases hc with h' | h'
    · exact ⟨-(x / 2 ^ 128), by omega⟩
    · exact ⟨-(x / 2 ^ 128) - 1, by omega⟩

theorem eq_of_congMod {a : I128} {x : Int} (h : CongMod 128 a.val x) (h1 : -(2 : Int) ^ 127 ≤ x)
    (h2 : x < 2 ^ 127) : a.val = x := by
  have := (congMod_iff a x).1 h
  have := a.val_cases
  omega

theorem low_toNat (a : I128) : (a.low.toNat : Int) = a.val % 2 ^ 64 := by
  have := a.low.isLt
  unfold I128.val
  omega

theorem low_bits (a : I128) : a.low.toNat = a.bits.val % 2 ^ 64 := by
  have := a.low.isLt
  unfold bits U128.val
  simp only
  omega

theorem add_bits (a b : I128) : (a.add b).bits = a.bits.add b.bits := by
  have hl := toNat_add_cases a.low b.low
  have h2 := a.low.isLt
  have h4 := b.low.isLt
  have c1 : ¬ ((ult a.low 0#64 && ult b.low 0#64) = true) := by
    rw [Bool.and_eq_true, ult_iff, toNat_zero64]; omega
  have c2 : (ult 0#64 a.low && ult 0#64 b.low) = true ↔ 0 < a.low.toNat ∧ 0 < b.low.toNat := by
    rw [Bool.and_eq_true, ult_iff, ult_iff, toNat_zero64]
  have c3 : (ult (a.low + b.low) a.low || ult (a.low + b.low) b.low) = true ↔
      2 ^ 64 ≤ a.low.toNat + b.low.toNat := by
    rw [Bool.or_eq_true, ult_iff, ult_iff]; omega
  unfold add U128.add
  show (⟨_, _⟩ : U128) = ⟨a.high + b.high +
    (if (ult (a.low + b.low) a.low || ult (a.low + b.low) b.low) = true then 1#64 else 0#64),
    a.low + b.low⟩
  simp only
  rw [if_neg c1]
  by_cases h : 0 < a.low.toNat ∧ 0 < b.low.toNat
  · rw [if_pos (c2.2 h)]
  · rw [if_neg (fun h' => h (c2.1 h')), if_neg (fun h' => by have := c3.1 h'; omega)]

theorem add_bits_val (a b : I128) : (a.add b).bits.val = (a.bits.val + b.bits.val) % 2 ^ 128 := by
  rw [add_bits, U128.add_val]

theorem neg_bits_val (a : I128) :
    a.neg.bits.val =
      if a.low.toNat = 2 ^ 64 - 1 then ((2 ^ 64 - a.high.toNat) % 2 ^ 64) * 2 ^ 64
      else (2 ^ 64 - 1 - a.high.toNat) * 2 ^ 64 + (2 ^ 64 - a.low.toNat) % 2 ^ 64 := by
  have h1 := a.high.isLt
  have h2 := a.low.isLt
  have hm : (uMax 64).toNat = 2 ^ 64 - 1 := by decide
  have hc : (a.low == uMax 64) = true ↔ a.low.toNat = 2 ^ 64 - 1 := by
    rw [beq_iff_eq, ← BitVec.toNat_inj, hm]
  have hz : (0#64).toNat = 0 := by decide
  unfold neg
  simp only
  by_cases h : a.low.toNat = 2 ^ 64 - 1
  · rw [if_pos (hc.2 h), if_pos h]
    simp only [bits, U128.val, BitVec.toNat_add, BitVec.toNat_not, toNat_one64, hz]
    omega
  · rw [if_neg (fun h' => h (hc.1 h')), if_neg h]
    simp only [bits, U128.val, BitVec.toNat_add, BitVec.toNat_not, toNat_one64]
    omega

theorem neg_val_iff (a : I128) : CongMod 128 a.neg.val (-a.val) ↔ LowMixed a.val := by
  have h1 := a.high.isLt
  have h2 := a.low.isLt
  have hl := a.low_toNat
  have hv := hi_cases a.high
  rw [congMod_iff, neg_bits_val, LowMixed, ← hl]
  unfold I128.val
  split <;> omega

theorem neg_val_of_neg (a : I128) (h : a.val < 0) (hm : LowMixed a.val) : a.neg.val = -a.val := by
  have h1 := (neg_val_iff a).2 hm
  have := a.val_fits
  unfold LowMixed at hm
  exact eq_of_congMod h1 (by omega) (by omega)

theorem neg_val_of_pos (a : I128) (h : 0 ≤ a.val) (hm : LowMixed a.val) : a.neg.val = -a.val := by
  have h1 := (neg_val_iff a).2 hm
  have := a.val_fits
  exact eq_of_congMod h1 (by omega) (by omega)

/-! ### Multiplication -/

theorem fromI64_one : fromI64 1#64 = ⟨0#64, 1#64⟩ := by decide

theorem shl_bits (a b : I128) : (a.shl b).bits = a.bits.shl b.bits := rfl

theorem goSShr_one_of_nonneg (x : BitVec 64) (h : x.toNat < 2 ^ 63) : goSShr x 1#64 = goUShr x 1#64 := by
  apply BitVec.eq_of_toNat_eq
  rw [goUShr_one, goSShr, toNat_one64, sshr_one, if_neg (by omega)]
  omega

theorem shr_bits (a : I128) (h : 0 ≤ a.val) :
    (a.shr (fromI64 1#64)).bits = a.bits.shr (U128.fromU64 1#64) := by
  have h1 := a.high.isLt
  have h2 := a.low.isLt
  have hh : a.high.toNat < 2 ^ 63 := by
    have := hi_cases a.high
    unfold I128.val at h
    omega
  rw [fromI64_one]
  show (⟨goSShr a.high 1#64, _⟩ : U128) = ⟨goUShr a.high 1#64, _⟩
  rw [goSShr_one_of_nonneg _ hh]
  rfl

theorem mulLoop_bits (n : Nat) (r s t : I128) (ht : 0 ≤ t.val) :
    (mulLoop n r s t).bits = U128.mulLoop n r.bits s.bits t.bits := by
  induction n generalizing r s t with
  | zero => rfl
  | succ n ih =>
    have hs := shr_bits t ht
    have hnn : 0 ≤ (t.shr (fromI64 1#64)).val := by
      have h1 := val_cases t
      have h2 := val_cases (t.shr (fromI64 1#64))
      rw [hs, U128.shr_one_val] at h2
      omega
    rw [mulLoop, ih _ _ _ hnn, hs, U128.mulLoop, shl_bits]
    have e1 : (fromI64 1#64).bits = U128.fromU64 1#64 := by decide
    have e2 : (if t.low &&& 1#64 = 1#64 then r.add s else r).bits =
        if t.bits.low &&& 1#64 = 1#64 then r.bits.add s.bits else r.bits := by
      show _ = if t.low &&& 1#64 = 1#64 then _ else _
      split
      · rw [add_bits]
      · rfl
    rw [e1, e2]

theorem mulLoop_val (s t : I128) (ht : 0 ≤ t.val) :
    (mulLoop 128 ⟨0#64, 0#64⟩ s t).bits.val = s.bits.val * t.bits.val % 2 ^ 128 := by
  rw [mulLoop_bits _ _ _ _ ht]
  exact U128.mul_val s.bits t.bits

/-- The absolute value used by Mul, Div, Rem and ToString. -/
theorem abs_val (a : I128) (h : a.val < 0 → LowMixed a.val) :
    (if slt a.high 0#64 then a.neg else a).val = a.val.natAbs := by
  by_cases hn : a.val < 0
  · rw [if_pos ((high_neg_iff a).2 hn), neg_val_of_neg a hn (h hn)]; omega
  · rw [if_neg (fun h' => hn ((high_neg_iff a).1 h'))]; omega

theorem bits_val_of_nonneg (a : I128) (h : 0 ≤ a.val) : (a.bits.val : Int) = a.val := by
  have := a.val_cases
  omega

theorem xor_sign (a b : I128) : (xor (slt a.high 0#64) (slt b.high 0#64)) = true ↔
    ¬ (a.val < 0 ↔ b.val < 0) := by
  rw [← high_neg_iff, ← high_neg_iff]
  cases slt a.high 0#64 <;> cases slt b.high 0#64 <;> simp

/-! ### Strings, division -/

theorem u64ToString_eq (x : BitVec 64) : u64ToString x = Dec.formatInt x.toNat := by
  unfold u64ToString Dec.formatInt
  rw [if_neg (by omega), Int.natAbs_natCast]

theorem toStr_eq (a : I128) :
    a.toStr = Dec.formatInt (if a.val < 0 then -(a.neg.bits.val : Int) else a.val) := by
  have h1 := a.high.isLt
  have h2 := a.low.isLt
  have hv := hi_cases a.high
  have key : ∀ x : I128, binToDecLoop (sBitsLoop 64 x.high (uBitsLoop 64 x.low [])).reverse 0 1 =
      (x.bits.val : Int) := by
    intro x
    obtain ⟨v1, l1⟩ := uBitsLoop_val 64 x.low []
    obtain ⟨v2, l2⟩ := sBitsLoop_val 64 (by omega) x.high x.high (uBitsLoop 64 x.low []) rfl
    rw [binToDec_reverse, v2, v1, l1, Nat.mod_eq_of_lt x.high.isLt, Nat.mod_eq_of_lt x.low.isLt]
    simp only [bits, U128.val, binVal, List.foldl_nil, List.length_nil, Nat.pow_zero, Nat.mul_one,
      Nat.add_zero]
  unfold toStr
  simp only
  by_cases hz : a.high = 0#64
  · rw [if_pos hz, u64ToString_eq]
    have : a.high.toInt = 0 := by rw [hz]; decide
    unfold I128.val
    rw [if_neg (by omega), this, Int.zero_mul, Int.zero_add]
  · rw [if_neg hz]
    by_cases hn : a.val < 0
    · have hb := (high_neg_iff a).2 hn
      rw [if_pos hb, if_pos hn]
      simp only [convertBinaryStringToDecimalString]
      rw [key, if_pos hb]
    · have hb := fun h' => hn ((high_neg_iff a).1 h')
      rw [if_neg hb, if_neg hn]
      simp only [convertBinaryStringToDecimalString]
      rw [key, if_neg hb, bits_val_of_nonneg a (by omega)]

theorem toStr_nonneg (a : I128) (h : 0 ≤ a.val) : U128.bigOfString a.toStr = a.val := by
  rw [toStr_eq, if_neg (by omega), U128.bigOfString, Dec.parseInt_formatInt]
  rfl

theorem i128Cmp_lt (a b : I128) : i128Cmp a b = .lt ↔ a.val < b.val := by
  have ha := a.low.isLt
  have hb := b.low.isLt
  unfold i128Cmp uCmp I128.val
  by_cases h1 : a.high.toInt < b.high.toInt
  · rw [if_pos ((slt_iff ..).2 h1)]; simp only [true_iff]; omega
  · by_cases h2 : b.high.toInt < a.high.toInt
    · rw [if_neg (fun h => h1 ((slt_iff ..).1 h)), if_pos ((slt_iff ..).2 h2)]
      simp only [reduceCtorEq, false_iff]; omega
    · rw [if_neg (fun h => h1 ((slt_iff ..).1 h)), if_neg (fun h => h2 ((slt_iff ..).1 h))]
      by_cases h3 : a.low.toNat < b.low.toNat
      · rw [if_pos ((ult_iff ..).2 h3)]; simp only [true_iff]; omega
      · rw [if_neg (fun h => h3 ((ult_iff ..).1 h))]
        split <;> (simp only [reduceCtorEq, false_iff]; omega)

theorem fillBytes_val (n : Nat) (h : n < 2 ^ 127) :
    ∃ r : I128, U128.fillBytes (n : Int) = .ok (r.high, r.low) ∧ r.val = n := by
  obtain ⟨p, hp, hv⟩ := U128.fillBytes_val n (by omega)
  refine ⟨⟨p.1, p.2⟩, hp, ?_⟩
  have hc := val_cases ⟨p.1, p.2⟩
  have : (bits ⟨p.1, p.2⟩).val = n := hv
  omega

/-- `Div` on operands that the code negates correctly. -/
theorem div_clean (a b : I128) (ha : a.val < 0 → LowMixed a.val) (hb : b.val < 0 → LowMixed b.val) :
    (b.val = 0 → a.div b = .error .divideByZero) ∧
    (b.val ≠ 0 →
      (a.val.natAbs < b.val.natAbs → a.div b = .ok ⟨0#64, 0#64⟩) ∧
      (¬ a.val.natAbs < b.val.natAbs → ∃ r : I128, r.val = (a.val.natAbs / b.val.natAbs : Nat) ∧
        a.div b = .ok (if ¬ (a.val < 0 ↔ b.val < 0) then r.neg else r))) := by
  have fa := a.val_fits
  have fb := b.val_fits
  have va := abs_val a ha
  have vb := abs_val b hb
  have hx := xor_sign a b
  unfold div
  simp only
  generalize ea : (if slt a.high 0#64 = true then a.neg else a) = A at *
  generalize eb : (if slt b.high 0#64 = true then b.neg else b) = B at *
  have hc := i128Cmp_lt A B
  have sA := toStr_nonneg A (by omega)
  have sB := toStr_nonneg B (by omega)
  rw [sA, sB]
  refine ⟨fun h0 => ?_, fun h0 => ⟨fun hlt => ?_, fun hlt => ?_⟩⟩
  · rw [if_neg (by rw [hc]; omega), U128.bigDiv, if_pos (by omega), Go.bind_error]
  · rw [if_pos (hc.2 (by omega))]
  · rw [if_neg (by rw [hc]; omega), U128.bigDiv, if_neg (by omega), Go.bind_ok]
    have hA : a.val.natAbs < 2 ^ 127 := by
      have := A.val_fits; omega
    have hq : a.val.natAbs / b.val.natAbs < 2 ^ 127 :=
      Nat.lt_of_le_of_lt (Nat.div_le_self _ _) hA
    obtain ⟨r, hr, hv⟩ := fillBytes_val _ hq
    refine ⟨r, hv, ?_⟩
    have e : A.val / B.val = ((a.val.natAbs / b.val.natAbs : Nat) : Int) := by
      rw [va, vb, Int.natCast_ediv]
    rw [e, hr, Go.bind_ok]
    simp only [hx]

/-- `Rem` on operands that the code negates correctly. -/
theorem rem_clean (a b : I128) (ha : a.val < 0 → LowMixed a.val) (hb : b.val < 0 → LowMixed b.val) :
    (b.val = 0 → a.rem b = .error .divideByZero) ∧
    (b.val ≠ 0 → ∃ r : I128, r.val = (a.val.natAbs % b.val.natAbs : Nat) ∧
      (a.val.natAbs < b.val.natAbs →
        a.rem b = .ok (if ¬ (a.val < 0 ↔ b.val < 0) then r.neg else r)) ∧
      (¬ a.val.natAbs < b.val.natAbs → 
        a.rem b = .ok (if r.val ≠ 0 ∧ ¬ (a.val < 0 ↔ b.val < 0) then r.neg else r))) := by
  have fa := a.val_fits
  have fb := b.val_fits
  have va := abs_val a ha
  have vb := abs_val b hb
  have hx := xor_sign a b
  unfold rem
  simp only
  generalize ea : (if slt a.high 0#64 = true then a.neg else a) = A at *
  generalize eb : (if slt b.high 0#64 = true then b.neg else b) = B at *
  have hc := i128Cmp_lt A B
  have sA := toStr_nonneg A (by omega)
  have sB := toStr_nonneg B (by omega)
  rw [sA, sB]
  refine ⟨fun h0 => ?_, fun h0 => ?_⟩
  · rw [if_neg (by rw [hc]; omega), U128.bigRem, if_pos (by omega), Go.bind_error]
  by_cases hlt : a.val.natAbs < b.val.natAbs
  · refine ⟨A, by rw [Nat.mod_eq_of_lt hlt]; exact va, fun _ => ?_, fun h => absurd hlt h⟩
    rw [if_pos (hc.2 (by omega))]
    by_cases hs : (a.val < 0 ↔ b.val < 0)
    · rw [if_neg (by rw [hx]; exact fun h => h hs), if_neg (by exact fun h => h hs)]
    · rw [if_pos (hx.2 hs), if_pos hs]
  · have hA : a.val.natAbs < 2 ^ 127 := by
      have := A.val_fits; omega
    have hq : a.val.natAbs % b.val.natAbs < 2 ^ 127 :=
      Nat.lt_of_le_of_lt (Nat.mod_le _ _) hA
    obtain ⟨r, hr, hv⟩ := fillBytes_val _ hq
    refine ⟨r, hv, fun h => absurd h hlt, fun _ => ?_⟩
    rw [if_neg (by rw [hc]; omega), U128.bigRem, if_neg (by omega), Go.bind_ok]
    have e : A.val.tmod B.val = ((a.val.natAbs % b.val.natAbs : Nat) : Int) := by
      rw [va, vb, ← Int.ofNat_tmod]
    have hz : (r.high = 0#64 ∧ r.low = 0#64) ↔ r.val = 0 := by
      constructor
      · rintro ⟨h1, h2⟩
        unfold I128.val; rw [h1, h2]; decide
      · intro h
        have h1 := hi_cases r.high
        have h2 := r.low.isLt
        have h3 := r.high.isLt
        unfold I128.val at h
        constructor <;> apply BitVec.eq_of_toNat_eq <;> rw [toNat_zero64] <;> omega
    rw [e, hr, Go.bind_ok]
    simp only
    by_cases h0 : r.val = 0
    · rw [if_pos (hz.2 h0), if_neg (by exact fun h => h.1 h0)]
    · rw [if_neg (fun h => h0 (hz.1 h))]
      simp only [hx, h0, ne_eq, not_false_eq_true, true_and]

end I128
end Gost
