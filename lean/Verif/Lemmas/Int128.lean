import Verif.Model.Int128
import Verif.Spec.Int128
import Verif.Lemmas.Ints
import Verif.Lemmas.Decimal
/-
Arithmetic of the 128-bit types in terms of their values.
-/
namespace Gost
open Ints Cmp Spec

theorem U128.val_lt (a : U128) : a.val < 2 ^ 128 := by
  have := a.high.isLt
  have := a.low.isLt
  unfold U128.val; omega

theorem U128.val_inj {a b : U128} (h : a.val = b.val) : a = b := by
  have ha := a.low.isLt
  have hb := b.low.isLt
  obtain ⟨ah, al⟩ := a
  obtain ⟨bh, bl⟩ := b
  simp only [U128.val] at *
  have h1 : ah.toNat = bh.toNat := by omega
  have h2 : al.toNat = bl.toNat := by omega
  rw [BitVec.eq_of_toNat_eq h1, BitVec.eq_of_toNat_eq h2]

theorem toNat_one64 : (1#64).toNat = 1 := by decide
theorem toNat_zero64 : (0#64).toNat = 0 := by decide

theorem U128.add_val (a b : U128) : (a.add b).val = (a.val + b.val) % 2 ^ 128 := by
  have h1 := a.high.isLt
  have h2 := a.low.isLt
  have h3 := b.high.isLt
  have h4 := b.low.isLt
  have hl := toNat_add_cases a.low b.low
  have hc : ((ult (a.low + b.low) a.low || ult (a.low + b.low) b.low) = true) ↔
      2 ^ 64 ≤ a.low.toNat + b.low.toNat := by
    rw [Bool.or_eq_true, ult_iff, ult_iff]; omega
  simp only [U128.add, U128.val]
  by_cases h : 2 ^ 64 ≤ a.low.toNat + b.low.toNat
  · rw [if_pos (hc.2 h)]
    simp only [BitVec.toNat_add, toNat_one64]
    omega
  · rw [if_neg (fun h' => h (hc.1 h'))]
    simp only [BitVec.toNat_add, toNat_zero64]
    omega

theorem U128.sub_val (a b : U128) : (a.sub b).val = (a.val + 2 ^ 128 - b.val) % 2 ^ 128 := by
  have h1 := a.high.isLt
  have h2 := a.low.isLt
  have h3 := b.high.isLt
  have h4 := b.low.isLt
  have hc : (ult a.low b.low = true) ↔ a.low.toNat < b.low.toNat := ult_iff ..
  simp only [U128.sub, U128.val]
  by_cases h : a.low.toNat < b.low.toNat
  · rw [if_pos (hc.2 h)]
    simp only [BitVec.toNat_sub, toNat_one64]
    omega
  · rw [if_neg (fun h' => h (hc.1 h'))]
    simp only [BitVec.toNat_sub, toNat_zero64]
    omega

theorem and_one_eq (x : BitVec 64) : x &&& 1#64 = 1#64 ↔ x.toNat % 2 = 1 := by
  rw [← BitVec.toNat_inj, BitVec.toNat_and, toNat_one64, Nat.and_one_is_mod]

theorem shr63_eq (x : BitVec 64) : x >>> 63 = 1#64 ↔ 2 ^ 63 ≤ x.toNat := by
  have := x.isLt
  rw [← BitVec.toNat_inj, BitVec.toNat_ushiftRight, toNat_one64, Nat.shiftRight_eq_div_pow]
  omega

theorem goShl_one (x : BitVec 64) : (goShl x 1#64).toNat = 2 * x.toNat % 2 ^ 64 := by
  unfold goShl
  rw [BitVec.toNat_shiftLeft, toNat_one64, Nat.shiftLeft_eq]
  omega

theorem goUShr_one (x : BitVec 64) : (goUShr x 1#64).toNat = x.toNat / 2 := by
  unfold goUShr
  rw [BitVec.toNat_ushiftRight, toNat_one64, Nat.shiftRight_eq_div_pow]

theorem or_top (x : BitVec 64) (h : x.toNat < 2 ^ 63) :
    (x ||| (1#64 <<< 63)).toNat = x.toNat + 2 ^ 63 := by
  rw [BitVec.toNat_or]
  have e : (1#64 <<< 63).toNat = 2 ^ 63 := by decide
  rw [e, Nat.or_comm]
  have := Nat.two_pow_add_eq_or_of_lt (i := 63) h 1
  rw [Nat.mul_one] at this
  rw [← this]; omega

theorem U128.shl_one_val (a : U128) : (a.shl (fromU64 1#64)).val = 2 * a.val % 2 ^ 128 := by
  have h1 := a.high.isLt
  have h2 := a.low.isLt
  have hs := shr63_eq a.low
  have g1 := goShl_one a.low
  have g2 := goShl_one a.high
  simp only [U128.shl, U128.val, fromU64]
  by_cases h : 2 ^ 63 ≤ a.low.toNat
  · rw [if_pos (hs.2 h)]
    simp only [BitVec.toNat_add, toNat_one64, g1, g2]
    omega
  · rw [if_neg (fun h' => h (hs.1 h'))]
    simp only [g1, g2]
    omega

theorem U128.shr_one_val (a : U128) : (a.shr (fromU64 1#64)).val = a.val / 2 := by
  have h1 := a.high.isLt
  have h2 := a.low.isLt
  have hs := and_one_eq a.high
  have g1 := goUShr_one a.low
  have g2 := goUShr_one a.high
  simp only [U128.shr, U128.val, fromU64]
  by_cases h : a.high.toNat % 2 = 1
  · rw [if_pos (hs.2 h), or_top _ (by omega), g1, g2]
    omega
  · rw [if_neg (fun h' => h (hs.1 h')), g1, g2]
    omega

theorem U128.odd_iff (a : U128) : a.low &&& 1#64 = 1#64 ↔ a.val % 2 = 1 := by
  rw [and_one_eq]; unfold U128.val; omega

/-- Invariant of the shift-and-add multiplication. -/
theorem U128.mulLoop_val (n : Nat) (r s t : U128) (ht : t.val < 2 ^ n) :
    (mulLoop n r s t).val = (r.val + s.val * t.val) % 2 ^ 128 := by
  induction n generalizing r s t with
  | zero =>
    have h0 : t.val = 0 := by simpa using ht
    have := r.val_lt
    rw [mulLoop, h0, Nat.mul_zero, Nat.add_zero, Nat.mod_eq_of_lt this]
  | succ n ih =>
    rw [mulLoop, ih _ _ _ (by rw [shr_one_val, Nat.pow_succ] at *; omega), shr_one_val, shl_one_val]
    have hm : (2 * s.val % 2 ^ 128 * (t.val / 2)) % 2 ^ 128 = (s.val * (2 * (t.val / 2))) % 2 ^ 128 := by
      rw [Nat.mod_mul_mod, Nat.mul_comm 2 s.val, Nat.mul_assoc]
    by_cases h : t.val % 2 = 1
    · rw [if_pos ((odd_iff t).2 h), add_val, Nat.mod_add_mod, Nat.add_mod, hm, ← Nat.add_mod]
      have e : r.val + s.val + s.val * (2 * (t.val / 2)) = r.val + s.val * t.val := by
        have : t.val = 2 * (t.val / 2) + 1 := by omega
        conv => rhs; rw [this, Nat.mul_add, Nat.mul_one]
        omega
      rw [e]
    · rw [if_neg (fun h' => h ((odd_iff t).1 h')), Nat.add_mod, hm, ← Nat.add_mod]
      have : t.val = 2 * (t.val / 2) := by omega
      rw [← this]

theorem U128.mul_val (a b : U128) : (a.mul b).val = a.val * b.val % 2 ^ 128 := by
  have := mulLoop_val 128 ⟨0#64, 0#64⟩ a b b.val_lt
  have h0 : U128.val ⟨0#64, 0#64⟩ = 0 := by decide
  rw [mul, this, h0, Nat.zero_add]

/-! ### Decimal strings -/

/-- Value of a string of '0'/'1' bytes, most significant first. -/
def binVal (s : GoStr) : Nat := s.foldl (fun acc c => 2 * acc + if c = 49 then 1 else 0) 0

theorem binToDecLoop_val (s : GoStr) (d g : Int) :
    binToDecLoop s d g = d + g * (s.foldr (fun c acc => (if c = 49 then 1 else 0) + 2 * acc) 0 : Int) := by
  induction s generalizing d g with
  | nil => simp [binToDecLoop]
  | cons c s ih =>
    rw [binToDecLoop, ih, List.foldr_cons, Int.mul_add]
    split
    · rw [Int.mul_one, Int.mul_assoc]; omega
    · rw [Int.mul_assoc, Int.mul_zero]; omega

theorem binToDec_reverse (s : GoStr) : binToDecLoop s.reverse 0 1 = (binVal s : Int) := by
  rw [binToDecLoop_val, List.foldr_reverse, Int.zero_add, Int.one_mul]
  unfold binVal
  have : ∀ (acc : Nat) (acc' : Int), acc' = acc →
      List.foldl (fun x y => (if y = 49 then (1 : Int) else 0) + 2 * x) acc' s =
      ((List.foldl (fun acc c => 2 * acc + if c = 49 then 1 else 0) acc s : Nat) : Int) := by
    induction s with
    | nil => intro acc acc' h; simpa using h
    | cons c s ih =>
      intro acc acc' h
      rw [List.foldl_cons, List.foldl_cons]
      apply ih
      split <;> omega
  exact this 0 0 rfl

theorem binVal_foldl (s : GoStr) (acc : Nat) :
    s.foldl (fun acc c => 2 * acc + if c = 49 then 1 else 0) acc = acc * 2 ^ s.length + binVal s := by
  induction s generalizing acc with
  | nil => simp [binVal]
  | cons c s ih =>
    unfold binVal
    rw [List.foldl_cons, List.foldl_cons, ih, ih (2 * 0 + _), List.length_cons, Nat.pow_succ,
      Nat.add_mul, Nat.mul_comm (2 ^ s.length) 2, ← Nat.mul_assoc, Nat.mul_comm 2 acc, Nat.mul_zero,
      Nat.zero_add, Nat.add_assoc]

theorem binVal_cons (c : UInt8) (s : GoStr) :
    binVal (c :: s) = (if c = 49 then 1 else 0) * 2 ^ s.length + binVal s := by
  have := binVal_foldl s (if c = 49 then 1 else 0)
  rw [← this]
  unfold binVal
  rw [List.foldl_cons, Nat.mul_zero, Nat.zero_add]

theorem firstByte_u64 (x : BitVec 64) :
    firstByte (u64ToString (x &&& 1#64)) = if x.toNat % 2 = 1 then 49 else 48 := by
  have e : (x &&& 1#64).toNat = x.toNat % 2 := by
    rw [BitVec.toNat_and, toNat_one64, Nat.and_one_is_mod]
  unfold u64ToString
  rw [e]
  rcases Nat.mod_two_eq_zero_or_one x.toNat with h | h <;> rw [h] <;>
    (unfold Dec.formatNat; decide)

theorem firstByte_i64 (x : BitVec 64) :
    firstByte (i64ToString (x &&& 1#64)) = if x.toNat % 2 = 1 then 49 else 48 := by
  have e : (x &&& 1#64).toNat = x.toNat % 2 := by
    rw [BitVec.toNat_and, toNat_one64, Nat.and_one_is_mod]
  have e2 : (x &&& 1#64).toInt = (x.toNat % 2 : Nat) := by
    rw [BitVec.toInt_eq_toNat_of_lt (by rw [e]; omega), e]
  unfold i64ToString Dec.formatInt
  rw [e2, if_neg (by omega)]
  rw [Int.natAbs_natCast]
  rcases Nat.mod_two_eq_zero_or_one x.toNat with h | h <;> rw [h] <;>
    (unfold Dec.formatNat; decide)

theorem uBitsLoop_val (n : Nat) (x : BitVec 64) (s : GoStr) :
    binVal (uBitsLoop n x s) = (x.toNat % 2 ^ n) * 2 ^ s.length + binVal s ∧
    (uBitsLoop n x s).length = n + s.length := by
  induction n generalizing x s with
  | zero => simp [uBitsLoop, Nat.mod_one]
  | succ n ih =>
    rw [uBitsLoop]
    obtain ⟨h1, h2⟩ := ih (x >>> 1) (firstByte (u64ToString (x &&& 1#64)) :: s)
    refine ⟨?_, by rw [h2, List.length_cons]; omega⟩
    rw [h1, binVal_cons, firstByte_u64, List.length_cons, BitVec.toNat_ushiftRight,
      Nat.shiftRight_eq_div_pow, Nat.pow_one]
    have e : x.toNat % 2 ^ (n + 1) = (x.toNat / 2 % 2 ^ n) * 2 + x.toNat % 2 := by
      rw [Nat.pow_succ, Nat.mul_comm, Nat.mod_mul]; omega
    rw [e, Nat.pow_succ, Nat.add_mul, ← Nat.add_assoc]
    congr 1
    congr 1
    · rw [Nat.mul_comm (2 ^ s.length) 2, Nat.mul_assoc]
    · rcases Nat.mod_two_eq_zero_or_one x.toNat with h | h <;> rw [h] <;> simp

theorem sshr_one (x : BitVec 64) : (x.sshiftRight 1).toNat =
    x.toNat / 2 + (if 2 ^ 63 ≤ x.toNat then 2 ^ 63 else 0) := by
  have := x.isLt
  rw [BitVec.toNat_sshiftRight]
  simp only [Nat.shiftRight_eq_div_pow, BitVec.msb_eq_decide, Nat.pow_one]
  by_cases h : 2 ^ 63 ≤ x.toNat
  · simp only [decide_eq_true_eq]
    rw [if_pos (by simpa using h), if_pos h]
    omega
  · simp only [decide_eq_true_eq]
    rw [if_neg (by simpa using h), if_neg h]
    omega

theorem sBitsLoop_val (n : Nat) (hn : n ≤ 64) (x y : BitVec 64) (s : GoStr)
    (hxy : x.toNat % 2 ^ n = y.toNat % 2 ^ n) :
    binVal (sBitsLoop n x s) = (y.toNat % 2 ^ n) * 2 ^ s.length + binVal s ∧
    (sBitsLoop n x s).length = n + s.length := by
  induction n generalizing x y s with
  | zero => simp [sBitsLoop, Nat.mod_one]
  | succ n ih =>
    rw [sBitsLoop]
    have e : ∀ x : BitVec 64, x.toNat % 2 ^ (n + 1) = (x.toNat / 2 % 2 ^ n) * 2 + x.toNat % 2 := by
      intro x; rw [Nat.pow_succ, Nat.mul_comm, Nat.mod_mul]; omega
    have hx := e x
    have hy := e y
    have h63 : 2 ^ 63 = 2 ^ (63 - n) * 2 ^ n := by
      rw [← Nat.pow_add]; congr 1; omega
    have hz : (x.sshiftRight 1).toNat % 2 ^ n = (y >>> 1).toNat % 2 ^ n := by
      rw [sshr_one, BitVec.toNat_ushiftRight, Nat.shiftRight_eq_div_pow, Nat.pow_one]
      have : x.toNat / 2 % 2 ^ n = y.toNat / 2 % 2 ^ n := by omega
      split
      · rw [h63, Nat.add_mul_mod_self_right, this]
      · rw [Nat.add_zero, this]
    obtain ⟨h1, h2⟩ := ih (by omega) (x.sshiftRight 1) (y >>> 1)
      (firstByte (i64ToString (x &&& 1#64)) :: s) hz
    refine ⟨?_, by rw [h2, List.length_cons]; omega⟩
    have hpar : x.toNat % 2 = y.toNat % 2 := by omega
    rw [h1, binVal_cons, firstByte_i64, List.length_cons, BitVec.toNat_ushiftRight,
      Nat.shiftRight_eq_div_pow, Nat.pow_one]
    rw [hy, Nat.pow_succ, Nat.add_mul, ← Nat.add_assoc, hpar]
    congr 1
    congr 1
    · rw [Nat.mul_comm (2 ^ s.length) 2, Nat.mul_assoc]
    · rcases Nat.mod_two_eq_zero_or_one y.toNat with h | h <;> rw [h] <;> simp

theorem U128.toStr_eq (a : U128) : a.toStr = Dec.formatNat a.val := by
  have h1 := a.high.isLt
  have h2 := a.low.isLt
  unfold U128.toStr
  split
  · rename_i h
    simp only [u64ToString, U128.val, h]
    rw [toNat_zero64, Nat.zero_mul, Nat.zero_add]
  · obtain ⟨v1, l1⟩ := uBitsLoop_val 64 a.low []
    obtain ⟨v2, l2⟩ := uBitsLoop_val 64 a.high (uBitsLoop 64 a.low [])
    simp only [convertBinaryStringToDecimalString]
    rw [binToDec_reverse, v2, v1, l1, Dec.formatInt]
    simp only [Bool.false_eq_true, if_false]
    rw [if_neg (by omega), Int.natAbs_natCast, Nat.mod_eq_of_lt h1, Nat.mod_eq_of_lt h2]
    simp only [U128.val, binVal, List.foldl_nil, List.length_nil, Nat.pow_zero, Nat.mul_one,
      Nat.add_zero]

theorem U128.toStr_isNumeral (a : U128) : IsNumeral a.toStr a.val := by
  rw [toStr_eq]; exact Dec.formatNat_isNumeral _

theorem U128.bigOfString_toStr (a : U128) : bigOfString a.toStr = (a.val : Int) := by
  unfold bigOfString
  rw [Dec.parseInt_numeral (i := a.val) (Or.inl ⟨by omega, by simpa using a.toStr_isNumeral⟩)]
  rfl

theorem U128.fillBytes_val (n : Nat) (h : n < 2 ^ 128) :
    ∃ p, fillBytes (n : Int) = .ok p ∧ U128.val ⟨p.1, p.2⟩ = n := by
  refine ⟨_, by rw [fillBytes, if_pos (by simpa using h)], ?_⟩
  simp only [U128.val, Int.natAbs_natCast, BitVec.toNat_ofNat]
  omega

theorem u128Cmp_lt (a b : U128) : u128Cmp a b = .lt ↔ a.val < b.val := by
  have ha := a.low.isLt
  have hb := b.low.isLt
  unfold u128Cmp uCmp U128.val
  by_cases h1 : a.high.toNat < b.high.toNat
  · rw [if_pos ((ult_iff ..).2 h1)]; simp only [true_iff]; omega
  · by_cases h2 : b.high.toNat < a.high.toNat
    · rw [if_neg (fun h => h1 ((ult_iff ..).1 h)), if_pos ((ult_iff ..).2 h2)]
      simp only [reduceCtorEq, false_iff]; omega
    · rw [if_neg (fun h => h1 ((ult_iff ..).1 h)), if_neg (fun h => h2 ((ult_iff ..).1 h))]
      by_cases h3 : a.low.toNat < b.low.toNat
      · rw [if_pos ((ult_iff ..).2 h3)]; simp only [true_iff]; omega
      · rw [if_neg (fun h => h3 ((ult_iff ..).1 h))]
        split <;> (simp only [reduceCtorEq, false_iff]; omega)

theorem U128.div_val (a b : U128) :
    (b.val = 0 → a.div b = .error .divideByZero) ∧
    (b.val ≠ 0 → ∃ q, a.div b = .ok q ∧ q.val = a.val / b.val) := by
  have hc := u128Cmp_lt a b
  constructor
  · intro h
    unfold U128.div
    rw [if_neg (by rw [hc]; omega), bigOfString_toStr, bigOfString_toStr, bigDiv, if_pos (by omega), Go.bind_error]
  · intro h
    unfold U128.div
    by_cases hlt : a.val < b.val
    · rw [if_pos (hc.2 hlt)]
      exact ⟨_, rfl, by rw [Nat.div_eq_of_lt hlt]; decide⟩
    · rw [if_neg (fun h' => hlt (hc.1 h')), bigOfString_toStr, bigOfString_toStr, bigDiv,
        if_neg (by omega)]
      have hq : a.val / b.val < 2 ^ 128 := Nat.lt_of_le_of_lt (Nat.div_le_self _ _) a.val_lt
      obtain ⟨p, hp, hv⟩ := fillBytes_val _ hq
      refine ⟨⟨p.1, p.2⟩, ?_, hv⟩
      have e : ((a.val : Int) / (b.val : Int)) = ((a.val / b.val : Nat) : Int) := by simp
      rw [e, Go.bind_ok, hp, Go.bind_ok]

theorem U128.rem_val (a b : U128) :
    (b.val = 0 → a.rem b = .error .divideByZero) ∧
    (b.val ≠ 0 → ∃ q, a.rem b = .ok q ∧ q.val = a.val % b.val) := by
  have hc := u128Cmp_lt a b
  constructor
  · intro h
    unfold U128.rem
    rw [if_neg (by rw [hc]; omega), bigOfString_toStr, bigOfString_toStr, bigRem, if_pos (by omega), Go.bind_error]
  · intro h
    unfold U128.rem
    by_cases hlt : a.val < b.val
    · rw [if_pos (hc.2 hlt)]
      exact ⟨_, rfl, by rw [Nat.mod_eq_of_lt hlt]⟩
    · rw [if_neg (fun h' => hlt (hc.1 h')), bigOfString_toStr, bigOfString_toStr, bigRem,
        if_neg (by omega)]
      have hq : a.val % b.val < 2 ^ 128 := Nat.lt_of_le_of_lt (Nat.mod_le _ _) a.val_lt
      obtain ⟨p, hp, hv⟩ := fillBytes_val _ hq
      refine ⟨⟨p.1, p.2⟩, ?_, hv⟩
      have e : ((a.val : Int).tmod (b.val : Int)) = ((a.val % b.val : Nat) : Int) := Int.ofNat_tmod .. |>.symm
      rw [e, Go.bind_ok, hp, Go.bind_ok]

end Gost
