import Verif.Props.Float
import Verif.Props.Cmp
/-
Property C24, continued: the order of the floats in terms of the numbers that their bit patterns stand for
(IEEE 754), and the two views of floats in the model, patterns (`GoFloat`, Model/Cmp.lean) and numbers (`Flt`,
Model/Float.lean), agree.
-/
namespace Gost
open Spec Cmp

variable {e m : Nat}

namespace Spec
/-- IEEE 754: the number of a bit pattern, where the smallest positive number of the format is 2^k units. -/
def decode (k : Nat) (x : GoFloat e m) : Flt :=
  if x.expo = BitVec.allOnes e then (if x.frac = 0#m then .inf x.sign else .nan)
  else if x.expo = 0#e then .fin x.sign (x.frac.toNat * 2 ^ k)
  else .fin x.sign ((2 ^ m + x.frac.toNat) * 2 ^ (x.expo.toNat - 1 + k))

/-- The order of the numbers: -∞, the finite ones, +∞; NaN is not comparable. -/
def FltLess : Flt → Flt → Prop
  | .nan, _ => False
  | _, .nan => False
  | .inf s, .inf t => s = true ∧ t = false
  | .inf s, .fin _ _ => s = true
  | .fin _ _, .inf t => t = false
  | x@(.fin _ _), y@(.fin _ _) => ∃ v w, Value x v ∧ Value y w ∧ v < w

/-- Equality of numbers: both zeros are the same number, NaN is none. -/
def FltSame : Flt → Flt → Prop
  | .inf s, .inf t => s = t
  | x, y => ∃ v, Value x v ∧ Value y v
end Spec

theorem allOnes_ne_zero (he : 0 < e) : BitVec.allOnes e ≠ 0#e := by
  intro h
  have := congrArg BitVec.toNat h
  have h2 : 2 ^ 1 ≤ 2 ^ e := Nat.pow_le_pow_right (by decide) he
  simp only [BitVec.toNat_allOnes, BitVec.toNat_ofNat, Nat.zero_mod] at this
  omega

theorem GoFloat.mag_lt (he : 0 < e) (x : GoFloat e m) (h : x.expo ≠ BitVec.allOnes e) :
    x.mag < 2 ^ m * 2 ^ (2 ^ e - 2) := by
  have h1 := x.frac.isLt
  have h2 := x.expo.isLt
  have h3 : x.expo.toNat ≠ 2 ^ e - 1 := by
    intro h4
    apply h
    apply BitVec.eq_of_toNat_eq
    rw [BitVec.toNat_allOnes, h4]
  have h5 : 2 ^ 1 ≤ 2 ^ e := Nat.pow_le_pow_right (by decide) he
  unfold GoFloat.mag
  by_cases h0 : x.expo = 0#e
  · rw [if_pos h0]
    have : 1 ≤ 2 ^ (2 ^ e - 2) := Nat.pow_pos (by decide)
    calc x.frac.toNat < 2 ^ m * 1 := by omega
      _ ≤ _ := Nat.mul_le_mul_left _ this
  · rw [if_neg h0]
    have h6 : 0 < x.expo.toNat := by
      rcases Nat.eq_zero_or_pos x.expo.toNat with h6 | h6
      · exact absurd (BitVec.eq_of_toNat_eq (by rw [h6]; simp)) h0
      · exact h6
    obtain ⟨j, hj⟩ : ∃ j, x.expo.toNat = j + 1 := ⟨x.expo.toNat - 1, by omega⟩
    rw [hj, Nat.add_sub_cancel]
    calc (2 ^ m + x.frac.toNat) * 2 ^ j < (2 ^ m * 2) * 2 ^ j :=
          Nat.mul_lt_mul_of_pos_right (by omega) (Nat.pow_pos (by decide))
      _ = 2 ^ m * 2 ^ (j + 1) := by rw [Nat.mul_assoc, Nat.pow_succ']
      _ ≤ _ := Nat.mul_le_mul_left _ (Nat.pow_le_pow_right (by decide) (by omega))

theorem GoFloat.mag_inf (he : 0 < e) (x : GoFloat e m) (h : x.expo = BitVec.allOnes e) :
    2 ^ m * 2 ^ (2 ^ e - 2) ≤ x.mag := by
  unfold GoFloat.mag
  rw [if_neg (by rw [h]; exact allOnes_ne_zero he), h, BitVec.toNat_allOnes]
  exact Nat.mul_le_mul_right _ (by omega)

theorem decode_fin (k : Nat) (x : GoFloat e m) (h : x.expo ≠ BitVec.allOnes e) :
    decode k x = .fin x.sign (x.mag * 2 ^ k) := by
  unfold decode GoFloat.mag
  rw [if_neg h]
  by_cases h0 : x.expo = 0#e
  · rw [if_pos h0, if_pos h0]
  · rw [if_neg h0, if_neg h0, Nat.mul_assoc, ← Nat.pow_add]

theorem decode_cases (k : Nat) (x : GoFloat e m) :
    (x.isNaN = true ∧ decode k x = .nan) ∨
    (x.isNaN = false ∧ x.expo = BitVec.allOnes e ∧ x.frac = 0#m ∧ decode k x = .inf x.sign) ∨
    (x.isNaN = false ∧ x.expo ≠ BitVec.allOnes e ∧ decode k x = .fin x.sign (x.mag * 2 ^ k)) := by
  by_cases h : x.expo = BitVec.allOnes e
  · by_cases h0 : x.frac = 0#m
    · right; left
      exact ⟨by simp [GoFloat.isNaN, h, h0], h, h0, by simp [decode, h, h0]⟩
    · left
      exact ⟨by simp [GoFloat.isNaN, h, h0], by simp [decode, h, h0]⟩
  · right; right
    exact ⟨by simp [GoFloat.isNaN, h], h, decode_fin k x h⟩

theorem value_fin (s : Bool) (n : Nat) (v : Int) : Value (.fin s n) v ↔ v = if s then -(n : Int) else n := Iff.rfl

theorem val_scaled (x : GoFloat e m) (k : Nat) :
    (if x.sign then -((x.mag * 2 ^ k : Nat) : Int) else ((x.mag * 2 ^ k : Nat) : Int)) = x.val * 2 ^ k := by
  unfold GoFloat.val
  cases x.sign <;> simp

/-- C24: for every pair of floats, NaN included, Cmp says Less exactly if the first number is smaller, Greater
exactly if it is greater, and Eq says true exactly if the numbers are the same; the numbers are those that
IEEE 754 assigns to the bit patterns. -/
theorem C24_float_order (he : 0 < e) (k : Nat) (a b : GoFloat e m) :
    (fCmp a b = .lt ↔ FltLess (decode k a) (decode k b)) ∧
    (fCmp a b = .gt ↔ FltLess (decode k b) (decode k a)) ∧
    (fEq a b = true ↔ FltSame (decode k a) (decode k b)) := by
  have pos : (0 : Int) < 2 ^ k := Int.pow_pos (by decide)
  have hless : ∀ a b : GoFloat e m, a.lt b = true ↔ FltLess (decode k a) (decode k b) := by
    intro a b
    unfold GoFloat.lt
    rcases decode_cases k a with ⟨n1, d1⟩ | ⟨n1, e1, f1, d1⟩ | ⟨n1, e1, d1⟩ <;>
    rcases decode_cases k b with ⟨n2, d2⟩ | ⟨n2, e2, f2, d2⟩ | ⟨n2, e2, d2⟩ <;>
    rw [n1, n2, d1, d2] <;> simp only [FltLess, Bool.not_true, Bool.not_false, Bool.false_and, Bool.and_false,
      Bool.true_and, decide_eq_true_eq, reduceCtorEq]
    · have : a.mag = b.mag := by unfold GoFloat.mag; rw [e1, e2, f1, f2]
      have h1 := GoFloat.mag_inf he a e1
      have h2 : 0 < 2 ^ m * 2 ^ (2 ^ e - 2) := Nat.mul_pos (Nat.pow_pos (by decide)) (Nat.pow_pos (by decide))
      unfold GoFloat.val
      rw [this] at h1 ⊢
      cases a.sign <;> cases b.sign <;> simp <;> omega
    · have h1 := GoFloat.mag_inf he a e1
      have h2 := GoFloat.mag_lt he b e2
      unfold GoFloat.val
      cases a.sign <;> cases b.sign <;> simp <;> omega
    · have h1 := GoFloat.mag_inf he b e2
      have h2 := GoFloat.mag_lt he a e1
      unfold GoFloat.val
      cases a.sign <;> cases b.sign <;> simp <;> omega
    · simp only [value_fin, val_scaled]
      constructor
      · intro h
        exact ⟨_, _, rfl, rfl, Int.mul_lt_mul_of_pos_right h pos⟩
      · rintro ⟨v, w, rfl, rfl, h⟩
        exact Int.lt_of_mul_lt_mul_right h (Int.le_of_lt pos)
  have hlt : ∀ a b : GoFloat e m, a.lt b = true → b.lt a = false := by
    intro a b h
    cases h2 : b.lt a with
    | false => rfl
    | true =>
      simp only [GoFloat.lt, Bool.and_eq_true, decide_eq_true_eq] at h h2
      omega
  refine ⟨?_, ?_, ?_⟩
  · rw [← hless]
    unfold fCmp
    cases h1 : a.lt b <;> cases h2 : b.lt a <;> simp
  · rw [← hless]
    unfold fCmp
    cases h1 : a.lt b with
    | false => cases h2 : b.lt a <;> simp
    | true => rw [hlt a b h1]; simp
  · unfold fEq GoFloat.eq
    rcases decode_cases k a with ⟨n1, d1⟩ | ⟨n1, e1, f1, d1⟩ | ⟨n1, e1, d1⟩ <;>
    rcases decode_cases k b with ⟨n2, d2⟩ | ⟨n2, e2, f2, d2⟩ | ⟨n2, e2, d2⟩ <;>
    rw [n1, n2, d1, d2] <;> simp only [FltSame, Value, Bool.not_true, Bool.not_false, Bool.false_and, Bool.and_false,
      Bool.true_and, decide_eq_true_eq, reduceCtorEq, false_and, and_false, exists_false]
    · have : a.mag = b.mag := by unfold GoFloat.mag; rw [e1, e2, f1, f2]
      have h1 := GoFloat.mag_inf he a e1
      have h2 : 0 < 2 ^ m * 2 ^ (2 ^ e - 2) := Nat.mul_pos (Nat.pow_pos (by decide)) (Nat.pow_pos (by decide))
      unfold GoFloat.val
      rw [this] at h1 ⊢
      cases a.sign <;> cases b.sign <;> simp <;> omega
    · have h1 := GoFloat.mag_inf he a e1
      have h2 := GoFloat.mag_lt he b e2
      unfold GoFloat.val
      cases a.sign <;> cases b.sign <;> simp <;> omega
    · have h1 := GoFloat.mag_inf he b e2
      have h2 := GoFloat.mag_lt he a e1
      unfold GoFloat.val
      cases a.sign <;> cases b.sign <;> simp <;> omega
    · simp only [val_scaled]
      constructor
      · intro h
        exact ⟨_, rfl, by rw [h]⟩
      · rintro ⟨v, rfl, h⟩
        exact Int.eq_of_mul_eq_mul_right (Int.ne_of_gt pos) h

/-! ### The bit patterns and the numbers of the formats -/

theorem normalize (p : Nat) : ∀ (j n : Nat), n < 2 ^ (p + 1) → 2 ^ p ≤ n * 2 ^ j →
    ∃ f i, f < 2 ^ p ∧ i ≤ j ∧ n * 2 ^ j = (2 ^ p + f) * 2 ^ i := by
  intro j
  induction j with
  | zero =>
    intro n h1 h2
    rw [Nat.pow_succ] at h1
    exact ⟨n - 2 ^ p, 0, by omega, by omega, by rw [Nat.add_sub_cancel' (by simpa using h2)]⟩
  | succ j ih =>
    intro n h1 h2
    by_cases hn : 2 ^ p ≤ n
    · rw [Nat.pow_succ] at h1
      exact ⟨n - 2 ^ p, j + 1, by omega, Nat.le_refl _, by rw [Nat.add_sub_cancel' hn]⟩
    · have e1 : n * 2 ^ (j + 1) = (2 * n) * 2 ^ j := by rw [Nat.pow_succ', Nat.mul_comm 2 n, Nat.mul_assoc]
      rw [e1] at h2 ⊢
      obtain ⟨f, i, a, b, c⟩ := ih (2 * n) (by rw [Nat.pow_succ]; omega) h2
      exact ⟨f, i, a, by omega, c⟩

/-- The bit patterns of a format with `e` exponent and `m` fraction bits stand for numbers of the format, and for
all of them. -/
theorem decode_format (f : Format) (he : 1 < e) (hm : 0 < m) (hp : f.prec = m + 1) (hx : f.emax = f.emin + (2 ^ e - 3)) :
    (∀ x : GoFloat e m, InFormat f (decode f.emin x)) ∧
    ∀ y, InFormat f y → ∃ x : GoFloat e m, decode f.emin x = y := by
  have h4 : 2 ^ 2 ≤ 2 ^ e := Nat.pow_le_pow_right (by decide) he
  constructor
  · intro x
    have h1 := x.frac.isLt
    have h2 := x.expo.isLt
    unfold decode
    by_cases h : x.expo = BitVec.allOnes e
    · rw [if_pos h]
      by_cases h0 : x.frac = 0#m
      · rw [if_pos h0]; trivial
      · rw [if_neg h0]; trivial
    · rw [if_neg h]
      have h3 : x.expo.toNat ≠ 2 ^ e - 1 := by
        intro h4
        exact h (BitVec.eq_of_toNat_eq (by rw [BitVec.toNat_allOnes, h4]))
      by_cases h0 : x.expo = 0#e
      · rw [if_pos h0]
        exact ⟨_, f.emin, rfl, by rw [hp, Nat.pow_succ]; omega, Nat.le_refl _, by omega⟩
      · rw [if_neg h0]
        exact ⟨_, x.expo.toNat - 1 + f.emin, rfl, by rw [hp, Nat.pow_succ]; omega, by omega, by omega⟩
  · intro y hy
    cases y with
    | nan =>
      refine ⟨⟨false, BitVec.allOnes e, 1#m⟩, ?_⟩
      unfold decode
      have : (1#m) ≠ 0#m := by
        intro h
        have := congrArg BitVec.toNat h
        have h2 : 2 ^ 1 ≤ 2 ^ m := Nat.pow_le_pow_right (by decide) hm
        simp only [BitVec.toNat_ofNat, Nat.zero_mod] at this
        rw [Nat.mod_eq_of_lt (by omega)] at this
        omega
      simp [this]
    | inf s => exact ⟨⟨s, BitVec.allOnes e, 0#m⟩, by simp [decode]⟩
    | fin s n =>
      obtain ⟨q, i, rfl, h1, h2, h3⟩ := hy
      obtain ⟨j, rfl⟩ : ∃ j, i = f.emin + j := ⟨i - f.emin, by omega⟩
      rw [hp] at h1
      by_cases hs : q * 2 ^ j < 2 ^ m
      · refine ⟨⟨s, 0#e, BitVec.ofNat m (q * 2 ^ j)⟩, ?_⟩
        unfold decode
        rw [if_neg (allOnes_ne_zero (by omega)).symm]
        simp only [if_true, BitVec.toNat_ofNat, Nat.mod_eq_of_lt hs]
        rw [Nat.mul_assoc, ← Nat.pow_add, Nat.add_comm j]
      · obtain ⟨g, t, g1, g2, g3⟩ := normalize m j q h1 (by omega)
        have ht : t + 1 < 2 ^ e := by omega
        refine ⟨⟨s, BitVec.ofNat e (t + 1), BitVec.ofNat m g⟩, ?_⟩
        have e1 : (BitVec.ofNat e (t + 1)).toNat = t + 1 := by rw [BitVec.toNat_ofNat, Nat.mod_eq_of_lt ht]
        have e2 : (BitVec.ofNat m g).toNat = g := by rw [BitVec.toNat_ofNat, Nat.mod_eq_of_lt g1]
        unfold decode
        rw [if_neg (by intro h; have := congrArg BitVec.toNat h; rw [BitVec.toNat_allOnes] at this; simp only [e1] at this; omega),
          if_neg (by intro h; have := congrArg BitVec.toNat h; simp only [e1, BitVec.toNat_ofNat, Nat.zero_mod] at this; omega)]
        simp only [e1, e2, Nat.add_sub_cancel]
        rw [Nat.add_comm f.emin j, Nat.pow_add 2 j, ← Nat.mul_assoc, g3, Nat.mul_assoc, ← Nat.pow_add]

/-- C24: the bit patterns compared by Cmp stand for exactly the numbers of the two formats, so that the order of
`C24_float_order` is an order of all numbers that the other functions on floats work with. -/
theorem C24_float_formats :
    (∀ x : GoFloat 11 52, InFormat Flt.f64 (decode 0 x)) ∧
    (∀ y, InFormat Flt.f64 y → ∃ x : GoFloat 11 52, decode 0 x = y) ∧
    (∀ x : GoFloat 8 23, InFormat Flt.f32 (decode 925 x)) ∧
    (∀ y, InFormat Flt.f32 y → ∃ x : GoFloat 8 23, decode 925 x = y) := by
  have h1 := decode_format (e := 11) (m := 52) Flt.f64 (by decide) (by decide) rfl rfl
  have h2 := decode_format (e := 8) (m := 23) Flt.f32 (by decide) (by decide) rfl rfl
  exact ⟨h1.1, h1.2, h2.1, h2.2⟩

/-- The float32 2, and the largest subnormal and the smallest normal float64. -/
example : decode 925 (⟨false, 128#8, 0#23⟩ : GoFloat 8 23) = .fin false (2 * Flt.one) := by decide +kernel
example : FltLess (decode 0 (⟨false, 0#11, BitVec.allOnes 52⟩ : GoFloat 11 52))
    (decode 0 (⟨false, 1#11, 0#52⟩ : GoFloat 11 52)) := by
  rw [decode_fin 0 _ (by decide), decode_fin 0 _ (by decide)]
  exact ⟨2 ^ 52 - 1, 2 ^ 52, (value_fin _ _ _).2 (by decide), (value_fin _ _ _).2 (by decide), by decide⟩

end Gost
