import Verif.Model.Const
import Verif.Model.Assign
import Verif.Props.Cmp
import Verif.Props.Int128
/-
Property C136: the constants `..._MIN` and `..._MAX` are the least and the greatest value of their type, and
the sum of the greatest value and one is the least.
-/
namespace Gost
open Spec Cmp

namespace Spec
/-- `lo` and `hi` enclose every value under `cmp`, and are the only values that do. -/
structure Extremes {α : Type} (cmp : α → α → Ordering) (lo hi : α) : Prop where
  least : ∀ x, cmp lo x ≠ .gt
  greatest : ∀ x, cmp x hi ≠ .gt
  least_only : ∀ x, (∀ y, cmp x y ≠ .gt) → x = lo
  greatest_only : ∀ x, (∀ y, cmp y x ≠ .gt) → x = hi
end Spec

theorem extremes_of {α : Type} {v : α → Int} {cmp : α → α → Ordering} {eq : α → α → Bool} (h : OrdersByValue v cmp eq)
    {lo hi : α} (hl : ∀ x, v lo ≤ v x) (hh : ∀ x, v x ≤ v hi) : Extremes cmp lo hi where
  least x := by intro c; have := (h.gt_iff _ _).1 c; have := hl x; omega
  greatest x := by intro c; have := (h.gt_iff _ _).1 c; have := hh x; omega
  least_only x hx := by
    have h1 := hx lo
    cases c : cmp x lo with
    | lt => have := (h.lt_iff _ _).1 c; have := hl x; omega
    | eq => exact (h.eq_iff _ _).1 c
    | gt => exact absurd c h1
  greatest_only x hx := by
    have h1 := hx hi
    cases c : cmp hi x with
    | lt => have := (h.lt_iff _ _).1 c; have := hh x; omega
    | eq => exact ((h.eq_iff _ _).1 c).symm
    | gt => exact absurd c h1

theorem extremes_unsigned {w : Nat} (lo hi : BitVec w) (hl : lo.toNat = 0) (hh : hi.toNat + 1 = 2 ^ w) :
    Extremes uCmp lo hi :=
  extremes_of C23_cmp_unsigned (fun x => by show ((lo.toNat : Nat) : Int) ≤ x.toNat; omega)
    (fun x => by show ((x.toNat : Nat) : Int) ≤ hi.toNat; have := x.isLt; omega)

theorem extremes_signed {w : Nat} (lo hi : BitVec (w + 1)) (hl : lo.toInt = -2 ^ w) (hh : hi.toInt + 1 = 2 ^ w) :
    Extremes sCmp lo hi := by
  have h1 := @BitVec.le_toInt (w + 1)
  have h2 := @BitVec.toInt_lt (w + 1)
  simp only [Nat.add_sub_cancel] at h1 h2
  exact extremes_of C23_cmp_signed (fun x => by show lo.toInt ≤ x.toInt; have := h1 x; omega)
    (fun x => by show x.toInt ≤ hi.toInt; have := @h2 x; omega)

open Const in
/-- C136, unsigned types: under `Cmp`, no value is below `..._MIN`, none above `..._MAX`. -/
theorem C136_unsigned :
    Extremes uCmp U8_MIN U8_MAX ∧ Extremes uCmp U16_MIN U16_MAX ∧ Extremes uCmp U32_MIN U32_MAX ∧
    Extremes uCmp U64_MIN U64_MAX ∧ Extremes uCmp USize_MIN USize_MAX ∧ Extremes u128Cmp U128_MIN U128_MAX := by
  refine ⟨extremes_unsigned _ _ rfl rfl, extremes_unsigned _ _ rfl rfl, extremes_unsigned _ _ rfl rfl,
    extremes_unsigned _ _ rfl rfl, extremes_unsigned _ _ rfl rfl, extremes_of C23_cmp_u128 ?_ ?_⟩
  · intro x
    show ((U128.val U128_MIN : Nat) : Int) ≤ (U128.val x : Nat)
    have : U128.val U128_MIN = 0 := by decide
    omega
  · intro x
    show ((U128.val x : Nat) : Int) ≤ (U128.val U128_MAX : Nat)
    have e : U128.val U128_MAX = 2 ^ 128 - 1 := by decide
    have h1 := x.high.isLt
    have h2 := x.low.isLt
    rw [e]; unfold U128.val
    omega

example : uCmp Const.U8_MIN 7#8 = .lt ∧ uCmp 254#8 Const.U8_MAX = .lt ∧ ¬ Extremes uCmp 0#8 254#8 :=
  ⟨by decide, by decide, fun h => h.greatest 255#8 (by decide)⟩

open Const in
/-- C136, signed types. -/
theorem C136_signed :
    Extremes sCmp I8_MIN I8_MAX ∧ Extremes sCmp I16_MIN I16_MAX ∧ Extremes sCmp I32_MIN I32_MAX ∧
    Extremes sCmp I64_MIN I64_MAX ∧ Extremes sCmp ISize_MIN ISize_MAX ∧ Extremes i128Cmp I128_MIN I128_MAX := by
  refine ⟨extremes_signed _ _ (by decide) (by decide), extremes_signed _ _ (by decide) (by decide),
    extremes_signed _ _ (by decide) (by decide), extremes_signed _ _ (by decide) (by decide),
    extremes_signed _ _ (by decide) (by decide), extremes_of C23_cmp_i128 ?_ ?_⟩
  · intro x
    have e : I128.val I128_MIN = -2 ^ 127 := by decide
    have h1 := @BitVec.le_toInt 64 x.high
    rw [e]; unfold I128.val
    omega
  · intro x
    have e : I128.val I128_MAX = 2 ^ 127 - 1 := by decide
    have h1 := @BitVec.toInt_lt 64 x.high
    have h2 := x.low.isLt
    rw [e]; unfold I128.val
    omega

example : sCmp Const.I8_MIN (-127#8) = .lt ∧ sCmp 126#8 Const.I8_MAX = .lt ∧ ¬ Extremes sCmp 0#8 127#8 :=
  ⟨by decide, by decide, fun h => h.least 128#8 (by decide)⟩

open Const in
/-- C136, the numbers: the value of every constant, that is 0 and 2^w - 1, or -2^(w-1) and 2^(w-1) - 1. -/
theorem C136_values :
    (U8_MIN.toNat = 0 ∧ U16_MIN.toNat = 0 ∧ U32_MIN.toNat = 0 ∧ U64_MIN.toNat = 0 ∧ USize_MIN.toNat = 0 ∧ U128_MIN.val = 0) ∧
    (U8_MAX.toNat = 2 ^ 8 - 1 ∧ U16_MAX.toNat = 2 ^ 16 - 1 ∧ U32_MAX.toNat = 2 ^ 32 - 1 ∧ U64_MAX.toNat = 2 ^ 64 - 1 ∧
      USize_MAX.toNat = 2 ^ 64 - 1 ∧ U128_MAX.val = 2 ^ 128 - 1) ∧
    (I8_MIN.toInt = -2 ^ 7 ∧ I16_MIN.toInt = -2 ^ 15 ∧ I32_MIN.toInt = -2 ^ 31 ∧ I64_MIN.toInt = -2 ^ 63 ∧
      ISize_MIN.toInt = -2 ^ 63 ∧ I128_MIN.val = -2 ^ 127) ∧
    (I8_MAX.toInt = 2 ^ 7 - 1 ∧ I16_MAX.toInt = 2 ^ 15 - 1 ∧ I32_MAX.toInt = 2 ^ 31 - 1 ∧ I64_MAX.toInt = 2 ^ 63 - 1 ∧
      ISize_MAX.toInt = 2 ^ 63 - 1 ∧ I128_MAX.val = 2 ^ 127 - 1) := by
  decide

example : Const.I128_MIN.val = -170141183460469231731687303715884105728 := by decide

open Const in
/-- C136, wrapping: one more than the greatest value is the least, one less than the least the greatest, for every
type (`Add` and `Sub`). -/
theorem C136_wraps :
    (Ints.add U8_MAX 1#8 = U8_MIN ∧ Ints.add U16_MAX 1#16 = U16_MIN ∧ Ints.add U32_MAX 1#32 = U32_MIN ∧
      Ints.add U64_MAX 1#64 = U64_MIN ∧ Ints.add USize_MAX 1#64 = USize_MIN ∧ U128_MAX.add ⟨0#64, 1#64⟩ = U128_MIN) ∧
    (Ints.add I8_MAX 1#8 = I8_MIN ∧ Ints.add I16_MAX 1#16 = I16_MIN ∧ Ints.add I32_MAX 1#32 = I32_MIN ∧
      Ints.add I64_MAX 1#64 = I64_MIN ∧ Ints.add ISize_MAX 1#64 = ISize_MIN ∧ I128_MAX.add ⟨0#64, 1#64⟩ = I128_MIN) ∧
    (Ints.sub U8_MIN 1#8 = U8_MAX ∧ Ints.sub U16_MIN 1#16 = U16_MAX ∧ Ints.sub U32_MIN 1#32 = U32_MAX ∧
      Ints.sub U64_MIN 1#64 = U64_MAX ∧ Ints.sub USize_MIN 1#64 = USize_MAX ∧ U128_MIN.sub ⟨0#64, 1#64⟩ = U128_MAX) ∧
    (Ints.sub I8_MIN 1#8 = I8_MAX ∧ Ints.sub I16_MIN 1#16 = I16_MAX ∧ Ints.sub I32_MIN 1#32 = I32_MAX ∧
      Ints.sub I64_MIN 1#64 = I64_MAX ∧ Ints.sub ISize_MIN 1#64 = ISize_MAX ∧ I128_MIN.sub ⟨0#64, 1#64⟩ = I128_MAX) := by
  decide

example : Ints.add Const.I8_MAX Const.I8_MAX = BitVec.ofInt 8 (-2) := by decide
end Gost
