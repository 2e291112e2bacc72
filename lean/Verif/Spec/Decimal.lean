import Verif.Model.Decimal
/-
Specification of decimal numerals, independent of the formatting functions.
-/
namespace Gost.Spec

/-- The value denoted by a sequence of digit bytes (most significant first). -/
def numeralValue (s : GoStr) : Nat := s.foldl (fun acc b => acc * 10 + (b.toNat - 48)) 0

/-- `s` is the canonical decimal numeral of the natural number `n`: non-empty, only the bytes
'0'..'9', no leading zero except for the numeral "0" itself, and its value is `n`. -/
def IsNumeral (s : GoStr) (n : Nat) : Prop :=
  s ≠ [] ∧ (∀ b ∈ s, 48 ≤ b.toNat ∧ b.toNat ≤ 57) ∧ (s.head? = some 48 → s = [48]) ∧
  numeralValue s = n

/-- `s` is the canonical signed decimal numeral of `i`: a '-' exactly for negative numbers. -/
def IsSignedNumeral (s : GoStr) (i : Int) : Prop :=
  (0 ≤ i ∧ IsNumeral s i.toNat) ∨ (i < 0 ∧ ∃ t, s = 45 :: t ∧ IsNumeral t (-i).toNat)

end Gost.Spec
