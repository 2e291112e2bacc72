import Verif.Model.Cmp
import Verif.Spec.Ints
/-
The mathematical values of the 128-bit types (a 128-bit integer is a pair of 64-bit halves).
-/
namespace Gost

/-- Mathematical value of a U128. -/
def U128.val (x : U128) : Nat := x.high.toNat * 2 ^ 64 + x.low.toNat
/-- Mathematical value of an I128: two's complement, the sign is that of the high half. -/
def I128.val (x : I128) : Int := x.high.toInt * 2 ^ 64 + x.low.toNat

namespace Spec

/-- The low half of the number `x` is neither all zeros nor all ones. -/
def LowMixed (x : Int) : Prop := x % 2 ^ 64 ≠ 0 ∧ x % 2 ^ 64 ≠ 2 ^ 64 - 1

instance (x : Int) : Decidable (LowMixed x) := by unfold LowMixed; infer_instance

end Spec
end Gost
