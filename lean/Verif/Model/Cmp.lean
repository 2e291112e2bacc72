import Verif.Model.Ints
import Verif.Model.Decimal
/-
Model of /repo/cmp.go: the `Cmp` and `Eq` methods of the primitive types.
`OrderingLess/Equal/Greater` (cmp.go:5-10) are Lean's `Ordering.lt/eq/gt`.
-/
namespace Gost

/-- primitive.go:21-24 `U128`. -/
structure U128 where
  high : BitVec 64
  low : BitVec 64
  deriving DecidableEq, Repr

/-- primitive.go:11-14 `I128` (the high half is an I64, the low half a U64). -/
structure I128 where
  high : BitVec 64
  low : BitVec 64
  deriving DecidableEq, Repr

/-- The Go `F32`/`F64` values, as IEEE-754 bit patterns: 1 sign bit, `e` exponent bits, `m` fraction
bits (`e, m` = 8, 23 for F32 and 11, 52 for F64). -/
structure GoFloat (e m : Nat) where
  sign : Bool
  expo : BitVec e
  frac : BitVec m
  deriving DecidableEq, Repr

namespace GoFloat
variable {e m : Nat}
/-- IEEE-754: NaN has an all-ones exponent and a non-zero fraction. -/
def isNaN (x : GoFloat e m) : Bool := x.expo == BitVec.allOnes e && x.frac != 0#m

/-- The magnitude in units of the smallest subnormal (`2^-149` for F32, `2^-1074` for F64); an
infinity gets the value after the largest finite one. -/
def mag (x : GoFloat e m) : Nat :=
  if x.expo = 0#e then x.frac.toNat else (2 ^ m + x.frac.toNat) * 2 ^ (x.expo.toNat - 1)

/-- The signed value; both zeros have the value 0. -/
def val (x : GoFloat e m) : Int := if x.sign then -(x.mag : Int) else x.mag

/-- Go's `<` on floats: false if an operand is NaN. -/
def lt (x y : GoFloat e m) : Bool := !x.isNaN && !y.isNaN && decide (x.val < y.val)
/-- Go's `==` on floats: false if an operand is NaN. -/
def eq (x y : GoFloat e m) : Bool := !x.isNaN && !y.isNaN && decide (x.val = y.val)
end GoFloat

namespace Cmp
open Ints
variable {w : Nat}

/-- cmp.go:18-66 (ISize, I8, I16, I32, I64).Cmp. -/
def sCmp (self rhs : BitVec w) : Ordering :=
  if slt self rhs then .lt else if slt rhs self then .gt else .eq

/-- cmp.go:78-126 (USize, U8, U16, U32, U64).Cmp. -/
def uCmp (self rhs : BitVec w) : Ordering :=
  if ult self rhs then .lt else if ult rhs self then .gt else .eq

/-- cmp.go:213-231, 237-255, 277-283 (integers, Byte, Char).Eq. -/
def intEq (self rhs : BitVec w) : Bool := self == rhs

/-- cmp.go:68-76 I128.Cmp. -/
def i128Cmp (self rhs : I128) : Ordering :=
  if slt self.high rhs.high then .lt
  else if slt rhs.high self.high then .gt
  else uCmp self.low rhs.low

/-- cmp.go:128-136 U128.Cmp. -/
def u128Cmp (self rhs : U128) : Ordering :=
  if ult self.high rhs.high then .lt
  else if ult rhs.high self.high then .gt
  else uCmp self.low rhs.low

/-- cmp.go:233-235 I128.Eq. -/
def i128Eq (self rhs : I128) : Bool := self.high == rhs.high && self.low == rhs.low

/-- cmp.go:257-259 U128.Eq. -/
def u128Eq (self rhs : U128) : Bool := self.high == rhs.high && self.low == rhs.low

/-- cmp.go:138-156 (F32, F64).Cmp. -/
def fCmp {e m : Nat} (self rhs : GoFloat e m) : Ordering :=
  if self.lt rhs then .lt else if rhs.lt self then .gt else .eq

/-- cmp.go:261-267 (F32, F64).Eq. -/
def fEq {e m : Nat} (self rhs : GoFloat e m) : Bool := self.eq rhs

/-- Go's `<` on strings: lexicographic comparison of the bytes. -/
def strLt : GoStr → GoStr → Bool
  | _, [] => false
  | [], _ :: _ => true
  | a :: as, b :: bs => if a < b then true else if b < a then false else strLt as bs

/-- cmp.go:158-166 String.Cmp. -/
def strCmp (self rhs : GoStr) : Ordering :=
  if strLt self rhs then .lt else if strLt rhs self then .gt else .eq

/-- cmp.go:269-271 String.Eq. -/
def strEq (self rhs : GoStr) : Bool := self == rhs

/-- cmp.go:168-176 Bool.Cmp. -/
def boolCmp (self rhs : Bool) : Ordering :=
  if self == rhs then .eq else if self then .gt else .lt

/-- cmp.go:273-275 Bool.Eq. -/
def boolEq (self rhs : Bool) : Bool := self == rhs

/-- cmp.go:178-186 Byte.Cmp (Byte is an unsigned 8-bit integer). -/
def byteCmp (self rhs : BitVec 8) : Ordering :=
  if self == rhs then .eq else if ult rhs self then .gt else .lt

/-- cmp.go:188-196 Char.Cmp (Char is a signed 32-bit integer). -/
def charCmp (self rhs : BitVec 32) : Ordering :=
  if self == rhs then .eq else if slt rhs self then .gt else .lt

end Cmp
end Gost
