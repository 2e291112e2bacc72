import Verif.Model.Cmp
/-
Model of the 128-bit integer types of /repo: primitive.go:11-79, ops.go (Add .. Rem, Neg, sign),
bitwise.go:31-50, 72-91, 113-132, 154-173 and to_string.go:44-71, 93-114, 148-167.
`math/big` values are Lean `Int`s; `big.Int.Div` is Euclidean division and `big.Int.Rem` truncated
remainder, both panic on a zero divisor; decimal strings follow `Model/Decimal.lean`.
-/
namespace Gost
open Ints Cmp

/-- to_string.go:148-167 `_ConvertBinaryStringToDecimalString`: the loop of lines 153-160, from the
last byte to the first.  `rest` is the part of the string still to be read, reversed. -/
def binToDecLoop : List UInt8 → Int → Int → Int
  | [], decimal, _ => decimal
  | c :: cs, decimal, digit =>
    binToDecLoop cs (if c = 49 then decimal + digit else decimal) (digit * 2)

/-- to_string.go:148-167 `_ConvertBinaryStringToDecimalString`. -/
def convertBinaryStringToDecimalString (binaryString : GoStr) (isNegative : Bool) : GoStr :=
  let decimal := binToDecLoop binaryString.reverse 0 1
  let decimal := if isNegative then -decimal else decimal
  Dec.formatInt decimal

/-- to_string.go:89-91 U64.ToString. -/
def u64ToString (x : BitVec 64) : GoStr := Dec.formatNat x.toNat
/-- to_string.go:40-42 I64.ToString. -/
def i64ToString (x : BitVec 64) : GoStr := Dec.formatInt x.toInt

/-- First byte of a string (Go's `s[0]`; the strings it is applied to are never empty). -/
def firstByte (s : GoStr) : UInt8 := s.headD 0

/-- to_string.go:59-62, 102-110: `n` rounds of prepending the low bit of an unsigned word. -/
def uBitsLoop : Nat → BitVec 64 → GoStr → GoStr
  | 0, _, s => s
  | n + 1, x, s => uBitsLoop n (x >>> 1) (firstByte (u64ToString (x &&& 1#64)) :: s)

/-- to_string.go:64-67: the same for the signed high word (arithmetic shift). -/
def sBitsLoop : Nat → BitVec 64 → GoStr → GoStr
  | 0, _, s => s
  | n + 1, x, s => sBitsLoop n (x.sshiftRight 1) (firstByte (i64ToString (x &&& 1#64)) :: s)

namespace U128

/-- primitive.go:44-49 U128_FromU64. -/
def fromU64 (low : BitVec 64) : U128 := ⟨0#64, low⟩

/-- ops.go:128-142 U128.Add. -/
def add (self rhs : U128) : U128 :=
  let low := self.low + rhs.low
  let carry := if ult low self.low || ult low rhs.low then 1#64 else 0#64
  ⟨self.high + rhs.high + carry, low⟩

/-- ops.go:219-231 U128.Sub. -/
def sub (self rhs : U128) : U128 :=
  let carry := if ult self.low rhs.low then 1#64 else 0#64
  ⟨self.high - rhs.high - carry, self.low - rhs.low⟩

/-- bitwise.go:72-91 U128.Shl (the shift count is the low half of `rhs`). -/
def shl (lhs rhs : U128) : U128 :=
  let low := goShl lhs.low rhs.low
  let high := goShl lhs.high rhs.low
  let high := if lhs.low >>> 63 = 1#64 then high + 1#64 else high
  ⟨high, low⟩

/-- bitwise.go:154-173 U128.Shr. -/
def shr (lhs rhs : U128) : U128 :=
  let low := goUShr lhs.low rhs.low
  let high := goUShr lhs.high rhs.low
  let low := if lhs.high &&& 1#64 = 1#64 then low ||| (1#64 <<< 63) else low
  ⟨high, low⟩

/-- ops.go:338-345: the loop of U128.Mul, `n` rounds left. -/
def mulLoop : Nat → U128 → U128 → U128 → U128
  | 0, result, _, _ => result
  | n + 1, result, self, rhs =>
    mulLoop n (if rhs.low &&& 1#64 = 1#64 then result.add self else result)
      (self.shl (fromU64 1#64)) (rhs.shr (fromU64 1#64))

/-- ops.go:332-348 U128.Mul. -/
def mul (self rhs : U128) : U128 := mulLoop 128 ⟨0#64, 0#64⟩ self rhs

/-- to_string.go:93-114 U128.ToString. -/
def toStr (self : U128) : GoStr :=
  if self.high = 0#64 then u64ToString self.low
  else
    let s := uBitsLoop 64 self.low []
    let s := uBitsLoop 64 self.high s
    convertBinaryStringToDecimalString s false

/-- `big.NewInt(0).SetString(s, 10)` as used in ops.go: the boolean result is ignored by the code, a
failed parse leaves the number undefined (here: 0, a case proved not to occur). -/
def bigOfString (s : GoStr) : Int := (Dec.parseInt s).getD 0

/-- `big.Int.FillBytes` into 16 bytes followed by the two `binary.BigEndian.Uint64` reads
(ops.go:483-490 and copies): the high and low words of the absolute value; panics if it does not fit. -/
def fillBytes (x : Int) : Go (BitVec 64 × BitVec 64) :=
  if x.natAbs < 2 ^ 128 then
    .ok (BitVec.ofNat 64 (x.natAbs / 2 ^ 64), BitVec.ofNat 64 x.natAbs)
  else .error .explicit

/-- `big.Int.Div`. -/
def bigDiv (x y : Int) : Go Int := if y = 0 then .error .divideByZero else .ok (x / y)
/-- `big.Int.Rem`. -/
def bigRem (x y : Int) : Go Int := if y = 0 then .error .divideByZero else .ok (x.tmod y)

/-- ops.go:465-496 U128.Div. -/
def div (lhs rhs : U128) : Go U128 :=
  if u128Cmp lhs rhs = .lt then .ok ⟨0#64, 0#64⟩
  else do
    let q ← bigDiv (bigOfString lhs.toStr) (bigOfString rhs.toStr)
    let (h, l) ← fillBytes q
    .ok ⟨h, l⟩

/-- ops.go:619-651 U128.Rem. -/
def rem (lhs rhs : U128) : Go U128 :=
  if u128Cmp lhs rhs = .lt then .ok lhs
  else do
    let q ← bigRem (bigOfString lhs.toStr) (bigOfString rhs.toStr)
    let (h, l) ← fillBytes q
    .ok ⟨h, l⟩

end U128

namespace I128

/-- primitive.go:74-79 I128_FromU64. -/
def fromU64 (low : BitVec 64) : I128 := ⟨0#64, low⟩

/-- ops.go:84-106 I128.Add.  `self.low < 0` is never true for the unsigned low half, so the first
branch (lines 87-91) is dead; it is kept. -/
def add (self rhs : I128) : I128 :=
  let carry :=
    if ult self.low 0#64 && ult rhs.low 0#64 then
      let low := self.low + rhs.low
      if ult self.low low || ult rhs.low low then 1#64 else 0#64
    else if ult 0#64 self.low && ult 0#64 rhs.low then
      let low := self.low + rhs.low
      if ult low self.low || ult low rhs.low then 1#64 else 0#64
    else 0#64
  ⟨self.high + rhs.high + carry, self.low + rhs.low⟩

/-- ops.go:3051-3068 I128.Neg. -/
def neg (self : I128) : I128 :=
  let hasCarry := self.low == uMax 64
  let high := ~~~ self.high
  let low := ~~~ self.low
  if hasCarry then ⟨high + 1#64, 0#64⟩ else ⟨high, low + 1#64⟩

/-- ops.go:193-197 I128.Sub. -/
def sub (self rhs : I128) : I128 := self.add rhs.neg

/-- primitive.go:51-72 I128_FromI64. -/
def fromI64 (low : BitVec 64) : I128 :=
  if low = 0#64 then ⟨0#64, 0#64⟩
  else if slt low 0#64 then neg ⟨0#64, sAbs low⟩
  else ⟨0#64, low⟩

/-- bitwise.go:31-50 I128.Shl. -/
def shl (lhs rhs : I128) : I128 :=
  let low := goShl lhs.low rhs.low
  let high := goShl lhs.high rhs.low
  let high := if lhs.low >>> 63 = 1#64 then high + 1#64 else high
  ⟨high, low⟩

/-- bitwise.go:113-132 I128.Shr (arithmetic shift of the high half). -/
def shr (lhs rhs : I128) : I128 :=
  let low := goUShr lhs.low rhs.low
  let high := goSShr lhs.high rhs.low
  let low := if lhs.high &&& 1#64 = 1#64 then low ||| (1#64 <<< 63) else low
  ⟨high, low⟩

/-- ops.go:296-303: the loop of I128.Mul, `n` rounds left. -/
def mulLoop : Nat → I128 → I128 → I128 → I128
  | 0, result, _, _ => result
  | n + 1, result, self, rhs =>
    mulLoop n (if rhs.low &&& 1#64 = 1#64 then result.add self else result)
      (self.shl (fromI64 1#64)) (rhs.shr (fromI64 1#64))

/-- ops.go:278-310 I128.Mul. -/
def mul (self rhs : I128) : I128 :=
  let n1 := slt self.high 0#64
  let self := if n1 then self.neg else self
  let n2 := slt rhs.high 0#64
  let rhs := if n2 then rhs.neg else rhs
  let result := mulLoop 128 ⟨0#64, 0#64⟩ self rhs
  if xor n1 n2 then result.neg else result

/-- to_string.go:44-71 I128.ToString. -/
def toStr (self : I128) : GoStr :=
  let isNegative := slt self.high 0#64
  if self.high = 0#64 then u64ToString self.low
  else
    let self := if isNegative then self.neg else self
    let s := uBitsLoop 64 self.low []
    let s := sBitsLoop 64 self.high s
    convertBinaryStringToDecimalString s isNegative

/-- ops.go:395-442 I128.Div. -/
def div (lhs rhs : I128) : Go I128 :=
  let n1 := slt lhs.high 0#64
  let lhs := if n1 then lhs.neg else lhs
  let n2 := slt rhs.high 0#64
  let rhs := if n2 then rhs.neg else rhs
  if i128Cmp lhs rhs = .lt then .ok ⟨0#64, 0#64⟩
  else do
    let q ← U128.bigDiv (U128.bigOfString lhs.toStr) (U128.bigOfString rhs.toStr)
    let (h, l) ← U128.fillBytes q
    let result : I128 := ⟨h, l⟩
    .ok (if xor n1 n2 then result.neg else result)

/-- ops.go:544-597 I128.Rem. -/
def rem (lhs rhs : I128) : Go I128 :=
  let n1 := slt lhs.high 0#64
  let lhs := if n1 then lhs.neg else lhs
  let n2 := slt rhs.high 0#64
  let rhs := if n2 then rhs.neg else rhs
  if i128Cmp lhs rhs = .lt then
    if xor n1 n2 then .ok lhs.neg else .ok lhs
  else do
    let q ← U128.bigRem (U128.bigOfString lhs.toStr) (U128.bigOfString rhs.toStr)
    let (h, l) ← U128.fillBytes q
    let result : I128 := ⟨h, l⟩
    if result.high = 0#64 ∧ result.low = 0#64 then .ok result
    else .ok (if xor n1 n2 then result.neg else result)

/-- ops.go:2857-2859 I128.IsPositive. -/
def isPositive (self : I128) : Bool := slt 0#64 self.high
/-- ops.go:2887-2889 I128.IsNegative. -/
def isNegative (self : I128) : Bool := slt self.high 0#64

end I128
end Gost
