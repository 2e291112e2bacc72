import Verif.Go
/-
Model of the fixed-width integer methods of /repo/ops.go and /repo/bitwise.go.

The Go source repeats each method for I8, I16, I32, I64, ISize (and U8 ... USize).  A script
compared the copies after replacing the type names and the matching `math.MaxIntN`/`MinIntN`
constants; where all copies agree there is one definition here, generic in the width `w`
(`ISize`/`USize` are 64 bits wide), where a copy differs it has its own definition
(prefix `isize`/`usize`).  Go arithmetic wraps, as `BitVec` arithmetic does; `/` and `%`
truncate toward zero, as `BitVec.sdiv`/`BitVec.srem` do (`MIN / -1 = MIN`, `MIN % -1 = 0` in both).
`Option[T]` results are Lean `Option`s (the representation of `Option[T]` is modelled in
`Model/Option.lean`).
-/
namespace Gost.Ints

variable {w : Nat}

/-- `math.MaxIntN` as a value of the type. -/
abbrev sMax (w : Nat) : BitVec w := BitVec.intMax w
/-- `math.MinIntN` as a value of the type. -/
abbrev sMin (w : Nat) : BitVec w := BitVec.intMin w
/-- `math.MaxUintN` as a value of the type. -/
abbrev uMax (w : Nat) : BitVec w := BitVec.allOnes w

/-- Signed `<` of Go. -/
abbrev slt (a b : BitVec w) : Bool := BitVec.slt a b
/-- Unsigned `<` of Go. -/
abbrev ult (a b : BitVec w) : Bool := BitVec.ult a b

/-- Go's `/` on a signed type: panics on a zero divisor. -/
def goSDiv (a b : BitVec w) : Go (BitVec w) :=
  if b = 0#w then .error .divideByZero else .ok (a.sdiv b)
/-- Go's `/` on an unsigned type: panics on a zero divisor. -/
def goUDiv (a b : BitVec w) : Go (BitVec w) :=
  if b = 0#w then .error .divideByZero else .ok (a.udiv b)
/-- Go's `%` on a signed type: panics on a zero divisor. -/
def goSRem (a b : BitVec w) : Go (BitVec w) :=
  if b = 0#w then .error .divideByZero else .ok (a.srem b)
/-- Go's `%` on an unsigned type: panics on a zero divisor. -/
def goURem (a b : BitVec w) : Go (BitVec w) :=
  if b = 0#w then .error .divideByZero else .ok (a.umod b)

/-! ### Trait operators -/

/-- ops.go:64-82 (I*.Add), 108-126 (U*.Add): `self + rhs`. -/
def add (a b : BitVec w) : BitVec w := a + b
/-- ops.go:173-191 (I*.Sub), 199-217 (U*.Sub): `self - rhs`. -/
def sub (a b : BitVec w) : BitVec w := a - b
/-- ops.go:258-276 (I*.Mul), 312-330 (U*.Mul): `self * rhs`. -/
def mul (a b : BitVec w) : BitVec w := a * b
/-- ops.go:375-393 (I*.Div): `self / rhs`. -/
def sDivM (a b : BitVec w) : Go (BitVec w) := goSDiv a b
/-- ops.go:445-463 (U*.Div): `self / rhs`. -/
def uDivM (a b : BitVec w) : Go (BitVec w) := goUDiv a b
/-- ops.go:524-542 (I*.Rem): `self % rhs`. -/
def sRemM (a b : BitVec w) : Go (BitVec w) := goSRem a b
/-- ops.go:599-617 (U*.Rem): `self % rhs`. -/
def uRemM (a b : BitVec w) : Go (BitVec w) := goURem a b

/-! ### Overflow predicates -/

/-- ops.go:999-1047 (ISize, I8, I16, I32, I64)._HasOverflow_Add. -/
def sHasOverflowAdd (self rhs : BitVec w) : Bool :=
  if slt 0#w self && slt (sMax w - self) rhs then true
  else if slt self 0#w && slt rhs (sMin w - self) then true
  else false

/-- ops.go:1059-1097 (I8, I16, I32, I64)._HasOverflow_Sub. -/
def sHasOverflowSub (self rhs : BitVec w) : Bool :=
  if slt 0#w self && slt rhs (sMin w + self) then true
  else if slt self 0#w && slt (sMax w + self) rhs then true
  else false

/-- ops.go:1049-1057 ISize._HasOverflow_Sub (this copy differs from the others). -/
def isizeHasOverflowSub (self rhs : BitVec 64) : Bool :=
  if slt rhs 0#64 && slt (sMax 64 + rhs) self then true
  else if slt 0#64 rhs && slt self (sMin 64 + rhs) then true
  else false

/-- ops.go:1099-1132 (USize, U8, U16, U32, U64)._HasUnderflow_Sub. -/
def uHasUnderflowSub (self rhs : BitVec w) : Bool :=
  if ult self rhs then true else false

/-- ops.go:1144-1182 (I8, I16, I32, I64)._HasUnderflow_Sub. -/
def sHasUnderflowSub (self rhs : BitVec w) : Bool :=
  if slt 0#w rhs && slt self (sMin w + rhs) then true
  else if slt rhs 0#w && slt (sMax w + rhs) self then true
  else false

/-- ops.go:1134-1142 ISize._HasUnderflow_Sub: uses `math.MinInt32` and `math.MaxInt32`. -/
def isizeHasUnderflowSub (self rhs : BitVec 64) : Bool :=
  if slt 0#64 rhs && slt self (BitVec.ofInt 64 (-2147483648) + rhs) then true
  else if slt rhs 0#64 && slt (BitVec.ofInt 64 2147483647 + rhs) self then true
  else false

/-- ops.go:1184-1307 (ISize, I8, I16, I32, I64)._HasOverflow_Mul.  The divisors are non-zero on
the branches where they are used, so no division panic is possible. -/
def sHasOverflowMul (self rhs : BitVec w) : Bool :=
  if slt 0#w self then
    if slt 0#w rhs then
      if slt ((sMax w).sdiv rhs) self then true else false
    else
      if slt rhs ((sMax w).sdiv self) then true else false
  else
    if slt 0#w rhs then
      if slt self ((sMax w).sdiv rhs) then true else false
    else
      if self != 0#w && slt rhs ((sMax w).sdiv self) then true else false

/-- ops.go:1316-1342 (U8, U16, U32, U64)._HasOverflow_Mul. -/
def uHasOverflowMul (self rhs : BitVec w) : Bool :=
  if self != 0#w && ult ((uMax w).udiv self) rhs then true else false

/-- ops.go:1309-1314 USize._HasOverflow_Mul: uses `math.MaxUint32`. -/
def usizeHasOverflowMul (self rhs : BitVec 64) : Bool :=
  if self != 0#64 && ult ((4294967295#64).udiv self) rhs then true else false

/-- ops.go:1344-1402 (ISize, I8, I16, I32, I64)._HasOverflow_Div. -/
def sHasOverflowDiv (self rhs : BitVec w) : Bool :=
  if rhs == 0#w then true
  else if self == sMin w && rhs == -1#w then true
  else false

/-! ### Wrapping -/

/-- ops.go:1405-1433 (I*).WrappingAdd. -/
def sWrappingAdd (self rhs : BitVec w) : BitVec w := self + rhs

/-- ops.go:1435-1483 (U*).WrappingAdd. -/
def uWrappingAdd (self rhs : BitVec w) : BitVec w :=
  let result := self + rhs
  if ult result self || ult result rhs then result - uMax w - 1#w else result

/-- ops.go:1486-1544 (I*, U*).WrappingSub. -/
def wrappingSub (self rhs : BitVec w) : BitVec w := self - rhs

/-- ops.go:1557-1609 (I8..I64, USize, U8..U64).WrappingMul. -/
def wrappingMul (self rhs : BitVec w) : BitVec w := self * rhs

/-- ops.go:1547-1555 ISize.WrappingMul (this copy differs from the others). -/
def isizeWrappingMul (self rhs : BitVec 64) : BitVec 64 :=
  let result := self * rhs
  if slt result self || slt result rhs then result - sMax 64 - 1#64 else result

/-- ops.go:1612-1640 (I*).WrappingDiv. -/
def sWrappingDiv (self rhs : BitVec w) : Go (BitVec w) := goSDiv self rhs
/-- ops.go:1642-1670 (U*).WrappingDiv. -/
def uWrappingDiv (self rhs : BitVec w) : Go (BitVec w) := goUDiv self rhs

/-! ### Checked -/

/-- ops.go:1673-1721 (I*).CheckedAdd. -/
def sCheckedAdd (self rhs : BitVec w) : Option (BitVec w) :=
  let result := self + rhs
  if sHasOverflowAdd self rhs then none else some result

/-- ops.go:1723-1771 (U*).CheckedAdd. -/
def uCheckedAdd (self rhs : BitVec w) : Option (BitVec w) :=
  let result := self + rhs
  if ult result self || ult result rhs then none else some result

/-- ops.go:1784-1821 (I8..I64).CheckedSub: tests `_HasOverflow_Add`. -/
def sCheckedSub (self rhs : BitVec w) : Option (BitVec w) :=
  let result := self - rhs
  if sHasOverflowAdd self rhs || sHasUnderflowSub self rhs then none else some result

/-- ops.go:1774-1782 ISize.CheckedSub. -/
def isizeCheckedSub (self rhs : BitVec 64) : Option (BitVec 64) :=
  let result := self - rhs
  if isizeHasOverflowSub self rhs || isizeHasUnderflowSub self rhs then none else some result

/-- ops.go:1823-1871 (U*).CheckedSub. -/
def uCheckedSub (self rhs : BitVec w) : Option (BitVec w) :=
  let result := self - rhs
  if uHasUnderflowSub self rhs then none else some result

/-- ops.go:1874-1922 (I*).CheckedMul. -/
def sCheckedMul (self rhs : BitVec w) : Option (BitVec w) :=
  let result := self * rhs
  if sHasOverflowMul self rhs then none else some result

/-- ops.go:1934-1972 (U8..U64).CheckedMul. -/
def uCheckedMul (self rhs : BitVec w) : Option (BitVec w) :=
  let result := self * rhs
  if uHasOverflowMul self rhs then none else some result

/-- ops.go:1924-1932 USize.CheckedMul (same text, but USize's own `_HasOverflow_Mul`). -/
def usizeCheckedMul (self rhs : BitVec 64) : Option (BitVec 64) :=
  let result := self * rhs
  if usizeHasOverflowMul self rhs then none else some result

/-- ops.go:1975-2028 (I*).CheckedDiv. -/
def sCheckedDiv (self rhs : BitVec w) : Go (Option (BitVec w)) :=
  if sHasOverflowDiv self rhs then .ok none
  else do
    let result ← goSDiv self rhs
    .ok (some result)

/-- ops.go:2030-2078 (U*).CheckedDiv. -/
def uCheckedDiv (self rhs : BitVec w) : Go (Option (BitVec w)) :=
  if rhs == 0#w then .ok none
  else do
    let result ← goUDiv self rhs
    .ok (some result)

/-- ops.go:2081-2149 (I*).CheckedRem. -/
def sCheckedRem (self rhs : BitVec w) : Go (Option (BitVec w)) :=
  if rhs == 0#w then .ok none
  else do
    let result ← goSRem self rhs
    if slt self result || slt rhs result then .ok none else .ok (some result)

/-- ops.go:2151-2219 (U*).CheckedRem. -/
def uCheckedRem (self rhs : BitVec w) : Go (Option (BitVec w)) :=
  if rhs == 0#w then .ok none
  else do
    let result ← goURem self rhs
    if ult self result || ult rhs result then .ok none else .ok (some result)

/-! ### Saturating -/

/-- ops.go:2222-2276 (I*).SaturatingAdd. -/
def sSaturatingAdd (self rhs : BitVec w) : BitVec w :=
  if sHasOverflowAdd self rhs then
    if slt self 0#w then sMin w else sMax w
  else self + rhs

/-- ops.go:2278-2331 (U*).SaturatingAdd. -/
def uSaturatingAdd (self rhs : BitVec w) : BitVec w :=
  let result := self + rhs
  if ult result self || ult result rhs then uMax w else result

/-- ops.go:2347-2397 (I8..I64).SaturatingSub. -/
def sSaturatingSub (self rhs : BitVec w) : BitVec w :=
  let result := self - rhs
  if sHasOverflowSub self rhs || sHasUnderflowSub self rhs then
    if slt self 0#w then sMin w else sMax w
  else result

/-- ops.go:2334-2345 ISize.SaturatingSub (same text, but ISize's own predicates). -/
def isizeSaturatingSub (self rhs : BitVec 64) : BitVec 64 :=
  let result := self - rhs
  if isizeHasOverflowSub self rhs || isizeHasUnderflowSub self rhs then
    if slt self 0#64 then sMin 64 else sMax 64
  else result

/-- ops.go:2399-2444 (U*).SaturatingSub. -/
def uSaturatingSub (self rhs : BitVec w) : BitVec w :=
  if ult self rhs then 0#w else self - rhs

/-- ops.go:2447-2500 (I*).SaturatingMul. -/
def sSaturatingMul (self rhs : BitVec w) : BitVec w :=
  if sHasOverflowMul self rhs then
    if slt self 0#w then sMin w else sMax w
  else self * rhs

/-- ops.go:2513-2555 (U8..U64).SaturatingMul. -/
def uSaturatingMul (self rhs : BitVec w) : BitVec w :=
  let result := self * rhs
  if uHasOverflowMul self rhs then uMax w else result

/-- ops.go:2502-2511 USize.SaturatingMul (same text, but USize's own `_HasOverflow_Mul`). -/
def usizeSaturatingMul (self rhs : BitVec 64) : BitVec 64 :=
  let result := self * rhs
  if usizeHasOverflowMul self rhs then uMax 64 else result

/-- ops.go:2558-2641 (I*).SaturatingDiv. -/
def sSaturatingDiv (self rhs : BitVec w) : Go (BitVec w) :=
  if sHasOverflowDiv self rhs then
    if self == sMin w && rhs == -1#w then .ok (sMax w)
    else if slt self 0#w then .ok (sMin w)
    else .ok (sMax w)
  else goSDiv self rhs

/-- ops.go:2643-2691 (U*).SaturatingDiv. -/
def uSaturatingDiv (self rhs : BitVec w) : Go (BitVec w) :=
  if rhs == 0#w then .ok 0#w else goUDiv self rhs

/-! ### Abs, AbsDiff, sign, Pow, Neg -/

/-- ops.go:2694-2731 (I*).Abs. -/
def sAbs (self : BitVec w) : BitVec w := if slt self 0#w then -self else self

/-- ops.go:2743-2784 (I*).AbsDiff; the conversion to the unsigned type keeps the bits. -/
def sAbsDiff (self other : BitVec w) : BitVec w :=
  if slt other self then self - other else other - self

/-- ops.go:2788-2829 (U*).AbsDiff. -/
def uAbsDiff (self other : BitVec w) : BitVec w :=
  if ult other self then self - other else other - self

/-- ops.go:2832-2854 (I*).IsPositive. -/
def sIsPositive (self : BitVec w) : Bool := slt 0#w self
/-- ops.go:2862-2884 (I*).IsNegative. -/
def sIsNegative (self : BitVec w) : Bool := slt self 0#w

/-- ops.go:3031-3049 (I*).Neg; the unused parameter `rhs` is kept. -/
def sNeg (self _rhs : BitVec w) : BitVec w := -self

/-- ops.go:2892-3029 (I*, U*).Pow; the exponent is a U32. -/
def pow (self : BitVec w) (exp : BitVec 32) : BitVec w :=
  if _h0 : exp = 0#32 then 1#w
  else if exp = 1#32 then self
  else if exp.umod 2#32 = 0#32 then pow (self * self) (exp.udiv 2#32)
  else self * pow (self * self) (exp.udiv 2#32)
termination_by exp.toNat
decreasing_by
  all_goals
    have h : exp.toNat ≠ 0 := fun h => _h0 (BitVec.eq_of_toNat_eq (by simpa using h))
    have h2 : (2#32).toNat = 2 := by decide
    simp only [BitVec.udiv_eq, BitVec.toNat_udiv, h2]
    omega

/-! ### Shifts (bitwise.go) -/

/-- Go's `x << s` for an unsigned shift count (counts at or above the width give 0). -/
def goShl (x s : BitVec w) : BitVec w := x <<< s.toNat
/-- Go's `x >> s` on an unsigned type. -/
def goUShr (x s : BitVec w) : BitVec w := x >>> s.toNat
/-- Go's `x >> s` on a signed type (arithmetic shift). -/
def goSShr (x s : BitVec w) : BitVec w := x.sshiftRight s.toNat

/-- bitwise.go:11-29 (I*).Shl: `lhs << lhs` (the right operand is ignored); a negative shift
count panics. -/
def sShl (lhs _rhs : BitVec w) : Go (BitVec w) :=
  if slt lhs 0#w then .error .negativeShift else .ok (goShl lhs lhs)
/-- bitwise.go:52-70 (U*).Shl: `lhs << lhs`. -/
def uShl (lhs _rhs : BitVec w) : BitVec w := goShl lhs lhs
/-- bitwise.go:93-111 (I*).Shr: `lhs >> lhs`; a negative shift count panics. -/
def sShr (lhs _rhs : BitVec w) : Go (BitVec w) :=
  if slt lhs 0#w then .error .negativeShift else .ok (goSShr lhs lhs)
/-- bitwise.go:134-152 (U*).Shr: `lhs >> lhs`. -/
def uShr (lhs _rhs : BitVec w) : BitVec w := goUShr lhs lhs

end Gost.Ints
