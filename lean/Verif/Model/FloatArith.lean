import Verif.Model.FloatText
import Verif.Model.Assign
/-
Model of the arithmetic of F32, F64, Complex64 and Complex128 in /repo/ops.go.

The methods return Go's operator on their two operands.  Go's operators on floating-point numbers are external; the
definitions of the first part of this file are the contract assumed for them: IEEE 754 with rounding to nearest, ties to even,
and one rounding per method call (a method returns its result, so that nothing is fused across calls).  Not
modelled: which NaN is returned.  Products and quotients of complex numbers are in Model/Complex.lean.
-/
namespace Gost
namespace Flt

/-- A result p/q units of sign `s`, rounded to the format. -/
def roundTo (f : Format) (s : Bool) (p q : Nat) : Flt :=
  if maxMag f < roundRat f p q then inf s else fin s (roundRat f p q)

/-- Go's unary minus. -/
def minus : Flt → Flt
  | nan => nan
  | inf s => inf (!s)
  | fin s n => fin (!s) n

/-- Go's `+`. -/
def plus (f : Format) : Flt → Flt → Flt
  | nan, _ => nan
  | inf _, nan => nan
  | inf s, inf t => if s = t then inf s else nan
  | inf s, fin _ _ => inf s
  | fin _ _, nan => nan
  | fin _ _, inf t => inf t
  | fin s a, fin t b =>
    if s = t then roundTo f s (a + b) 1
    else if a = b then fin false 0
    else if b < a then roundTo f s (a - b) 1
    else roundTo f t (b - a) 1

/-- Go's `*`. -/
def times (f : Format) : Flt → Flt → Flt
  | nan, _ => nan
  | inf _, nan => nan
  | inf s, inf t => inf (s != t)
  | inf s, fin t b => if b = 0 then nan else inf (s != t)
  | fin _ _, nan => nan
  | fin s a, inf t => if a = 0 then nan else inf (s != t)
  | fin s a, fin t b => roundTo f (s != t) (a * b) one

/-- Go's `/`: division by zero does not panic. -/
def over (f : Format) : Flt → Flt → Flt
  | nan, _ => nan
  | inf _, nan => nan
  | inf _, inf _ => nan
  | inf s, fin t _ => inf (s != t)
  | fin _ _, nan => nan
  | fin s _, inf t => fin (s != t) 0
  | fin s a, fin t b =>
    if b = 0 then (if a = 0 then nan else inf (s != t))
    else roundTo f (s != t) (a * one) b

/-! ### ops.go -/

/-- ops.go:144-146 F32.Add, 148-150 F64.Add. -/
def add (f : Format) (self rhs : Flt) : Flt := plus f self rhs
/-- ops.go:233-235 F32.Sub, 237-239 F64.Sub; IEEE 754: x - y is x + (-y). -/
def sub (f : Format) (self rhs : Flt) : Flt := plus f self (minus rhs)
/-- ops.go:350-352 F32.Mul, 354-356 F64.Mul. -/
def mul (f : Format) (self rhs : Flt) : Flt := times f self rhs
/-- ops.go:499-501 F32.Div, 503-505 F64.Div. -/
def div (f : Format) (self rhs : Flt) : Flt := over f self rhs

/-- ops.go:164-166 Complex64.Add, 168-170 Complex128.Add: real and imaginary part. -/
def complexAdd (f : Format) (self rhs : Flt × Flt) : Flt × Flt := (plus f self.1 rhs.1, plus f self.2 rhs.2)
/-- ops.go:249-251 Complex64.Sub, 253-255 Complex128.Sub. -/
def complexSub (f : Format) (self rhs : Flt × Flt) : Flt × Flt :=
  (plus f self.1 (minus rhs.1), plus f self.2 (minus rhs.2))
end Flt

/-- The operators of F32 and F64 for the assignment operators: ops.go:703-709 AddAssign, 780-786 SubAssign, 853-859
MulAssign, 926-932 DivAssign.  They have no Rem: `rem` stands for nothing. -/
def Operators.float (f : Format) : Operators Flt :=
  ⟨fun a b => .ok (a.add f b), fun a b => .ok (a.sub f b), fun a b => .ok (a.mul f b), fun a b => .ok (a.div f b),
   fun _ _ => .error .explicit⟩
end Gost
