import Verif.Go
/-
Model of /repo/float.go: the methods of F32 and F64.

A finite number is a sign and a magnitude in units of 2^-1074, the smallest positive float64; every float32 and
float64 is an integer number of units.  The functions of package math and the conversions between float32 and
float64 are external: the definitions of the first part of this file are the contract assumed for them (IEEE 754;
Floor, Ceil, Round, Trunc, Abs and Modf are exact, Sqrt is correctly rounded).
-/
namespace Gost

/-- A floating-point number: the magnitude of a finite one is `n` units. -/
inductive Flt where
  | nan
  | inf (neg : Bool)
  | fin (neg : Bool) (n : Nat)
  deriving DecidableEq, Repr

/-- A binary format: numbers m·2^e units with m < 2^prec and emin ≤ e ≤ emax. -/
structure Format where
  prec : Nat
  emin : Nat
  emax : Nat

namespace Flt
/-- float32. -/
def f32 : Format := ⟨24, 925, 1178⟩
/-- float64. -/
def f64 : Format := ⟨53, 0, 2045⟩
/-- The number 1, in units. -/
def one : Nat := 2 ^ 1074

/-- The exponent of the last place of a number of this size. -/
def ulpExp (f : Format) (n : Nat) : Nat := max f.emin (n.log2 + 1 - f.prec)
/-- Round a magnitude to the nearest multiple of the last place, to even in a tie. -/
def roundMag (f : Format) (n : Nat) : Nat :=
  let u := 2 ^ ulpExp f n
  let q := n / u
  let r := n % u
  if 2 * r < u then q * u
  else if u < 2 * r then (q + 1) * u
  else if q % 2 = 0 then q * u else (q + 1) * u
/-- The largest finite magnitude. -/
def maxMag (f : Format) : Nat := (2 ^ f.prec - 1) * 2 ^ f.emax
/-- Conversion to a format: to nearest, ties to even; too large numbers become infinite. -/
def convert (f : Format) : Flt → Flt
  | nan => nan
  | inf s => inf s
  | fin s n => if maxMag f < roundMag f n then inf s else fin s (roundMag f n)

/-- Round a magnitude down, up, or to the nearest integer (half away from zero). -/
def down (n : Nat) : Nat := n / one * one
def up (n : Nat) : Nat := (n + (one - 1)) / one * one
def half (n : Nat) : Nat := (n + one / 2) / one * one

/-- Apply a function to the magnitude of a finite number. -/
def mapMag (g : Bool → Nat → Nat) : Flt → Flt
  | fin s n => fin s (g s n)
  | x => x

/-- math.Floor. -/
def mathFloor : Flt → Flt := mapMag fun s n => if s then up n else down n
/-- math.Ceil. -/
def mathCeil : Flt → Flt := mapMag fun s n => if s then down n else up n
/-- math.Round. -/
def mathRound : Flt → Flt := mapMag fun _ n => half n
/-- math.Trunc. -/
def mathTrunc : Flt → Flt := mapMag fun _ n => down n
/-- math.Abs. -/
def mathAbs : Flt → Flt
  | nan => nan
  | inf _ => inf false
  | fin _ n => fin false n
/-- math.Modf, second result. -/
def mathModfFrac : Flt → Flt
  | nan => nan
  | inf _ => nan
  | fin s n => fin s (n % one)

/-- The integer square root, bit by bit. -/
def isqrt : Nat → Nat → Nat
  | 0, _ => 0
  | fuel + 1, n =>
    if n = 0 then 0
    else
      let s := 2 * isqrt fuel (n / 4)
      if (s + 1) * (s + 1) ≤ n then s + 1 else s
/-- The correctly rounded square root of a magnitude: of n units it is √(n·one) units. -/
def sqrtMag (f : Format) (n : Nat) : Nat :=
  let t := n * one
  let s := isqrt (t.log2 + 1) t
  let u := 2 ^ ulpExp f s
  let q := s / u
  if 4 * t < (2 * q + 1) * u * ((2 * q + 1) * u) then q * u
  else if (2 * q + 1) * u * ((2 * q + 1) * u) < 4 * t then (q + 1) * u
  else if q % 2 = 0 then q * u else (q + 1) * u
/-- math.Sqrt: correctly rounded to float64. -/
def mathSqrt : Flt → Flt
  | nan => nan
  | inf false => inf false
  | inf true => nan
  | fin s n => if n = 0 then fin s 0 else if s then nan else fin false (sqrtMag f64 n)

/-- `float64(n)` for an int. -/
def ofInt (n : Int) : Flt := convert f64 (fin (decide (n < 0)) (n.natAbs * one))

/-! ### float.go -/

/-- The pattern `F32(math.F(float64(self)))` of the F32 methods: float64(self) is exact, the result is rounded. -/
def via32 (f : Flt → Flt) (self : Flt) : Flt := convert f32 (f self)
/-- The pattern `F64(math.F(float64(self)))`: no conversion changes anything. -/
def via64 (f : Flt → Flt) (self : Flt) : Flt := f self

/-- float.go:14-16 F32.Floor. -/
def floor32 : Flt → Flt := via32 mathFloor
/-- float.go:27-29 F64.Floor. -/
def floor64 : Flt → Flt := via64 mathFloor
/-- float.go:38-40 F32.Ceil. -/
def ceil32 : Flt → Flt := via32 mathCeil
/-- float.go:49-51 F64.Ceil. -/
def ceil64 : Flt → Flt := via64 mathCeil
/-- float.go:66-68 F32.Round. -/
def round32 : Flt → Flt := via32 mathRound
/-- float.go:83-85 F64.Round. -/
def round64 : Flt → Flt := via64 mathRound
/-- float.go:94-96 F32.Abs. -/
def abs32 : Flt → Flt := via32 mathAbs
/-- float.go:105-107 F64.Abs. -/
def abs64 : Flt → Flt := via64 mathAbs
/-- float.go:116-118 F32.Trunc. -/
def trunc32 : Flt → Flt := via32 mathTrunc
/-- float.go:127-129 F64.Trunc. -/
def trunc64 : Flt → Flt := via64 mathTrunc
/-- float.go:138-142 F32.Frac. -/
def frac32 : Flt → Flt := via32 mathModfFrac
/-- float.go:151-155 F64.Frac. -/
def frac64 : Flt → Flt := via64 mathModfFrac
/-- float.go:211-213 F32.Sqrt. -/
def sqrt32 : Flt → Flt := via32 mathSqrt
/-- float.go:223-225 F64.Sqrt. -/
def sqrt64 : Flt → Flt := via64 mathSqrt
/-- float.go:165-167 F32.Powi, given math.Pow. -/
def powi32 (pow : Flt → Flt → Flt) (self : Flt) (n : Int) : Flt := via32 (fun x => pow x (ofInt n)) self
/-- float.go:177-179 F64.Powi, given math.Pow. -/
def powi64 (pow : Flt → Flt → Flt) (self : Flt) (n : Int) : Flt := via64 (fun x => pow x (ofInt n)) self
/-- float.go:188-190 F32.Powf, given math.Pow. -/
def powf32 (pow : Flt → Flt → Flt) (self n : Flt) : Flt := via32 (fun x => pow x n) self
/-- float.go:199-201 F64.Powf, given math.Pow. -/
def powf64 (pow : Flt → Flt → Flt) (self n : Flt) : Flt := via64 (fun x => pow x n) self
/-- float.go:234-236, 256-258, 278-280, 324-326, 346-348 F32.Exp, Exp2, Ln, Log2, Log10, given the function of
package math. -/
def elementary32 (f : Flt → Flt) : Flt → Flt := via32 f
/-- float.go:245-247, 267-269, 289-291, 335-337, 357-359 F64.Exp, Exp2, Ln, Log2, Log10. -/
def elementary64 (f : Flt → Flt) : Flt → Flt := via64 f
/-- float.go:301-303 F32.Log, given math.Log and the division of float64. -/
def log32 (log : Flt → Flt) (quo : Flt → Flt → Flt) (self base : Flt) : Flt :=
  via32 (fun x => quo (log x) (log base)) self
/-- float.go:313-315 F64.Log. -/
def log64 (log : Flt → Flt) (quo : Flt → Flt → Flt) (self base : Flt) : Flt :=
  via64 (fun x => quo (log x) (log base)) self
end Flt
end Gost
