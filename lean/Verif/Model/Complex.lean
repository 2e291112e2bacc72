import Verif.Model.FloatArith
/-
Model of the products and quotients of Complex64 and Complex128 in /repo/ops.go.

The methods return Go's operator on their two operands.  Go's operators on complex numbers are external; the definitions of the
first part of this file are the contract assumed for them, the one of the gc compiler: a product is computed from four products
of float64, one difference and one sum, each rounded (no fused multiply-add: true of amd64 with the default GOAMD64=v1, while
other architectures may fuse); a quotient is computed by runtime.complex128div, Smith's algorithm followed by a
correction for infinities and zeros.  Operands of type complex64 are widened (which is exact), the result is narrowed.  A number
is the pair of its real and imaginary part.
-/
namespace Gost
namespace Flt

/-- runtime.abs. -/
def absolute : Flt → Flt
  | nan => nan
  | inf _ => inf false
  | fin _ n => fin false n

/-- Go's `x >= y`; false if one of them is NaN. -/
def atLeast : Flt → Flt → Bool
  | nan, _ => false
  | _, nan => false
  | inf s, inf t => !s || t
  | inf s, fin _ _ => !s
  | fin _ _, inf t => t
  | fin s a, fin t b => decide ((if t then -(b : Int) else b) ≤ (if s then -(a : Int) else a))

def isNaN : Flt → Bool
  | nan => true
  | _ => false

def isInf : Flt → Bool
  | inf _ => true
  | _ => false

def isFinite : Flt → Bool
  | fin _ _ => true
  | _ => false

/-- Go's `x == 0`. -/
def isZero : Flt → Bool
  | fin _ n => decide (n = 0)
  | _ => false

/-- Go's `math.Copysign(inf, x)` in the runtime, for an x that is a number. -/
def infLike : Flt → Flt
  | nan => inf false
  | inf s => inf s
  | fin s _ => inf s

/-- runtime.inf2one: ±1 for an infinity, ±0 for other values.  The sign of a NaN is not modelled, it is taken as plus
here; it only reaches the sign of a zero. -/
def inf2one : Flt → Flt
  | nan => fin false 0
  | inf s => fin s one
  | fin s _ => fin s 0

/-- Go's `*` on complex128. -/
def complexTimes (x y : Flt × Flt) : Flt × Flt :=
  (plus f64 (times f64 x.1 y.1) (minus (times f64 x.2 y.2)), plus f64 (times f64 x.1 y.2) (times f64 x.2 y.1))

/-- The first part of runtime.complex128div: n/m. -/
def smith (n m : Flt × Flt) : Flt × Flt :=
  if atLeast (absolute m.1) (absolute m.2) then
    let ratio := over f64 m.2 m.1
    let denom := plus f64 m.1 (times f64 ratio m.2)
    (over f64 (plus f64 n.1 (times f64 n.2 ratio)) denom, over f64 (plus f64 n.2 (minus (times f64 n.1 ratio))) denom)
  else
    let ratio := over f64 m.1 m.2
    let denom := plus f64 m.2 (times f64 ratio m.1)
    (over f64 (plus f64 (times f64 n.1 ratio) n.2) denom, over f64 (plus f64 (times f64 n.2 ratio) (minus n.1)) denom)

/-- Go's `/` on complex128: runtime.complex128div. -/
def complexOver (n m : Flt × Flt) : Flt × Flt :=
  let q := smith n m
  if isNaN q.1 || isNaN q.2 then
    let (a, b) := n
    let (c, d) := m
    if isZero c && isZero d && (!isNaN a || !isNaN b) then (times f64 (infLike c) a, times f64 (infLike c) b)
    else if (isInf a || isInf b) && isFinite c && isFinite d then
      let a := inf2one a
      let b := inf2one b
      (times f64 (inf false) (plus f64 (times f64 a c) (times f64 b d)),
       times f64 (inf false) (plus f64 (times f64 b c) (minus (times f64 a d))))
    else if (isInf c || isInf d) && isFinite a && isFinite b then
      let c := inf2one c
      let d := inf2one d
      (times f64 (fin false 0) (plus f64 (times f64 a c) (times f64 b d)),
       times f64 (fin false 0) (plus f64 (times f64 b c) (minus (times f64 a d))))
    else q
  else q

/-- The conversion of the result to complex64. -/
def narrow (z : Flt × Flt) : Flt × Flt := (convert f32 z.1, convert f32 z.2)

/-! ### ops.go -/

/-- ops.go:366-368 Complex64.Mul. -/
def complexMul32 (self rhs : Flt × Flt) : Flt × Flt := narrow (complexTimes self rhs)
/-- ops.go:370-372 Complex128.Mul. -/
def complexMul64 (self rhs : Flt × Flt) : Flt × Flt := complexTimes self rhs
/-- ops.go:515-517 Complex64.Div. -/
def complexDiv32 (self rhs : Flt × Flt) : Flt × Flt := narrow (complexOver self rhs)
/-- ops.go:519-521 Complex128.Div. -/
def complexDiv64 (self rhs : Flt × Flt) : Flt × Flt := complexOver self rhs
end Flt

/-- The operators of Complex64 and of Complex128 for the assignment operators: ops.go:723-729 AddAssign, 796-802 SubAssign,
869-875 MulAssign, 942-948 DivAssign.  They have no Rem: `rem` stands for nothing. -/
def Operators.complex32 : Operators (Flt × Flt) :=
  ⟨fun a b => .ok (Flt.complexAdd Flt.f32 a b), fun a b => .ok (Flt.complexSub Flt.f32 a b), fun a b => .ok (Flt.complexMul32 a b),
   fun a b => .ok (Flt.complexDiv32 a b), fun _ _ => .error .explicit⟩
/-- The same for Complex128. -/
def Operators.complex64 : Operators (Flt × Flt) :=
  ⟨fun a b => .ok (Flt.complexAdd Flt.f64 a b), fun a b => .ok (Flt.complexSub Flt.f64 a b), fun a b => .ok (Flt.complexMul64 a b),
   fun a b => .ok (Flt.complexDiv64 a b), fun _ _ => .error .explicit⟩
end Gost
