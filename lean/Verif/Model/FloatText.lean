import Verif.Model.Float
import Verif.Model.Decimal
import Verif.Model.Option
/-
Model of the texts of floating-point and complex numbers: F32.ToString, F64.ToString, Complex64.ToString,
Complex128.ToString (to_string.go) and String.ParseF64 (string.go).

strconv.FormatFloat, strconv.FormatComplex and strconv.ParseFloat are external.  What is assumed of them: FormatFloat
with precision -1 gives the smallest number of digits that rounds to the number (`Shortest`, its documentation), laid
out by the verb 'f' (`layout`); ParseFloat reads the grammar below and rounds to nearest, ties to even.  Texts with
underscores or a hexadecimal prefix are read by an arbitrary function.
-/
namespace Gost
namespace Flt

/-- Round p/q units to the nearest number of the format, to even in a tie. -/
def roundRat (f : Format) (p q : Nat) : Nat :=
  let u := 2 ^ ulpExp f (p / q)
  let a := p / (q * u)
  let r := p % (q * u)
  if 2 * r < q * u then a * u
  else if q * u < 2 * r then (a + 1) * u
  else if a % 2 = 0 then a * u else (a + 1) * u
/-- d·10^e, rounded. -/
def roundDec (f : Format) (d : Nat) (e : Int) : Nat :=
  if e < 0 then roundRat f (d * one) (10 ^ e.natAbs) else roundRat f (d * 10 ^ e.natAbs * one) 1

/-! ### strconv.FormatFloat -/

/-- The digits that FormatFloat finds for a positive finite number: n units are shown as d·10^e; no number with fewer
digits is rounded to n. -/
structure Shortest (f : Format) where
  digits : Nat → Nat × Int
  rounds : ∀ m e, m < 2 ^ f.prec → f.emin ≤ e → e ≤ f.emax → 0 < m →
    roundDec f (digits (m * 2 ^ e)).1 (digits (m * 2 ^ e)).2 = m * 2 ^ e
  least : ∀ m e d k, m < 2 ^ f.prec → f.emin ≤ e → e ≤ f.emax → 0 < m → roundDec f d k = m * 2 ^ e →
    (Dec.formatNat (digits (m * 2 ^ e)).1).length ≤ (Dec.formatNat d).length

/-- d·10^e in the layout of 'f': an integer, or an integer part, a point and a fraction. -/
def layout (d : Nat) (e : Int) : GoStr :=
  let ds := Dec.formatNat d
  if 0 ≤ e then ds ++ List.replicate e.natAbs 48
  else if e.natAbs < ds.length then ds.take (ds.length - e.natAbs) ++ 46 :: ds.drop (ds.length - e.natAbs)
  else 48 :: 46 :: (List.replicate (e.natAbs - ds.length) 48 ++ ds)
/-- `strconv.FormatFloat(x, 'f', -1, bits)`. -/
def formatFloat {f : Format} (lib : Shortest f) : Flt → GoStr
  | nan => [78, 97, 78]                       -- "NaN"
  | inf false => [43, 73, 110, 102]           -- "+Inf"
  | inf true => [45, 73, 110, 102]            -- "-Inf"
  | fin s n =>
    (if s then [45] else []) ++ (if n = 0 then [48] else layout (lib.digits n).1 (lib.digits n).2)
/-- `strconv.FormatComplex(c, 'f', -1, bits)`: the imaginary part gets a sign. -/
def formatComplex {f : Format} (lib : Shortest f) (re im : Flt) : GoStr :=
  let t := formatFloat lib im
  let t := if t.head? ≠ some 43 ∧ t.head? ≠ some 45 then 43 :: t else t
  40 :: (formatFloat lib re ++ t ++ [105, 41])

/-! ### strconv.ParseFloat -/

/-- The loop of `readFloat` over digits and the point: number read, digits behind the point, point seen, digit seen,
rest. -/
def mantissa : GoStr → Nat → Nat → Bool → Bool → Nat × Nat × Bool × GoStr
  | [], d, k, _, seen => (d, k, seen, [])
  | b :: bs, d, k, dot, seen =>
    if b = 46 then
      if dot then (d, k, seen, b :: bs) else mantissa bs d k true seen
    else
      match Dec.digitVal b with
      | some v => mantissa bs (d * 10 + v) (if dot then k + 1 else k) dot true
      | none => (d, k, seen, b :: bs)
/-- The digits of the exponent; from 10000 on they are ignored. -/
def expDigits : GoStr → Nat → Nat × GoStr
  | [], e => (e, [])
  | b :: bs, e =>
    match Dec.digitVal b with
    | some v => expDigits bs (if e < 10000 then e * 10 + v else e)
    | none => (e, b :: bs)
/-- The exponent of `readFloat`, if there is one: its value and the rest; `none` is a syntax error. -/
def exponent : GoStr → Option (Int × GoStr)
  | [] => some (0, [])
  | b :: bs =>
    if b = 101 ∨ b = 69 then
      let neg := decide (bs.head? = some 45)
      let bs := if bs.head? = some 43 ∨ bs.head? = some 45 then bs.tail else bs
      match bs.head? >>= Dec.digitVal with
      | none => none
      | some _ =>
        let (e, rest) := expDigits bs 0
        some (if neg then -(e : Int) else e, rest)
    else some (0, b :: bs)
/-- `readFloat`: sign, number and power of ten of a text that is a decimal number as a whole. -/
def readFloat (s : GoStr) : Option (Bool × Nat × Int) :=
  let neg := decide (s.head? = some 45)
  let s := if s.head? = some 43 ∨ s.head? = some 45 then s.tail else s
  let (d, k, seen, rest) := mantissa s 0 0 false false
  if !seen then none
  else
    match exponent rest with
    | some (e, []) => some (neg, d, e - k)
    | _ => none
/-- A letter in lower case. -/
def lower (b : UInt8) : UInt8 := if 65 ≤ b.toNat ∧ b.toNat ≤ 90 then b + 32 else b
/-- `special`: infinities, with or without sign, and NaN, in upper or lower case. -/
def special (s : GoStr) : Option Flt :=
  let neg := decide (s.head? = some 45)
  let t := (if s.head? = some 43 ∨ s.head? = some 45 then s.tail else s).map lower
  if t = [105, 110, 102] ∨ t = [105, 110, 102, 105, 110, 105, 116, 121] then some (inf neg)
  else if s.map lower = [110, 97, 110] then some nan
  else none
/-- Underscores or a hexadecimal prefix. -/
def unusual (s : GoStr) : Bool :=
  let t := if s.head? = some 43 ∨ s.head? = some 45 then s.tail else s
  s.contains 95 || (t.take 2).map lower == [48, 120]
/-- `strconv.ParseFloat(s, bits)`; `none` is an error, also for a number that is too large. -/
def parseFloat (f : Format) (other : GoStr → Option Flt) (s : GoStr) : Option Flt :=
  match special s with
  | some x => some x
  | none =>
    if unusual s then other s
    else
      match readFloat s with
      | none => none
      | some (neg, d, e) => if maxMag f < roundDec f d e then none else some (fin neg (roundDec f d e))

/-! ### The library -/

/-- to_string.go:116-118 F32.ToString. -/
def toString32 (lib : Shortest f32) (self : Flt) : GoStr := formatFloat lib self
/-- to_string.go:120-122 F64.ToString. -/
def toString64 (lib : Shortest f64) (self : Flt) : GoStr := formatFloat lib self
/-- to_string.go:140-142 Complex64.ToString: FormatComplex halves the number of bits. -/
def complex64ToString (lib : Shortest f32) (re im : Flt) : GoStr := formatComplex lib re im
/-- to_string.go:144-146 Complex128.ToString. -/
def complex128ToString (lib : Shortest f64) (re im : Flt) : GoStr := formatComplex lib re im
/-- string.go:143-151 ParseF64. -/
def parseF64 (other : GoStr → Option Flt) (self : GoStr) : Res Unit Flt :=
  match parseFloat f64 other self with
  | none => Res.mkErr (some ())
  | some parsed => Res.mkOk parsed

end Flt
/-- to_string.go:132-134 String.ToString. -/
def stringToString (self : GoStr) : GoStr := self
end Gost
