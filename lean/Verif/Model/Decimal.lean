import Verif.Go
/-
Go strings and the decimal formatting / parsing functions of the Go standard library that the
modelled code calls (`strconv.Itoa`, `strconv.FormatUint(_, 10)`, `strconv.Atoi`, `big.Int.String`,
`big.Int.SetString(_, 10)`).  These are external code: the definitions below are the contract
assumed for them (trusted base, DESIGN.md section 3).
-/
namespace Gost

/-- A Go string: a finite sequence of arbitrary bytes. -/
abbrev GoStr := List UInt8

namespace Dec

/-- The ASCII byte of a decimal digit. -/
def digit (d : Nat) : UInt8 := UInt8.ofNat (48 + d)

/-- `strconv.FormatUint(n, 10)`, `big.Int.String` on a non-negative value. -/
def formatNat (n : Nat) : GoStr :=
  if n < 10 then [digit n] else formatNat (n / 10) ++ [digit (n % 10)]
termination_by n

/-- `strconv.Itoa`, `big.Int.String`. -/
def formatInt (i : Int) : GoStr :=
  if i < 0 then 45 :: formatNat i.natAbs else formatNat i.natAbs

/-- Value of a digit byte, `none` if it is not a digit. -/
def digitVal (b : UInt8) : Option Nat :=
  if 48 ≤ b.toNat ∧ b.toNat ≤ 57 then some (b.toNat - 48) else none

/-- Digit loop of the decimal parsers: accumulates from the left, fails on a non-digit. -/
def parseDigits : GoStr → Nat → Option Nat
  | [], acc => some acc
  | b :: bs, acc =>
    match digitVal b with
    | some d => parseDigits bs (acc * 10 + d)
    | none => none

/-- A non-empty sequence of digits. -/
def parseNat : GoStr → Option Nat
  | [] => none
  | b :: bs => parseDigits (b :: bs) 0

/-- Optional sign and a non-empty sequence of digits: the syntax accepted by
`big.Int.SetString(_, 10)` and by `strconv.Atoi`. -/
def parseInt : GoStr → Option Int
  | [] => none
  | b :: bs =>
    if b = 45 then (parseNat bs).map fun n => -(n : Int)
    else if b = 43 then (parseNat bs).map fun n => (n : Int)
    else (parseNat (b :: bs)).map fun n => (n : Int)

end Dec
end Gost
