import Verif.Model.Decimal
/-
UTF-8 and UTF-16 as the Go language (`range` over a string, conversions between strings and runes) and the
standard library (`utf8.DecodeRuneInString`, `utf16.Decode`) define them.  This is external code: the
definitions below are the contract assumed for it (trusted base, DESIGN.md section 3).
-/
namespace Gost
namespace Utf8

/-- `utf8.RuneError`, U+FFFD. -/
def runeError : Nat := 0xFFFD

/-- A byte in the given range. -/
def inRange (lo hi : Nat) (b : UInt8) : Bool := decide (lo ≤ b.toNat ∧ b.toNat ≤ hi)

/-- `utf8.DecodeRuneInString`: the first rune and its size; (U+FFFD, 1) if the bytes are not a valid
encoding, (U+FFFD, 0) for the empty string. -/
def decodeRune : GoStr → Nat × Nat
  | [] => (runeError, 0)
  | b0 :: t =>
    let x := b0.toNat
    if x < 0x80 then (x, 1)
    else if x < 0xC2 then (runeError, 1)
    else if x < 0xE0 then
      match t with
      | b1 :: _ =>
        if inRange 0x80 0xBF b1 then (x % 32 * 64 + b1.toNat % 64, 2) else (runeError, 1)
      | [] => (runeError, 1)
    else if x < 0xF0 then
      match t with
      | b1 :: b2 :: _ =>
        if inRange (if x = 0xE0 then 0xA0 else 0x80) (if x = 0xED then 0x9F else 0xBF) b1 &&
            inRange 0x80 0xBF b2 then
          (x % 16 * 4096 + b1.toNat % 64 * 64 + b2.toNat % 64, 3)
        else (runeError, 1)
      | _ => (runeError, 1)
    else if x < 0xF5 then
      match t with
      | b1 :: b2 :: b3 :: _ =>
        if inRange (if x = 0xF0 then 0x90 else 0x80) (if x = 0xF4 then 0x8F else 0xBF) b1 &&
            inRange 0x80 0xBF b2 && inRange 0x80 0xBF b3 then
          (x % 8 * 262144 + b1.toNat % 64 * 4096 + b2.toNat % 64 * 64 + b3.toNat % 64, 4)
        else (runeError, 1)
      | _ => (runeError, 1)
    else (runeError, 1)

/-- Decode rune after rune, at most `fuel` of them. -/
def runesLoop : Nat → GoStr → List Nat
  | 0, _ => []
  | fuel + 1, s =>
    if s.isEmpty then []
    else (decodeRune s).1 :: runesLoop fuel (s.drop (decodeRune s).2)
/-- `[]rune(s)`, and the runes a `range` over s visits. -/
def runes (s : GoStr) : List Nat := runesLoop s.length s

/-- `string(r)` for a rune r (given as `uint32(r)`): U+FFFD stands for anything that is not a Unicode scalar
value. -/
def encodeRune (r : Nat) : GoStr :=
  if r ≤ 0x7F then [UInt8.ofNat r]
  else if r ≤ 0x7FF then [UInt8.ofNat (0xC0 + r / 64), UInt8.ofNat (0x80 + r % 64)]
  else if 0x10FFFF < r ∨ (0xD800 ≤ r ∧ r ≤ 0xDFFF) then [0xEF, 0xBF, 0xBD]
  else if r ≤ 0xFFFF then
    [UInt8.ofNat (0xE0 + r / 4096), UInt8.ofNat (0x80 + r / 64 % 64), UInt8.ofNat (0x80 + r % 64)]
  else
    [UInt8.ofNat (0xF0 + r / 262144), UInt8.ofNat (0x80 + r / 4096 % 64), UInt8.ofNat (0x80 + r / 64 % 64),
      UInt8.ofNat (0x80 + r % 64)]
/-- `string(rs)` for a slice of runes. -/
def encode (rs : List Nat) : GoStr := rs.flatMap encodeRune

/-- `utf16.Decode`. -/
def decode16 : List (BitVec 16) → List Nat
  | [] => []
  | [u] => if u.toNat < 0xD800 ∨ 0xE000 ≤ u.toNat then [u.toNat] else [runeError]
  | u :: v :: us =>
    if u.toNat < 0xD800 ∨ 0xE000 ≤ u.toNat then u.toNat :: decode16 (v :: us)
    else if u.toNat < 0xDC00 ∧ 0xDC00 ≤ v.toNat ∧ v.toNat < 0xE000 then
      ((u.toNat - 0xD800) * 1024 + (v.toNat - 0xDC00) + 0x10000) :: decode16 us
    else runeError :: decode16 (v :: us)
end Utf8
end Gost
