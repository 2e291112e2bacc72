import Verif.Model.Str
/-
Model of Trim, ToLowercase and ToUppercase of /repo/string.go.  The functions of the packages strings, unicode
and unicode/utf8 they call are external code; the definitions in the namespaces `Utf8` and `Strings` are the
contract assumed for them.
-/
namespace Gost

/-- `unicode.IsSpace` (the ranges of the table White_Space). -/
def Utf8.isSpace (r : Nat) : Bool :=
  decide (0x09 ≤ r ∧ r ≤ 0x0D) || r == 0x20 || r == 0x85 || r == 0xA0 || r == 0x1680 ||
    decide (0x2000 ≤ r ∧ r ≤ 0x200A) || r == 0x2028 || r == 0x2029 || r == 0x202F || r == 0x205F || r == 0x3000

/-- The k last bytes. -/
def Utf8.lastBytes (s : GoStr) (k : Nat) : GoStr := s.drop (s.length - k)

/-- `utf8.DecodeLastRuneInString`: the last rune and its size; (U+FFFD, 1) if the bytes at the end are not a
valid encoding, (U+FFFD, 0) for the empty string.  (The standard library looks for the start byte backwards;
a valid encoding that ends the string begins at the first such byte, so trying the lengths is the same.) -/
def Utf8.decodeLastRune (s : GoStr) : Nat × Nat :=
  match s.getLast? with
  | none => (runeError, 0)
  | some b =>
    if b.toNat < 0x80 then (b.toNat, 1)
    else if 2 ≤ s.length ∧ (decodeRune (lastBytes s 2)).2 = 2 then decodeRune (lastBytes s 2)
    else if 3 ≤ s.length ∧ (decodeRune (lastBytes s 3)).2 = 3 then decodeRune (lastBytes s 3)
    else if 4 ≤ s.length ∧ (decodeRune (lastBytes s 4)).2 = 4 then decodeRune (lastBytes s 4)
    else (runeError, 1)

namespace Strings
/-- `strings.TrimLeftFunc(s, unicode.IsSpace)`, at most `fuel` runes. -/
def trimLeft : Nat → GoStr → GoStr
  | 0, s => s
  | fuel + 1, s =>
    if s.isEmpty then s
    else if Utf8.isSpace (Utf8.decodeRune s).1 then trimLeft fuel (s.drop (Utf8.decodeRune s).2)
    else s
/-- `strings.TrimRightFunc(s, unicode.IsSpace)`, at most `fuel` runes. -/
def trimRight : Nat → GoStr → GoStr
  | 0, s => s
  | fuel + 1, s =>
    if s.isEmpty then s
    else if Utf8.isSpace (Utf8.decodeLastRune s).1 then
      trimRight fuel (s.take (s.length - (Utf8.decodeLastRune s).2))
    else s
/-- `strings.TrimSpace` (its fast path for ASCII bytes is left out: those decode to themselves). -/
def trimSpace (s : GoStr) : GoStr :=
  let t := trimLeft s.length s
  trimRight t.length t

/-- `strings.Map(f, s)` for a function f that drops nothing; bytes that are not valid UTF-8 are runes U+FFFD. -/
def mapRunes (f : Char → Char) (s : GoStr) : GoStr :=
  Utf8.encode ((Utf8.runes s).map fun r => (f (Char.ofNat r)).toNat)
end Strings

/-- What is assumed of `unicode.ToLower` and `unicode.ToUpper` (tables of the Unicode standard): characters go to
characters, and in ASCII exactly the letters change.  `strings.ToLower` and `ToUpper` treat ASCII strings
separately, with the same result. -/
structure CaseTable where
  lower : Char → Char
  upper : Char → Char
  lower_ascii : ∀ c : Char, c.toNat < 128 → lower c = c.toLower
  upper_ascii : ∀ c : Char, c.toNat < 128 → upper c = c.toUpper

namespace Str
/-- string.go:114-118 Trim. -/
def trim (self : GoStr) : GoStr := Strings.trimSpace self
/-- string.go:159-162 ToLowercase. -/
def toLowercase (u : CaseTable) (self : GoStr) : GoStr := Strings.mapRunes u.lower self
/-- string.go:164-167 ToUppercase. -/
def toUppercase (u : CaseTable) (self : GoStr) : GoStr := Strings.mapRunes u.upper self
end Str
end Gost
