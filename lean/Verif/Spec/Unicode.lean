import Verif.Model.Decimal
/-
Specification of text: sequences of Unicode scalar values (Lean's `Char`), their UTF-8 encoding (Lean's own
definition) and their UTF-16 encoding (RFC 2781).
-/
namespace Gost.Spec

/-- The UTF-8 encoding of a text. -/
def utf8 (cs : List Char) : GoStr := cs.flatMap String.utf8EncodeChar

/-- The UTF-16 code units of a character. -/
def utf16Char (c : Char) : List (BitVec 16) :=
  if c.toNat < 0x10000 then [BitVec.ofNat 16 c.toNat]
  else [BitVec.ofNat 16 (0xD800 + (c.toNat - 0x10000) / 1024), BitVec.ofNat 16 (0xDC00 + (c.toNat - 0x10000) % 1024)]

/-- The UTF-16 encoding of a text. -/
def utf16 (cs : List Char) : List (BitVec 16) := cs.flatMap utf16Char

end Gost.Spec
