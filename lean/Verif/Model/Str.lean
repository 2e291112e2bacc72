import Verif.Model.Utf8
import Verif.Model.Vec
/-
Model of /repo/string.go, of the ToString methods of to_string.go, and of Format in /repo/io.go.

A `Char` (rune) is a 32-bit word; Go treats it as `uint32(r)` when encoding, so `toNat` is used there.
The functions of package strings called by string.go are external code; the definitions in `namespace Strings`
are the contract assumed for them.
-/
namespace Gost

/-- primitive.go:31 `type Char rune`. -/
abbrev Rune := BitVec 32

/-- The rune of a decoded value. -/
def rune (n : Nat) : Rune := BitVec.ofNat 32 n

namespace Strings
/-- `strings.Index`, `none` for -1. -/
def indexOf (s sub : GoStr) : Option Nat :=
  if sub.isPrefixOf s then some 0
  else match s with
    | [] => none
    | _ :: t => (indexOf t sub).map (· + 1)

/-- `strings.Split` with a non-empty separator, at most `fuel` pieces. -/
def splitLoop (sep : GoStr) : Nat → GoStr → List GoStr
  | 0, s => [s]
  | fuel + 1, s =>
    match indexOf s sep with
    | none => [s]
    | some i => s.take i :: splitLoop sep fuel (s.drop (i + sep.length))
/-- `strings.Split` with the empty separator: the UTF-8 sequences. -/
def explode : Nat → GoStr → List GoStr
  | 0, _ => []
  | fuel + 1, s =>
    if s.isEmpty then []
    else s.take (Utf8.decodeRune s).2 :: explode fuel (s.drop (Utf8.decodeRune s).2)
/-- `strings.Split`. -/
def split (s sep : GoStr) : List GoStr :=
  if sep.isEmpty then explode s.length s else splitLoop sep s.length s
/-- `strings.Join`. -/
def join : List GoStr → GoStr → GoStr
  | [], _ => []
  | [a], _ => a
  | a :: b :: as, sep => a ++ sep ++ join (b :: as) sep
/-- The loop of `strings.Replace` with an empty old string: `new` before every UTF-8 sequence. -/
def interleave (new : GoStr) : List GoStr → GoStr
  | [] => new
  | a :: as => new ++ a ++ interleave new as
/-- `strings.Replace(s, old, new, -1)`. -/
def replaceAll (s old new : GoStr) : GoStr :=
  if old.isEmpty then interleave new (explode s.length s)
  else join (splitLoop old s.length s) new
/-- `strings.Repeat` for an `int` count: panics on a negative one (the panic on overflow of the length is not
modelled: there is no memory for such a string). -/
def repeatStr (s : GoStr) (n : Int) : Go GoStr :=
  if n < 0 then .error .explicit else .ok (List.replicate n.toNat s).flatten
end Strings

/-- `strconv.Atoi` (64-bit int): optional sign, digits, and the value must fit. -/
def atoi (s : GoStr) : Option Int :=
  match Dec.parseInt s with
  | some i => if -2 ^ 63 ≤ i ∧ i < 2 ^ 63 then some i else none
  | none => none

namespace Str

/-- string.go:10-12 StringFromUTF8. -/
def fromUTF8 (bytes : Vec UInt8) : GoStr := bytes.data

/-- string.go:19-21, loop of StringFromUTF16: `data[i]` for i = 0, 2, 4, ... -/
def everyOther : List (BitVec 16) → List (BitVec 16)
  | [] => []
  | [u] => [u]
  | u :: _ :: us => u :: everyOther us
/-- string.go:15-26 StringFromUTF16. -/
def fromUTF16 {ε : Type} (bytes : Vec (BitVec 16)) : Res ε GoStr :=
  let convertedData := everyOther bytes.data
  let decoded := Utf8.decode16 convertedData
  Res.mkOk (Utf8.encode decoded)

/-- string.go:33-35, loop of IntoBytes. -/
def pushAll {α : Type} (g : Growth) (v : Vec α) (l : List α) : Vec α := l.foldl (fun v a => v.push g a) v
/-- string.go:30-38 IntoBytes. -/
def intoBytes (g : Growth) (self : GoStr) : Vec UInt8 := pushAll g Vec.new self

/-- string.go:42-44 Len. -/
def len (self : GoStr) : Nat := usize self.length
/-- string.go:47-49 IsEmpty. -/
def isEmpty (self : GoStr) : Bool := self.length == 0

/-- string.go:52-55 Push: the new string, which is also the result. -/
def push (self : GoStr) (c : Rune) : GoStr := self ++ Utf8.encodeRune c.toNat
/-- string.go:59-70 Pop: the new string and the result. -/
def pop (self : GoStr) : Go (GoStr × Opt Rune) :=
  if isEmpty self then .ok (self, Opt.none)
  else
    let runes := Utf8.runes self
    if runes.length = 0 then .error .indexOutOfRange
    else do
      let last ← index runes (runes.length - 1)
      .ok (Utf8.encode (runes.take (runes.length - 1)), Opt.some (rune last))
/-- string.go:73-81 Chars. -/
def chars (g : Growth) (self : GoStr) : Vec Rune := pushAll g Vec.new ((Utf8.runes self).map rune)

/-- string.go:86-88 Contains (`strings.Contains` is `Index >= 0`). -/
def contains (self str : GoStr) : Bool := (Strings.indexOf self str).isSome
/-- string.go:93-101 Find. -/
def find (self str : GoStr) : Opt Nat :=
  match Strings.indexOf self str with
  | none => Opt.none
  | some index => Opt.some (usize index)
/-- string.go:104-112 Split. -/
def split (g : Growth) (self str : GoStr) : Vec GoStr := pushAll g Vec.new (Strings.split self str)
/-- string.go:155-157 Replace. -/
def replace (self old new : GoStr) : GoStr := Strings.replaceAll self old new
/-- string.go:170-172 Repeat; `int(n)` is the 64-bit word as a signed number. -/
def repeat_ (self : GoStr) (n : BitVec 64) : Go GoStr := Strings.repeatStr self n.toInt

/-- string.go:121-129 ParseI64. -/
def parseI64 (self : GoStr) : Res Unit (BitVec 64) :=
  match atoi self with
  | none => Res.mkErr (some ())
  | some parsed => Res.mkOk (BitVec.ofInt 64 parsed)
/-- string.go:132-140 ParseU64. -/
def parseU64 (self : GoStr) : Res Unit (BitVec 64) :=
  match atoi self with
  | none => Res.mkErr (some ())
  | some parsed => Res.mkOk (BitVec.ofInt 64 parsed)
end Str

/-- to_string.go:24-42 ToString of ISize, I8, I16, I32, I64 and 128-130 of Char (the signed types): `int(self)`
extends the sign. -/
def signedToString {w : Nat} (self : BitVec w) : GoStr := Dec.formatInt self.toInt
/-- to_string.go:77-87 ToString of U8, U16, U32 and 124-126 of Byte: `int(self)` is the value. -/
def smallToString {w : Nat} (self : BitVec w) : GoStr := Dec.formatInt self.toNat
/-- to_string.go:73-75 USize.ToString: `int(self)` reinterprets the word. -/
def usizeToString (self : BitVec 64) : GoStr := Dec.formatInt self.toInt
/-- to_string.go:136-138 Bool.ToString (`strconv.FormatBool`). -/
def boolToString (self : Bool) : GoStr :=
  if self then [116, 114, 117, 101] else [102, 97, 108, 115, 101]

namespace Fmt
variable {σ : Type}

/-- A parameter of Format: its Display method, if it has one.  Display may have effects and panic. -/
abbrev Param (σ : Type) := Option (Eff σ GoStr)

/-- io.go:20-25, loop: the runes of the format (at most `fuel`). -/
def toRunes : Nat → GoStr → List Nat
  | 0, _ => []
  | fuel + 1, format =>
    if format.length > 0 then
      let (r, size) := Utf8.decodeRune format
      r :: toRunes fuel (format.drop size)
    else []

/-- The variables of the second loop: paramsIndex, buffer, inLeftCurlyBrackets, inRightCurlyBrackets. -/
structure State where
  paramsIndex : Nat
  buffer : GoStr
  inLeft : Bool
  inRight : Bool

/-- io.go:33-65, loop of Format. -/
def loop (params : List (Param σ)) : List Nat → State → Eff σ GoStr
  | [], st => pure st.buffer
  | r :: rs, st =>
    if r = 123 then
      if st.inLeft then loop params rs { st with buffer := st.buffer ++ [123], inLeft := false }
      else loop params rs { st with inLeft := true }
    else if r = 125 then
      if st.inRight then loop params rs { st with buffer := st.buffer ++ [125], inRight := false }
      else if st.inLeft then do
        let param ← Eff.lift (index params st.paramsIndex)
        match param with
        | none => Eff.panic .nilDeref
        | some display => do
          let d ← display
          loop params rs { st with buffer := st.buffer ++ d, paramsIndex := st.paramsIndex + 1, inLeft := false }
      else loop params rs { st with inRight := true }
    else loop params rs { st with buffer := st.buffer ++ Utf8.encodeRune r }

/-- io.go:18-69 Format. -/
def format (format : GoStr) (params : List (Param σ)) : Eff σ GoStr :=
  loop params (toRunes format.length format) ⟨0, [], false, false⟩
end Fmt
end Gost
