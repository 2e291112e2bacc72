import Verif.Model.Str
import Verif.Model.Int128
import Verif.Lemmas.Utf8
import Verif.Lemmas.Decimal
import Verif.Lemmas.Int128
import Verif.Spec.List
/-
Properties C78 (Push, Pop, Chars), C79 (ToString, Parse), C80 (StringFromUTF16) and C101 (Char.ToString).
-/
namespace Gost
open Spec Utf8

/-! ### C78 -/

/-- The rune of a character. -/
abbrev Spec.runeOf (c : Char) : Rune := BitVec.ofNat 32 c.toNat

theorem runeOf_toNat (c : Char) : (runeOf c).toNat = c.toNat := by
  have := char_range c
  simp only [BitVec.toNat_ofNat]
  omega

theorem rune_inj {a b : Char} (h : runeOf a = runeOf b) : a = b := by
  have := congrArg BitVec.toNat h
  rw [runeOf_toNat, runeOf_toNat] at this
  exact Char.toNat_inj.1 this

theorem Str.pushAll_data {α : Type} (g : Growth) (l : List α) (v : Vec α) :
    (Str.pushAll g v l).data = v.data ++ l := by
  induction l generalizing v with
  | nil => simp [Str.pushAll]
  | cons a l ih =>
    have : Str.pushAll g v (a :: l) = Str.pushAll g (v.push g a) l := rfl
    rw [this, ih]
    simp [Vec.push, Vec.goAppend]

theorem push_any (s : GoStr) (c : Char) : Str.push s (runeOf c) = s ++ String.utf8EncodeChar c := by
  rw [Str.push, runeOf_toNat, encodeRune_char]

theorem pop_any (s : GoStr) (cs : List Char) (c : Char) (h : runes s = (cs ++ [c]).map Char.toNat) :
    Str.pop s = .ok (utf8 cs, Opt.some (runeOf c)) := by
  have hne : s ≠ [] := by rintro rfl; rw [runes_nil] at h; simp at h
  have he : Str.isEmpty s = false := by
    cases s with
    | nil => exact absurd rfl hne
    | cons => rfl
  have hl : (runes s).length = cs.length + 1 := by rw [h]; simp
  unfold Str.pop
  rw [he, if_neg (by decide)]
  simp only
  rw [if_neg (by omega), hl, h]
  have hi : index (List.map Char.toNat (cs ++ [c])) (cs.length + 1 - 1) = .ok c.toNat := by
    rw [index_lt (by simp)]
    simp
  rw [hi]
  have ht : (List.map Char.toNat (cs ++ [c])).take (cs.length + 1 - 1) = cs.map Char.toNat := by
    simp
  rw [ht]
  simp only [Go.bind_ok, encode_chars]
  rfl

/-- The operations of C78. -/
inductive StrOp where
  | push (c : Char) | pop | chars | intoBytes | isEmpty

/-- What an operation returns, with characters or runes `χ`. -/
inductive StrObs (χ : Type) where
  | bytes (s : GoStr) | char (c : Option χ) | chars (cs : List χ) | bool (b : Bool)
  deriving DecidableEq

/-- What the operations do on a text. -/
def Spec.textStep : StrOp → List Char → List Char × StrObs Char
  | .push c, cs => (cs ++ [c], .bytes (utf8 (cs ++ [c])))
  | .pop, cs => (cs.dropLast, .char cs.getLast?)
  | .chars, cs => (cs, .chars cs)
  | .intoBytes, cs => (cs, .bytes (utf8 cs))
  | .isEmpty, cs => (cs, .bool cs.isEmpty)

/-- The library's operations. -/
def Str.step (g : Growth) : StrOp → GoStr → Go (GoStr × StrObs Rune)
  | .push c, s => .ok (Str.push s (runeOf c), .bytes (Str.push s (runeOf c)))
  | .pop, s => do
    let (s, r) ← Str.pop s
    .ok (s, .char r.value)
  | .chars, s => .ok (s, .chars (Str.chars g s).data)
  | .intoBytes, s => .ok (s, .bytes (Str.intoBytes g s).data)
  | .isEmpty, s => .ok (s, .bool (Str.isEmpty s))

/-- Characters as runes, in an observation. -/
def Spec.asRunes : StrObs Char → StrObs Rune
  | .bytes s => .bytes s
  | .char c => .char (c.map runeOf)
  | .chars cs => .chars (cs.map runeOf)
  | .bool b => .bool b

/-- A history of a text and its results. -/
def Spec.runText : List StrOp → List Char → List (StrObs Char) × List Char
  | [], cs => ([], cs)
  | o :: os, cs =>
    let r := textStep o cs
    let rest := runText os r.1
    (r.2 :: rest.1, rest.2)
/-- A history of a String and its results. -/
def Str.run (g : Growth) : List StrOp → GoStr → Go (List (StrObs Rune) × GoStr)
  | [], s => .ok ([], s)
  | o :: os, s => do
    let (s, r) ← Str.step g o s
    let (rs, s) ← Str.run g os s
    .ok (r :: rs, s)

theorem utf8_isEmpty (cs : List Char) : Str.isEmpty (utf8 cs) = cs.isEmpty := by
  cases cs with
  | nil => rfl
  | cons c cs =>
    have : utf8 (c :: cs) ≠ [] := by simp [utf8, String.utf8EncodeChar_ne_nil]
    cases h : utf8 (c :: cs) with
    | nil => exact absurd h this
    | cons => rfl

theorem chars_text (g : Growth) (cs : List Char) : (Str.chars g (utf8 cs)).data = cs.map runeOf := by
  rw [Str.chars, Str.pushAll_data, runes_utf8, List.map_map]
  rfl

theorem pop_text (cs : List Char) :
    Str.pop (utf8 cs) = .ok (utf8 cs.dropLast, ⟨cs.getLast?.map runeOf⟩) := by
  by_cases h : cs = []
  · subst h; rfl
  · have e := List.dropLast_concat_getLast h
    have := pop_any (utf8 cs) cs.dropLast (cs.getLast h) (by rw [runes_utf8, e])
    rw [this, List.getLast?_eq_some_getLast h]
    rfl

/-- C78: every history of Push, Pop, Chars, IntoBytes and IsEmpty on a String that holds a text (of any
characters, one to four bytes long) gives exactly the results and the text of the list of characters: Pop
returns the last character pushed and takes it away, Chars gives all in order. -/
theorem C78_string_history (g : Growth) (ops : List StrOp) (cs : List Char) :
    Str.run g ops (utf8 cs) =
      .ok ((runText ops cs).1.map asRunes, utf8 (runText ops cs).2) := by
  induction ops generalizing cs with
  | nil => rfl
  | cons o ops ih =>
    have hs : Str.step g o (utf8 cs) = .ok (utf8 (textStep o cs).1, asRunes (textStep o cs).2) := by
      cases o with
      | push c =>
        have : Str.push (utf8 cs) (runeOf c) = utf8 (cs ++ [c]) := by
          rw [push_any, utf8_append, utf8_singleton]
        simp only [Str.step, this, textStep, asRunes]
      | pop =>
        simp only [Str.step, pop_text, Go.bind_ok, textStep, asRunes]
      | chars => simp only [Str.step, chars_text, textStep, asRunes]
      | intoBytes => simp only [Str.step, Str.intoBytes, Str.pushAll_data, textStep, asRunes]; rfl
      | isEmpty => simp only [Str.step, utf8_isEmpty, textStep, asRunes]
    simp only [Str.run, hs, Go.bind_ok, ih, runText]
    rfl

/-- C78: StringFromUTF8 and IntoBytes are inverse, for arbitrary bytes, and Len is their number. -/
theorem C78_bytes_roundtrip (g : Growth) (s : GoStr) (v : Vec UInt8) :
    Str.fromUTF8 (Str.intoBytes g s) = s ∧ (Str.intoBytes g (Str.fromUTF8 v)).data = v.data ∧
    (s.length < 2 ^ 64 → Str.len s = s.length) := by
  refine ⟨?_, ?_, ?_⟩
  · simp only [Str.fromUTF8, Str.intoBytes, Str.pushAll_data]; rfl
  · simp only [Str.fromUTF8, Str.intoBytes, Str.pushAll_data]; rfl
  · intro h; unfold Str.len usize; omega

/-- C78, in part: for arbitrary bytes, Pop after Push returns the pushed character; the string is restored
iff it is valid UTF-8.  Missing: invalid strings (Pop replaces every invalid byte by U+FFFD) and runes that are
not characters (`C78_push_invalid_fails`). -/
theorem C78_push_pop_partial (s : GoStr) (c : Char) :
    ∃ s', Str.pop (Str.push s (runeOf c)) = .ok (s', Opt.some (runeOf c)) ∧ (s' = s ↔ ∃ cs, s = utf8 cs) := by
  obtain ⟨cs, hcs⟩ := runes_chars s
  refine ⟨utf8 cs, ?_, ?_⟩
  · rw [push_any]
    apply pop_any
    have hn : ¬ Continues (String.utf8EncodeChar c) := by
      have := not_continues_char c []
      rwa [List.append_nil] at this
    rw [runes_append _ _ hn, hcs, ← utf8_singleton, runes_utf8]
    simp
  · constructor
    · intro h; exact ⟨cs, h.symm⟩
    · rintro ⟨cs', rfl⟩
      rw [runes_utf8] at hcs
      rw [toNat_inj hcs]

/-- C78 fails: Pop on a string that is not valid UTF-8 changes the part that stays. -/
theorem C78_push_pop_fails (s : GoStr) (c : Char) (hs : ∀ cs, s ≠ utf8 cs) :
    ∃ s', Str.pop (Str.push s (runeOf c)) = .ok (s', Opt.some (runeOf c)) ∧ s' ≠ s := by
  obtain ⟨s', e, h⟩ := C78_push_pop_partial s c
  exact ⟨s', e, fun h' => by obtain ⟨cs, hcs⟩ := h.1 h'; exact hs cs hcs⟩

/-- C78 fails: Push of a rune that is not a Unicode character (negative, too large or a surrogate) and Pop
give U+FFFD, not the pushed rune. -/
theorem C78_push_invalid_fails (cs : List Char) (r : Rune) (hr : ∀ c : Char, r ≠ runeOf c) :
    ∃ r', Str.pop (Str.push (utf8 cs) r) = .ok (utf8 cs, Opt.some r') ∧ r' = 0xFFFD#32 ∧ r' ≠ r := by
  have hbad : 0x10FFFF < r.toNat ∨ (0xD800 ≤ r.toNat ∧ r.toNat ≤ 0xDFFF) := by
    false_or_by_contra
    rename_i hn
    have hv : r.toNat.isValidChar := by
      simp only [Nat.isValidChar]; omega
    apply hr (Char.ofNat r.toNat)
    apply BitVec.eq_of_toNat_eq
    rw [runeOf_toNat]
    simp [Char.ofNat, hv, Char.ofNatAux, Char.toNat]
  have henc : encodeRune r.toNat = String.utf8EncodeChar '�' := by
    unfold encodeRune
    rw [if_neg (by omega), if_neg (by omega), if_pos hbad]
    decide
  refine ⟨0xFFFD#32, ?_, rfl, ?_⟩
  · have : Str.push (utf8 cs) r = utf8 (cs ++ ['�']) := by
      rw [Str.push, henc, utf8_append, utf8_singleton]
    rw [this, pop_text]
    simp only [List.dropLast_concat, List.getLast?_concat]
    rfl
  · intro h; subst h; exact hr '�' rfl

-- "aé€😀"; bytes of length 1, 2, 3 and 4
example : utf8 ['a', 'é', '€', '😀'] =
    [0x61, 0xC3, 0xA9, 0xE2, 0x82, 0xAC, 0xF0, 0x9F, 0x98, 0x80] := by decide
example : Str.run ⟨fun c n => max (2 * c) n, fun _ _ => by omega⟩ [.push '😀', .pop, .pop, .chars] (utf8 ['a', '€']) =
  .ok ([.bytes [0x61, 0xE2, 0x82, 0xAC, 0xF0, 0x9F, 0x98, 0x80], .char (some 0x1F600#32),
    .char (some 0x20AC#32), .chars [0x61#32]], [0x61]) := by decide
example : Str.pop (Str.push [0xFF] (runeOf 'a')) = .ok ([0xEF, 0xBF, 0xBD], Opt.some 0x61#32) := by decide
example : ∀ cs, ([0xFF] : GoStr) ≠ utf8 cs := by
  intro cs h
  have h1 := runes_utf8 cs
  rw [← h] at h1
  have : (['�'] : List Char).map Char.toNat = cs.map Char.toNat := by rw [← h1]; decide
  rw [← toNat_inj this] at h
  revert h; decide
example : ∀ c : Char, (0xD800#32 : Rune) ≠ runeOf c := by
  intro c h
  have := congrArg BitVec.toNat h
  rw [runeOf_toNat] at this
  have h2 := char_range c
  have h3 : (0xD800#32 : Rune).toNat = 0xD800 := rfl
  omega

/-! ### C79 -/

/-- `s` is a numeral of `i` as Parse functions read it: an optional sign and at least one digit, leading zeros
allowed. -/
def Spec.ReadsAs (s : GoStr) (i : Int) : Prop :=
  ∃ t, t ≠ [] ∧ (∀ b ∈ t, 48 ≤ b.toNat ∧ b.toNat ≤ 57) ∧
    ((s = t ∧ i = numeralValue t) ∨ (s = 43 :: t ∧ i = numeralValue t) ∨ (s = 45 :: t ∧ i = -(numeralValue t : Int)))

theorem parseDigits_some {s : GoStr} {acc n : Nat} (h : Dec.parseDigits s acc = some n) :
    ∀ b ∈ s, 48 ≤ b.toNat ∧ b.toNat ≤ 57 := by
  induction s generalizing acc with
  | nil => simp
  | cons b s ih =>
    simp only [Dec.parseDigits, Dec.digitVal] at h
    by_cases hb : 48 ≤ b.toNat ∧ b.toNat ≤ 57
    · rw [if_pos hb] at h
      intro c hc
      rcases List.mem_cons.1 hc with rfl | hc
      · exact hb
      · exact ih h c hc
    · rw [if_neg hb] at h; cases h

theorem parseNat_iff (s : GoStr) (n : Nat) :
    Dec.parseNat s = some n ↔ s ≠ [] ∧ (∀ b ∈ s, 48 ≤ b.toNat ∧ b.toNat ≤ 57) ∧ n = numeralValue s := by
  cases s with
  | nil => simp [Dec.parseNat]
  | cons b s =>
    simp only [Dec.parseNat]
    constructor
    · intro h
      have hd := parseDigits_some h
      rw [Dec.parseDigits_of_digits _ hd] at h
      cases h
      exact ⟨by simp, hd, rfl⟩
    · rintro ⟨_, hd, rfl⟩
      rw [Dec.parseDigits_of_digits _ hd]; rfl

theorem map_neg_iff (o : Option Nat) (i : Int) :
    ((do let a ← o; pure (a : Int)) : Option Int).map (fun n => -n) = some i ↔ ∃ n, o = some n ∧ -(n : Int) = i := by
  cases o with
  | none => simp
  | some n => simp

theorem map_pos_iff (o : Option Nat) (i : Int) :
    ((do let a ← o; pure (a : Int)) : Option Int).map (fun n => n) = some i ↔ ∃ n, o = some n ∧ (n : Int) = i := by
  cases o with
  | none => simp
  | some n => simp

theorem parseInt_iff (s : GoStr) (i : Int) : Dec.parseInt s = some i ↔ ReadsAs s i := by
  cases s with
  | nil =>
    simp only [Dec.parseInt, reduceCtorEq, false_iff]
    rintro ⟨t, ht, _, ⟨h, _⟩ | ⟨h, _⟩ | ⟨h, _⟩⟩
    · exact ht h.symm
    · cases h
    · cases h
  | cons b s =>
    simp only [Dec.parseInt]
    by_cases h1 : b = 45
    · subst h1
      rw [if_pos rfl]
      simp only [map_neg_iff, parseNat_iff]
      constructor
      · rintro ⟨n, ⟨a, d, rfl⟩, rfl⟩
        exact ⟨s, a, d, .inr (.inr ⟨rfl, rfl⟩)⟩
      · rintro ⟨t, a, d, ⟨e, hi⟩ | ⟨e, hi⟩ | ⟨e, hi⟩⟩
        · subst e
          have := d 45 (by simp)
          exact absurd this (by decide)
        · cases e
        · cases e; exact ⟨_, ⟨a, d, rfl⟩, hi.symm⟩
    · rw [if_neg h1]
      by_cases h2 : b = 43
      · subst h2
        rw [if_pos rfl]
        simp only [map_pos_iff, parseNat_iff]
        constructor
        · rintro ⟨n, ⟨a, d, rfl⟩, rfl⟩
          exact ⟨s, a, d, .inr (.inl ⟨rfl, rfl⟩)⟩
        · rintro ⟨t, a, d, ⟨e, hi⟩ | ⟨e, hi⟩ | ⟨e, hi⟩⟩
          · subst e
            have := d 43 (by simp)
            exact absurd this (by decide)
          · cases e; exact ⟨_, ⟨a, d, rfl⟩, hi.symm⟩
          · cases e
      · rw [if_neg h2]
        simp only [map_pos_iff, parseNat_iff]
        constructor
        · rintro ⟨n, ⟨a, d, rfl⟩, rfl⟩
          exact ⟨b :: s, a, d, .inl ⟨rfl, rfl⟩⟩
        · rintro ⟨t, a, d, ⟨e, hi⟩ | ⟨e, hi⟩ | ⟨e, hi⟩⟩
          · subst e; exact ⟨_, ⟨a, d, rfl⟩, hi.symm⟩
          · cases e; exact absurd rfl h2
          · cases e; exact absurd rfl h1

theorem Spec.ReadsAs.unique {s : GoStr} {i j : Int} (hi : ReadsAs s i) (hj : ReadsAs s j) : i = j := by
  have h1 := (parseInt_iff s i).2 hi
  have h2 := (parseInt_iff s j).2 hj
  rw [h1] at h2
  exact Option.some.inj h2

theorem denotes_numeral {s : GoStr} {i : Int} (h : IsSignedNumeral s i) : ReadsAs s i :=
  (parseInt_iff s i).1 (Dec.parseInt_numeral h)

theorem atoi_iff (s : GoStr) (i : Int) : atoi s = some i ↔ ReadsAs s i ∧ -2 ^ 63 ≤ i ∧ i < 2 ^ 63 := by
  unfold atoi
  cases h : Dec.parseInt s with
  | none =>
    simp only [reduceCtorEq, false_iff]
    rintro ⟨h', _⟩
    rw [← parseInt_iff, h] at h'
    cases h'
  | some j =>
    have hj := (parseInt_iff s j).1 h
    simp only
    by_cases hr : -2 ^ 63 ≤ j ∧ j < 2 ^ 63
    · rw [if_pos hr]
      constructor
      · intro e; cases e; exact ⟨hj, hr⟩
      · rintro ⟨hd, _⟩; rw [hd.unique hj]
    · rw [if_neg hr]
      simp only [reduceCtorEq, false_iff]
      rintro ⟨hd, h2⟩
      rw [hd.unique hj] at h2
      exact hr h2

/-- C79: ToString of ISize, I8 .. I64 (and Char) is the signed decimal numeral. -/
theorem C79_signed_toString {w : Nat} (x : BitVec w) : IsSignedNumeral (signedToString x) x.toInt :=
  Dec.formatInt_isSignedNumeral _

/-- C79: ToString of U8, U16, U32, Byte and U64 is the decimal numeral, that of a bool its name. -/
theorem C79_unsigned_toString {w : Nat} (x : BitVec w) (y : BitVec 64) :
    IsNumeral (smallToString x) x.toNat ∧ IsNumeral (u64ToString y) y.toNat ∧
    boolToString true = utf8 ['t', 'r', 'u', 'e'] ∧ boolToString false = utf8 ['f', 'a', 'l', 's', 'e'] := by
  refine ⟨?_, Dec.formatNat_isNumeral _, by decide, by decide⟩
  rw [smallToString, Dec.formatInt, if_neg (by omega)]
  exact Dec.formatNat_isNumeral _

/-- C79, in part: USize.ToString is the numeral iff the value is below 2^63.  Missing: larger values, which
come out as negative numbers. -/
theorem C79_usize_toString_partial (x : BitVec 64) : IsNumeral (usizeToString x) x.toNat ↔ x.toNat < 2 ^ 63 := by
  have hi : x.toInt = if x.toNat < 2 ^ 63 then (x.toNat : Int) else (x.toNat : Int) - 2 ^ 64 := by
    rw [BitVec.toInt_eq_toNat_cond]
    by_cases h : 2 * x.toNat < 2 ^ 64
    · rw [if_pos h, if_pos (by omega)]
    · rw [if_neg h, if_neg (by omega)]; rfl
  have hlt := x.isLt
  rw [usizeToString, Dec.formatInt, hi]
  by_cases h : x.toNat < 2 ^ 63
  · rw [if_pos h, if_neg (by omega)]
    simp only [h, iff_true]
    exact Dec.formatNat_isNumeral _
  · rw [if_neg h, if_pos (by omega)]
    simp only [h, iff_false]
    rintro ⟨_, hd, _⟩
    have := hd 45 (by simp)
    revert this; decide

/-- C79 fails: a USize of 2^63 or more is printed as a negative number. -/
theorem C79_usize_toString_fails (x : BitVec 64) (h : 2 ^ 63 ≤ x.toNat) :
    IsSignedNumeral (usizeToString x) ((x.toNat : Int) - 2 ^ 64) := by
  have hi : x.toInt = (x.toNat : Int) - 2 ^ 64 := by
    rw [BitVec.toInt_eq_toNat_cond, if_neg (by omega)]; rfl
  rw [usizeToString, hi]
  exact Dec.formatInt_isSignedNumeral _

theorem ofInt_toInt64 {i : Int} (h1 : -2 ^ 63 ≤ i) (h2 : i < 2 ^ 63) : (BitVec.ofInt 64 i).toInt = i := by
  rw [BitVec.toInt_ofInt]
  simp only [Int.bmod]
  omega

/-- C79: ParseI64 returns Ok(v) iff the string is a numeral (optional sign, digits) of v, and Err otherwise;
in particular it inverts ToString. -/
theorem C79_parseI64 (s : GoStr) :
    (∀ v, Str.parseI64 s = Res.mkOk v ↔ ReadsAs s v.toInt) ∧
    ((∀ v : BitVec 64, ¬ ReadsAs s v.toInt) → Str.parseI64 s = Res.mkErr (some ())) ∧
    (∀ v : BitVec 64, Str.parseI64 (signedToString v) = Res.mkOk v) := by
  have key : ∀ s v, Str.parseI64 s = Res.mkOk v ↔ ReadsAs s v.toInt := by
    intro s v
    have hv1 : -2 ^ 63 ≤ v.toInt := BitVec.le_toInt v
    have hv2 : v.toInt < 2 ^ 63 := BitVec.toInt_lt
    unfold Str.parseI64
    cases h : atoi s with
    | none =>
      constructor
      · intro e; cases e
      · intro e
        rw [(atoi_iff s _).2 ⟨e, hv1, hv2⟩] at h; cases h
    | some i =>
      obtain ⟨hd, h1, h2⟩ := (atoi_iff s i).1 h
      constructor
      · intro e
        cases e
        rw [ofInt_toInt64 h1 h2]; exact hd
      · intro e
        rw [hd.unique e]
        simp only [BitVec.ofInt_toInt]
  refine ⟨key s, ?_, fun v => (key _ v).2 (denotes_numeral (C79_signed_toString v))⟩
  intro hn
  unfold Str.parseI64
  cases h : atoi s with
  | none => rfl
  | some i =>
    obtain ⟨hd, h1, h2⟩ := (atoi_iff s i).1 h
    exact absurd (by rw [ofInt_toInt64 h1 h2]; exact hd) (hn (BitVec.ofInt 64 i))

/-- C79, in part: ParseU64 of a numeral of n (in particular of what ToString gives) returns n iff n < 2^63, and
Err for every string that is no numeral.  Missing: numerals from 2^63 to 2^64-1, which are rejected, and
negative ones, which are accepted (`C79_parseU64_fails`). -/
theorem C79_parseU64_partial (s : GoStr) :
    (∀ v : BitVec 64, ReadsAs s v.toNat → (Str.parseU64 s = Res.mkOk v ↔ v.toNat < 2 ^ 63)) ∧
    ((∀ i, ¬ ReadsAs s i) → Str.parseU64 s = Res.mkErr (some ())) ∧
    (∀ v : BitVec 64, Str.parseU64 (u64ToString v) = Res.mkOk v ↔ v.toNat < 2 ^ 63) := by
  have key : ∀ s, ∀ v : BitVec 64, ReadsAs s v.toNat → (Str.parseU64 s = Res.mkOk v ↔ v.toNat < 2 ^ 63) := by
    intro s v hd
    unfold Str.parseU64
    cases h : atoi s with
    | none =>
      constructor
      · intro e; cases e
      · intro e
        rw [(atoi_iff s v.toNat).2 ⟨hd, by omega, by omega⟩] at h; cases h
    | some i =>
      obtain ⟨hd', h1, h2⟩ := (atoi_iff s i).1 h
      rw [hd'.unique hd] at h2 ⊢
      simp only [BitVec.ofInt_natCast, BitVec.ofNat_toNat, BitVec.setWidth_eq, true_iff]
      omega
  refine ⟨key s, ?_, fun v => key _ v (denotes_numeral (.inl ⟨by omega, Dec.formatNat_isNumeral _⟩))⟩
  intro hn
  unfold Str.parseU64
  cases h : atoi s with
  | none => rfl
  | some i => exact absurd ((atoi_iff s i).1 h).1 (hn i)

/-- C79 fails: ParseU64 rejects every numeral of 2^63 or more, and accepts the negative ones down to -2^63 (as
2^64 + i). -/
theorem C79_parseU64_fails (s : GoStr) (i : Int) (hd : ReadsAs s i) :
    (2 ^ 63 ≤ i → Str.parseU64 s = Res.mkErr (some ())) ∧
    (-2 ^ 63 ≤ i → i < 0 → ∃ v, Str.parseU64 s = Res.mkOk v ∧ (v.toNat : Int) = 2 ^ 64 + i) := by
  unfold Str.parseU64
  constructor
  · intro h
    cases ha : atoi s with
    | none => rfl
    | some j =>
      obtain ⟨hd', _, h2⟩ := (atoi_iff s j).1 ha
      rw [hd'.unique hd] at h2
      omega
  · intro h1 h2
    rw [(atoi_iff s i).2 ⟨hd, h1, by omega⟩]
    refine ⟨_, rfl, ?_⟩
    rw [BitVec.toNat_ofInt]
    omega

example : ReadsAs [43, 48, 55] 7 := ⟨[48, 55], by decide, by decide, .inr (.inl ⟨rfl, by decide⟩)⟩
example : ReadsAs [45, 49] (-1) := ⟨[49], by decide, by decide, .inr (.inr ⟨rfl, by decide⟩)⟩
example : Str.parseU64 [45, 49] = Res.mkOk (BitVec.ofNat 64 (2 ^ 64 - 1)) := by decide
example : Str.parseI64 [45, 49, 50] = Res.mkOk (BitVec.ofInt 64 (-12)) ∧
  Str.parseI64 [49, 97] = Res.mkErr (some ()) ∧ Str.parseI64 [45] = Res.mkErr (some ()) := by decide
example : Str.parseU64 ("9223372036854775808".toUTF8.toList) = Res.mkErr (some ()) := by decide +kernel

/-! ### C80 -/

/-- The number of code units of a decoded rune. -/
def unitsOf (n : Nat) : Nat := if n < 0x10000 then 1 else 2

theorem decode16_units (us : List (BitVec 16)) : ((decode16 us).map unitsOf).sum = us.length := by
  have e1 : unitsOf runeError = 1 := by decide
  have small : ∀ u : BitVec 16, unitsOf u.toNat = 1 := by
    intro u; unfold unitsOf; rw [if_pos u.isLt]
  fun_induction decode16 us with
  | case1 => rfl
  | case2 u h => simp [small]
  | case3 u h => simp [e1]
  | case4 u v us h ih => simp [small, ih]; omega
  | case5 u v us h h2 ih =>
    have : unitsOf ((u.toNat - 0xD800) * 1024 + (v.toNat - 0xDC00) + 0x10000) = 2 := by
      unfold unitsOf; rw [if_neg (by omega)]
    simp [this, ih]; omega
  | case6 u v us h h2 ih => simp [e1, ih]; omega

theorem utf16_units (cs : List Char) : ((cs.map Char.toNat).map unitsOf).sum = (utf16 cs).length := by
  induction cs with
  | nil => rfl
  | cons c cs ih =>
    have : utf16 (c :: cs) = utf16Char c ++ utf16 cs := rfl
    rw [this, List.length_append, ← ih]
    simp only [List.map_cons, List.sum_cons]
    congr 1
    unfold unitsOf utf16Char
    split <;> rfl

theorem everyOther_length (us : List (BitVec 16)) : (Str.everyOther us).length = (us.length + 1) / 2 := by
  fun_induction Str.everyOther us with
  | case1 => rfl
  | case2 => simp
  | case3 u v us ih => simp only [List.length_cons, ih]; omega

theorem decode16_chars (us : List (BitVec 16)) : ∃ cs : List Char, decode16 us = cs.map Char.toNat := by
  have mk : ∀ n : Nat, (n < 0xD800 ∨ (0xDFFF < n ∧ n < 0x110000)) → ∃ c : Char, n = c.toNat := by
    intro n hn
    refine ⟨Char.ofNat n, ?_⟩
    have : n.isValidChar := hn
    simp [Char.ofNat, this, Char.ofNatAux, Char.toNat]
  have he : ∃ c : Char, runeError = c.toNat := mk _ (by unfold runeError; omega)
  obtain ⟨ce, hce⟩ := he
  fun_induction decode16 us with
  | case1 => exact ⟨[], rfl⟩
  | case2 u h =>
    have := u.isLt
    obtain ⟨c, hc⟩ := mk u.toNat (by omega)
    exact ⟨[c], by simp [hc]⟩
  | case3 u h => exact ⟨[ce], by simp [hce]⟩
  | case4 u v us h ih =>
    have := u.isLt
    obtain ⟨c, hc⟩ := mk u.toNat (by omega)
    obtain ⟨cs, e⟩ := ih
    exact ⟨c :: cs, by simp [hc, e]⟩
  | case5 u v us h h2 ih =>
    obtain ⟨c, hc⟩ := mk ((u.toNat - 0xD800) * 1024 + (v.toNat - 0xDC00) + 0x10000) (by omega)
    obtain ⟨cs, e⟩ := ih
    exact ⟨c :: cs, by simp [hc, e]⟩
  | case6 u v us h h2 ih =>
    obtain ⟨cs, e⟩ := ih
    exact ⟨ce :: cs, by simp [hce, e]⟩

/-- `utf16.Decode` itself decodes the UTF-16 encoding of every text. -/
theorem decode16_utf16 (cs : List Char) : decode16 (utf16 cs) = cs.map Char.toNat := by
  induction cs with
  | nil => rfl
  | cons c cs ih =>
    have hr := char_range c
    have e : utf16 (c :: cs) = utf16Char c ++ utf16 cs := rfl
    rw [e, utf16Char]
    by_cases h : c.toNat < 0x10000
    · rw [if_pos h]
      have hb : (BitVec.ofNat 16 c.toNat).toNat = c.toNat := by simp; omega
      cases hu : utf16 cs with
      | nil =>
        rw [hu] at ih
        simp only [List.append_nil, decode16, hb]
        rw [if_pos (by omega), List.map_cons, ← ih]
        rfl
      | cons v us =>
        simp only [List.cons_append, List.nil_append, decode16, hb]
        rw [if_pos (by omega), List.map_cons, ← ih, hu]
    · rw [if_neg h]
      have h1 : (BitVec.ofNat 16 (0xD800 + (c.toNat - 0x10000) / 1024)).toNat =
          0xD800 + (c.toNat - 0x10000) / 1024 := by rw [BitVec.toNat_ofNat]; omega
      have h2 : (BitVec.ofNat 16 (0xDC00 + (c.toNat - 0x10000) % 1024)).toNat =
          0xDC00 + (c.toNat - 0x10000) % 1024 := by rw [BitVec.toNat_ofNat]; omega
      simp only [List.cons_append, List.nil_append, decode16, h1, h2]
      rw [if_neg (by omega), if_pos (by omega), List.map_cons, ← ih,
        show (0xD800 + (c.toNat - 0x10000) / 1024 - 0xD800) * 1024 +
          (0xDC00 + (c.toNat - 0x10000) % 1024 - 0xDC00) + 0x10000 = c.toNat by omega]

/-- C80, in part: StringFromUTF16 of the UTF-16 encoding of a text gives the text iff the encoding has at most
one code unit.  Missing: all longer texts (only every other code unit is used). -/
theorem C80_utf16_partial {ε : Type} (v : Vec (BitVec 16)) (cs : List Char) (hv : v.data = utf16 cs) :
    (Str.fromUTF16 v : Res ε GoStr) = Res.mkOk (utf8 cs) ↔ (utf16 cs).length ≤ 1 := by
  obtain ⟨ds, hds⟩ := decode16_chars (Str.everyOther v.data)
  have he : (Str.fromUTF16 v : Res ε GoStr) = Res.mkOk (utf8 ds) := by
    simp only [Str.fromUTF16, hds, encode_chars]
  rw [he]
  constructor
  · intro h
    have h1 : utf8 ds = utf8 cs := by
      have := congrArg Res.ok h
      exact Option.some.inj this
    have h2 := decode16_units (Str.everyOther v.data)
    rw [hds, utf8_inj h1, utf16_units, everyOther_length, hv] at h2
    omega
  · intro h
    have hs : Str.everyOther v.data = v.data := by
      rw [hv]
      revert h
      generalize utf16 cs = l
      intro h
      cases l with
      | nil => rfl
      | cons u l =>
        cases l with
        | nil => rfl
        | cons v l => simp at h
    rw [hs, hv, decode16_utf16] at hds
    rw [toNat_inj hds]

/-- C80 fails: every text of two or more UTF-16 code units comes out wrong; and StringFromUTF16 never returns
an error, whatever the data. -/
theorem C80_utf16_fails {ε : Type} (v : Vec (BitVec 16)) :
    (Str.fromUTF16 v : Res ε GoStr).err = none ∧
    ∀ cs, v.data = utf16 cs → 2 ≤ v.data.length →
      ∃ s, (Str.fromUTF16 v : Res ε GoStr) = Res.mkOk s ∧ s ≠ utf8 cs := by
  refine ⟨rfl, fun cs hv hl => ⟨_, rfl, fun h => ?_⟩⟩
  have := (C80_utf16_partial (ε := ε) v cs hv).1 (by rw [← h]; rfl)
  rw [hv] at hl
  omega

example : utf16 ['a', '😀'] = [0x61#16, 0xD83D#16, 0xDE00#16] := by decide
example : (Str.fromUTF16 ⟨utf16 ['a', 'b', 'c'], 3⟩ : Res Unit GoStr) = Res.mkOk [0x61, 0x63] := by decide
example : (utf16 ['€']).length ≤ 1 := by decide

/-! ### C101 -/

/-- C101 fails for every character: ToString (and with it Display and Format) of a Char is the decimal numeral
of its code, never the character. -/
theorem C101_char_toString_fails (c : Char) :
    IsNumeral (signedToString (runeOf c)) c.toNat ∧ signedToString (runeOf c) ≠ utf8 [c] := by
  have hr := char_range c
  have hi : (runeOf c).toInt = c.toNat := by
    rw [BitVec.toInt_eq_toNat_cond, runeOf_toNat, if_pos (by omega)]
  have hn : IsNumeral (signedToString (runeOf c)) c.toNat := by
    rw [signedToString, hi, Dec.formatInt, if_neg (by omega)]
    exact Dec.formatNat_isNumeral _
  refine ⟨hn, fun he => ?_⟩
  obtain ⟨h1, h2, h3, h4⟩ := hn
  rw [he] at h1 h2 h3 h4
  cases hs : utf8 [c] with
  | nil => exact h1 hs
  | cons d t =>
    rw [hs] at h2 h4
    have hd := h2 d (by simp)
    have hdec : decodeRune (d :: t) = (d.toNat, 1) := by
      have : d.toNat < 0x80 := by omega
      cases t <;> simp [decodeRune, this]
    have hr1 := runes_utf8 [c]
    rw [hs, runes_step _ (by simp), hdec] at hr1
    simp only [List.drop_succ_cons, List.drop_zero, List.map_cons, List.map_nil, List.cons.injEq] at hr1
    have ht : t = [] := by
      cases t with
      | nil => rfl
      | cons x t => rw [runes_step _ (by simp)] at hr1; cases hr1.2
    subst ht
    simp only [numeralValue, List.foldl_cons, List.foldl_nil] at h4
    omega

example : signedToString (runeOf 'a') = [57, 55] := by decide +kernel
end Gost
