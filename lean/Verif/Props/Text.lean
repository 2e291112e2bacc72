import Verif.Lemmas.Text
/-
Properties C121 (Trim) and C122 (ToLowercase, ToUppercase).
-/
namespace Gost
open Spec Utf8

/-! ### C121 -/
namespace Spec
/-- The 25 characters with the Unicode property White_Space. -/
def whiteSpace : List Nat :=
  [0x0009, 0x000A, 0x000B, 0x000C, 0x000D, 0x0020, 0x0085, 0x00A0, 0x1680, 0x2000, 0x2001, 0x2002, 0x2003, 0x2004,
   0x2005, 0x2006, 0x2007, 0x2008, 0x2009, 0x200A, 0x2028, 0x2029, 0x202F, 0x205F, 0x3000]
def White (c : Char) : Prop := c.toNat ∈ whiteSpace

/-- t is s without the white space around it. -/
structure Trimmed (s t : GoStr) : Prop where
  split : ∃ a b : List Char, (∀ c ∈ a, White c) ∧ (∀ c ∈ b, White c) ∧ s = utf8 a ++ t ++ utf8 b
  left : ∀ c r, White c → t ≠ utf8 [c] ++ r
  right : ∀ c r, White c → t ≠ r ++ utf8 [c]
end Spec

theorem isSpace_iff (r : Nat) : isSpace r = true ↔ r ∈ whiteSpace := by
  simp only [isSpace, whiteSpace, Bool.or_eq_true, decide_eq_true_eq, beq_iff_eq, List.mem_cons, List.not_mem_nil,
    or_false]
  omega

theorem isSpace_error : isSpace runeError = false := by decide

theorem utf8_len (c : Char) : 1 ≤ (String.utf8EncodeChar c).length := by
  have := String.utf8EncodeChar_ne_nil (c := c)
  cases h : String.utf8EncodeChar c with
  | nil => exact absurd h this
  | cons => simp

theorem trimLeft_spec (fuel : Nat) (s : GoStr) (h : s.length ≤ fuel) :
    ∃ a : List Char, (∀ c ∈ a, White c) ∧ s = utf8 a ++ Strings.trimLeft fuel s ∧
      ∀ c r, White c → Strings.trimLeft fuel s ≠ utf8 [c] ++ r := by
  induction fuel generalizing s with
  | zero =>
    have : s = [] := List.length_eq_zero_iff.1 (by omega)
    subst this
    refine ⟨[], by simp, rfl, ?_⟩
    intro c r _ e
    have := congrArg List.length e
    have := utf8_len c
    simp [Strings.trimLeft, utf8_singleton] at *
  | succ fuel ih =>
    rw [Strings.trimLeft]
    by_cases hs : s = []
    · subst hs
      refine ⟨[], by simp, rfl, ?_⟩
      intro c r _ e
      have := congrArg List.length e
      have := utf8_len c
      simp [utf8_singleton] at *
    rw [if_neg (by simpa using hs)]
    rcases decode_cases s hs with hd | ⟨c, t, rfl⟩
    · rw [hd]
      simp only [isSpace_error]
      rw [if_neg (by decide)]
      refine ⟨[], by simp, rfl, ?_⟩
      intro c r hc e
      rw [utf8_singleton] at e
      rw [e, decode_char] at hd
      have := (isSpace_iff c.toNat).2 hc
      rw [show c.toNat = runeError from congrArg Prod.fst hd] at this
      exact absurd this (by decide)
    · rw [decode_char]
      simp only [List.drop_left]
      by_cases hw : isSpace c.toNat = true
      · rw [if_pos hw]
        have hl := utf8_len c
        obtain ⟨a, ha, e, hn⟩ := ih t (by rw [List.length_append] at h; omega)
        refine ⟨c :: a, ?_, ?_, hn⟩
        · intro d hd
          rcases List.mem_cons.1 hd with rfl | hd
          · exact (isSpace_iff _).1 hw
          · exact ha d hd
        · rw [show c :: a = [c] ++ a from rfl, utf8_append, utf8_singleton, List.append_assoc, ← e]
      · rw [if_neg hw]
        refine ⟨[], by simp, rfl, ?_⟩
        intro d r hd e
        have := congrArg decodeRune e
        rw [utf8_singleton, decode_char, decode_char] at this
        rw [show c.toNat = d.toNat from congrArg Prod.fst this] at hw
        exact hw ((isSpace_iff _).2 hd)

theorem trimRight_spec (fuel : Nat) (s : GoStr) (h : s.length ≤ fuel) :
    ∃ a : List Char, (∀ c ∈ a, White c) ∧ s = Strings.trimRight fuel s ++ utf8 a ∧
      ∀ c r, White c → Strings.trimRight fuel s ≠ r ++ utf8 [c] := by
  induction fuel generalizing s with
  | zero =>
    have : s = [] := List.length_eq_zero_iff.1 (by omega)
    subst this
    refine ⟨[], by simp, rfl, ?_⟩
    intro c r _ e
    have := congrArg List.length e
    have := utf8_len c
    simp [Strings.trimRight, utf8_singleton] at *
  | succ fuel ih =>
    rw [Strings.trimRight]
    by_cases hs : s = []
    · subst hs
      refine ⟨[], by simp, rfl, ?_⟩
      intro c r _ e
      have := congrArg List.length e
      have := utf8_len c
      simp [utf8_singleton] at *
    rw [if_neg (by simpa using hs)]
    rcases decodeLast_cases s hs with hd | ⟨t, c, rfl⟩
    · rw [hd]
      simp only [isSpace_error]
      rw [if_neg (by decide)]
      refine ⟨[], by simp, by simp [utf8], ?_⟩
      intro c r hc e
      rw [utf8_singleton] at e
      rw [e, decodeLast_char] at hd
      have := (isSpace_iff c.toNat).2 hc
      rw [show c.toNat = runeError from congrArg Prod.fst hd] at this
      exact absurd this (by decide)
    · rw [decodeLast_char]
      simp only [List.length_append, Nat.add_sub_cancel, List.take_left]
      by_cases hw : isSpace c.toNat = true
      · rw [if_pos hw]
        have hl := utf8_len c
        obtain ⟨a, ha, e, hn⟩ := ih t (by rw [List.length_append] at h; omega)
        refine ⟨a ++ [c], ?_, ?_, hn⟩
        · intro d hd
          rcases List.mem_append.1 hd with hd | hd
          · exact ha d hd
          · rw [List.mem_singleton] at hd; subst hd
            exact (isSpace_iff _).1 hw
        · rw [utf8_append, utf8_singleton, ← List.append_assoc, ← e]
      · rw [if_neg hw]
        refine ⟨[], by simp, by simp [utf8], ?_⟩
        intro d r hd e
        have := congrArg decodeLastRune e
        rw [utf8_singleton, decodeLast_char, decodeLast_char] at this
        rw [show c.toNat = d.toNat from congrArg Prod.fst this] at hw
        exact hw ((isSpace_iff _).2 hd)

/-- C121: for arbitrary bytes, Trim takes away white-space characters only, at both ends only, and all of
them. -/
theorem C121_trim (s : GoStr) : Trimmed s (Str.trim s) := by
  obtain ⟨a, ha, ea, na⟩ := trimLeft_spec s.length s (Nat.le_refl _)
  obtain ⟨b, hb, eb, nb⟩ := trimRight_spec _ (Strings.trimLeft s.length s) (Nat.le_refl _)
  refine ⟨⟨a, b, ha, hb, ?_⟩, ?_, nb⟩
  · rw [List.append_assoc, Str.trim, Strings.trimSpace, ← eb, ← ea]
  · intro c r hc e
    refine na c (r ++ utf8 b) hc ?_
    rw [← List.append_assoc, ← e]
    exact eb

/-- What Trim should give for a text: the list of characters from the first to the last that is no white
space. -/
def Spec.trimText (cs : List Char) : List Char :=
  ((cs.dropWhile fun c => decide (c.toNat ∈ whiteSpace)).reverse.dropWhile
    fun c => decide (c.toNat ∈ whiteSpace)).reverse

theorem trimLeft_text (fuel : Nat) (cs : List Char) (h : (utf8 cs).length ≤ fuel) :
    Strings.trimLeft fuel (utf8 cs) = utf8 (cs.dropWhile fun c => decide (c.toNat ∈ whiteSpace)) := by
  induction fuel generalizing cs with
  | zero =>
    cases cs with
    | nil => rfl
    | cons c cs =>
      exact absurd (List.length_eq_zero_iff.1 (Nat.le_zero.1 h)) (by
        rw [utf8]
        simp [String.utf8EncodeChar_ne_nil])
  | succ fuel ih =>
    cases cs with
    | nil => rfl
    | cons c cs =>
      rw [Strings.trimLeft]
      have hl := utf8_len c
      have e : utf8 (c :: cs) = String.utf8EncodeChar c ++ utf8 cs := rfl
      have hne : String.utf8EncodeChar c ++ utf8 cs ≠ [] := by
        simp [String.utf8EncodeChar_ne_nil]
      rw [e] at h ⊢
      rw [if_neg (by simp [hne]), decode_char]
      simp only [List.drop_left]
      by_cases hw : c.toNat ∈ whiteSpace
      · rw [if_pos ((isSpace_iff _).2 hw), List.dropWhile_cons_of_pos (by simpa using hw)]
        exact ih cs (by rw [List.length_append] at h; omega)
      · rw [if_neg (fun h => hw ((isSpace_iff _).1 h)), List.dropWhile_cons_of_neg (by simpa using hw)]
        rfl

theorem trimRight_text (fuel : Nat) (cs : List Char) (h : (utf8 cs.reverse).length ≤ fuel) :
    Strings.trimRight fuel (utf8 cs.reverse) =
      utf8 (cs.dropWhile fun c => decide (c.toNat ∈ whiteSpace)).reverse := by
  induction fuel generalizing cs with
  | zero =>
    cases cs with
    | nil => rfl
    | cons c cs =>
      exact absurd (List.length_eq_zero_iff.1 (Nat.le_zero.1 h)) (by
        rw [utf8]
        simp [String.utf8EncodeChar_ne_nil])
  | succ fuel ih =>
    cases cs with
    | nil => rfl
    | cons c cs =>
      rw [Strings.trimRight]
      have hl := utf8_len c
      have e : utf8 (c :: cs).reverse = utf8 cs.reverse ++ String.utf8EncodeChar c := by
        rw [List.reverse_cons, utf8_append, utf8_singleton]
      have hne : utf8 cs.reverse ++ String.utf8EncodeChar c ≠ [] := by
        simp [String.utf8EncodeChar_ne_nil]
      rw [e] at h ⊢
      rw [if_neg (by simp [hne]), decodeLast_char]
      simp only [List.length_append, Nat.add_sub_cancel, List.take_left]
      by_cases hw : c.toNat ∈ whiteSpace
      · rw [if_pos ((isSpace_iff _).2 hw), List.dropWhile_cons_of_pos (by simpa using hw)]
        exact ih cs (by rw [List.length_append] at h; omega)
      · rw [if_neg (fun h => hw ((isSpace_iff _).1 h)), List.dropWhile_cons_of_neg (by simpa using hw), e]

/-- C121: on a text, Trim is the text from its first to its last character that is no white space. -/
theorem C121_trim_text (cs : List Char) : Str.trim (utf8 cs) = utf8 (trimText cs) := by
  rw [Str.trim, Strings.trimSpace, trimLeft_text _ _ (Nat.le_refl _), trimText]
  generalize cs.dropWhile (fun c => decide (c.toNat ∈ whiteSpace)) = d
  have := trimRight_text _ d.reverse (Nat.le_refl _)
  rw [List.reverse_reverse] at this
  rw [this]

/-- C121: only one string is s without the white space around it, so `C121_trim` settles Trim for all bytes. -/
theorem C121_trim_unique (s t : GoStr) (h : Trimmed s t) : t = Str.trim s := by
  obtain ⟨⟨a, b, ha, hb, e⟩, hl, hr⟩ := h
  have left : ∀ (a : List Char), (∀ c ∈ a, White c) → ∀ (r : GoStr) (fuel : Nat), (utf8 a ++ r).length ≤ fuel →
      (∀ c q, White c → r ≠ utf8 [c] ++ q) → Strings.trimLeft fuel (utf8 a ++ r) = r := by
    intro a
    induction a with
    | nil =>
      intro _ r fuel _ hn
      cases fuel with
      | zero => rfl
      | succ fuel =>
        rw [show utf8 [] ++ r = r from rfl, Strings.trimLeft]
        by_cases hr : r = []
        · rw [if_pos (by simpa using hr)]
        rw [if_neg (by simpa using hr), if_neg]
        rcases decode_cases r hr with hd | ⟨c, q, rfl⟩
        · rw [hd]; decide
        · rw [decode_char]
          intro h
          exact hn c q ((isSpace_iff _).1 h) (by rw [utf8_singleton])
    | cons c a ih =>
      intro hw r fuel hf hn
      have hl := utf8_len c
      have e : utf8 (c :: a) ++ r = String.utf8EncodeChar c ++ (utf8 a ++ r) := by simp [utf8]
      rw [e] at hf ⊢
      cases fuel with
      | zero => rw [List.length_append] at hf; omega
      | succ fuel =>
        rw [Strings.trimLeft, if_neg, decode_char]
        · simp only [List.drop_left]
          rw [if_pos ((isSpace_iff _).2 (hw c (by simp)))]
          exact ih (fun d hd => hw d (by simp [hd])) r fuel (by rw [List.length_append] at hf; omega) hn
        · simp [String.utf8EncodeChar_ne_nil]
  have right : ∀ (b : List Char), (∀ c ∈ b, White c) → ∀ (r : GoStr) (fuel : Nat),
      (r ++ utf8 b.reverse).length ≤ fuel →
      (∀ c q, White c → r ≠ q ++ utf8 [c]) → Strings.trimRight fuel (r ++ utf8 b.reverse) = r := by
    intro b
    induction b with
    | nil =>
      intro _ r fuel _ hn
      rw [show r ++ utf8 [].reverse = r by simp [utf8]]
      cases fuel with
      | zero => rfl
      | succ fuel =>
        rw [Strings.trimRight]
        by_cases hr : r = []
        · rw [if_pos (by simpa using hr)]
        rw [if_neg (by simpa using hr), if_neg]
        rcases decodeLast_cases r hr with hd | ⟨q, c, rfl⟩
        · rw [hd]; decide
        · rw [decodeLast_char]
          intro h
          exact hn c q ((isSpace_iff _).1 h) (by rw [utf8_singleton])
    | cons c b ih =>
      intro hw r fuel hf hn
      have hl := utf8_len c
      have e : r ++ utf8 (c :: b).reverse = (r ++ utf8 b.reverse) ++ String.utf8EncodeChar c := by simp [utf8]
      rw [e] at hf ⊢
      cases fuel with
      | zero => rw [List.length_append] at hf; omega
      | succ fuel =>
        rw [Strings.trimRight, if_neg, decodeLast_char]
        · simp only [List.length_append, Nat.add_sub_cancel]
          rw [if_pos ((isSpace_iff _).2 (hw c (by simp))), ← List.length_append, List.take_left]
          exact ih (fun d hd => hw d (by simp [hd])) r fuel (by rw [List.length_append] at hf; omega) hn
        · simp [String.utf8EncodeChar_ne_nil]
  rw [Str.trim, Strings.trimSpace]
  by_cases ht : t = []
  · subst ht
    have : s = utf8 (a ++ b) ++ [] := by rw [e, utf8_append]; simp
    rw [this, left (a ++ b) (fun c hc => (List.mem_append.1 hc).elim (ha c) (hb c)) [] _ (Nat.le_refl _)]
    · rfl
    · intro c q _ h
      have := congrArg List.length h
      have := utf8_len c
      rw [utf8_singleton] at *
      simp only [List.length_nil, List.length_append] at *
      omega
  · rw [e, List.append_assoc, left a ha (t ++ utf8 b) _ (Nat.le_refl _)]
    · have := right b.reverse (fun c hc => hb c (List.mem_reverse.1 hc)) t _ (Nat.le_refl _) hr
      rw [List.reverse_reverse] at this
      exact this.symm
    · intro c q hc h
      have hd := congrArg decodeRune h
      rw [utf8_singleton, decode_char] at hd
      rcases decode_cases t ht with h1 | ⟨d, t', rfl⟩
      · have hnc : ¬ Continues (utf8 b) := by
          cases b with
          | nil => rintro ⟨_, _, h, _⟩; cases h
          | cons d b => exact not_continues_char d (utf8 b)
        rw [decode_append t _ ht hnc, h1] at hd
        have := (isSpace_iff c.toNat).2 hc
        rw [show c.toNat = runeError from (congrArg Prod.fst hd).symm] at this
        exact absurd this (by decide)
      · rw [List.append_assoc, decode_char] at hd
        have := Char.toNat_inj.1 (congrArg Prod.fst hd)
        subst this
        exact hl d t' hc (by rw [utf8_singleton])

/-- C121: a second Trim changes nothing. -/
theorem C121_trim_idempotent (s : GoStr) : Str.trim (Str.trim s) = Str.trim s := by
  have h := C121_trim s
  exact (C121_trim_unique _ _ ⟨⟨[], [], by simp, by simp, by simp [utf8]⟩, h.left, h.right⟩).symm

-- a no-break space, a tab, text with a space inside, U+3000, U+0085; bytes that are not UTF-8
example : Str.trim (utf8 ['\u00A0', '\t', 'é', ' ', '한', '\u3000', '\u0085']) = utf8 ['é', ' ', '한'] := by decide +kernel
example : Str.trim [0x20, 0xFF, 0x20, 0x85, 0x20] = [0xFF, 0x20, 0x85] := by decide +kernel
example : Str.trim [0x80, 0xA0] = [0x80, 0xA0] ∧ Str.trim [0xC2, 0xA0] = [] := by decide +kernel

/-! ### C122 -/
/-- C122: on a text, ToLowercase and ToUppercase replace each character by its lower-case (upper-case)
character: their number and order stay. -/
theorem C122_case_text (u : CaseTable) (cs : List Char) :
    Str.toLowercase u (utf8 cs) = utf8 (cs.map u.lower) ∧ Str.toUppercase u (utf8 cs) = utf8 (cs.map u.upper) := by
  have key : ∀ f : Char → Char, Strings.mapRunes f (utf8 cs) = utf8 (cs.map f) := by
    intro f
    rw [Strings.mapRunes, runes_utf8, ← encode_chars, List.map_map, List.map_map]
    congr 1
    apply List.map_congr_left
    intro c _
    simp
  exact ⟨key _, key _⟩

/-- A text in ASCII. -/
def Spec.Ascii (cs : List Char) : Prop := ∀ c ∈ cs, c.toNat < 128

theorem map_id_of {α : Type} {l : List α} {f : α → α} (h : ∀ a ∈ l, f a = a) : l.map f = l := by
  induction l with
  | nil => rfl
  | cons a l ih => rw [List.map_cons, h a (by simp), ih (fun b hb => h b (by simp [hb]))]

/-- C122: on ASCII text the letters A-Z become a-z (a-z become A-Z) and no other character changes, whatever the
tables for the rest of Unicode say; the two conversions absorb each other. -/
theorem C122_case_ascii (u : CaseTable) (cs : List Char) (h : Ascii cs) :
    Str.toLowercase u (utf8 cs) =
      utf8 (cs.map fun c => if 65 ≤ c.toNat ∧ c.toNat ≤ 90 then Char.ofNat (c.toNat + 32) else c) ∧
    Str.toUppercase u (utf8 cs) =
      utf8 (cs.map fun c => if 97 ≤ c.toNat ∧ c.toNat ≤ 122 then Char.ofNat (c.toNat - 32) else c) ∧
    Str.toLowercase u (Str.toUppercase u (utf8 cs)) = Str.toLowercase u (utf8 cs) ∧
    Str.toUppercase u (Str.toLowercase u (utf8 cs)) = Str.toUppercase u (utf8 cs) := by
  have hv : ∀ c : Char, c.toNat < 128 → c = Char.ofNat c.toNat := by intro c _; simp
  have lo : ∀ n : Nat, n < 128 →
      (Char.ofNat n).toLower = (if 65 ≤ n ∧ n ≤ 90 then Char.ofNat (n + 32) else Char.ofNat n) ∧
      (Char.ofNat n).toUpper = (if 97 ≤ n ∧ n ≤ 122 then Char.ofNat (n - 32) else Char.ofNat n) ∧
      (Char.ofNat n).toLower.toNat < 128 ∧ (Char.ofNat n).toUpper.toNat < 128 ∧
      (Char.ofNat n).toUpper.toLower = (Char.ofNat n).toLower ∧
      (Char.ofNat n).toLower.toUpper = (Char.ofNat n).toUpper := by decide +kernel
  have lo' : ∀ c ∈ cs, c.toLower = (if 65 ≤ c.toNat ∧ c.toNat ≤ 90 then Char.ofNat (c.toNat + 32) else c) ∧
      c.toUpper = (if 97 ≤ c.toNat ∧ c.toNat ≤ 122 then Char.ofNat (c.toNat - 32) else c) ∧
      c.toLower.toNat < 128 ∧ c.toUpper.toNat < 128 ∧
      c.toUpper.toLower = c.toLower ∧ c.toLower.toUpper = c.toUpper := by
    intro c hc
    have := lo c.toNat (h c hc)
    rwa [← hv c (h c hc)] at this
  refine ⟨?_, ?_, ?_, ?_⟩
  · rw [(C122_case_text u cs).1]
    congr 1
    apply List.map_congr_left
    intro c hc
    rw [u.lower_ascii c (h c hc), (lo' c hc).1]
  · rw [(C122_case_text u cs).2]
    congr 1
    apply List.map_congr_left
    intro c hc
    rw [u.upper_ascii c (h c hc), (lo' c hc).2.1]
  · rw [(C122_case_text u cs).2, (C122_case_text u _).1, (C122_case_text u cs).1, List.map_map]
    congr 1
    apply List.map_congr_left
    intro c hc
    obtain ⟨_, _, _, h4, h5, _⟩ := lo' c hc
    rw [Function.comp, u.upper_ascii c (h c hc), u.lower_ascii _ h4, u.lower_ascii c (h c hc), h5]
  · rw [(C122_case_text u cs).1, (C122_case_text u _).2, (C122_case_text u cs).2, List.map_map]
    congr 1
    apply List.map_congr_left
    intro c hc
    obtain ⟨_, _, h3, _, _, h6⟩ := lo' c hc
    rw [Function.comp, u.lower_ascii c (h c hc), u.upper_ascii _ h3, u.upper_ascii c (h c hc), h6]

/-- C122: for arbitrary bytes the result is the one for the text in which every byte that is not part of an
encoded character is U+FFFD; so a string whose characters have no other case comes back byte for byte exactly if
it is valid UTF-8. -/
theorem C122_case_bytes (u : CaseTable) (s : GoStr) :
    ∃ cs : List Char, runes s = cs.map Char.toNat ∧ Str.toLowercase u s = utf8 (cs.map u.lower) ∧
      Str.toUppercase u s = utf8 (cs.map u.upper) ∧
      ((∀ c ∈ cs, u.lower c = c) → (Str.toLowercase u s = s ↔ ∃ ds, s = utf8 ds)) ∧
      ((∀ c ∈ cs, u.upper c = c) → (Str.toUppercase u s = s ↔ ∃ ds, s = utf8 ds)) := by
  obtain ⟨cs, hcs⟩ := runes_chars s
  have e : ∀ f : Char → Char, Strings.mapRunes f s = utf8 (cs.map f) := by
    intro f
    rw [Strings.mapRunes, hcs, ← encode_chars, List.map_map, List.map_map]
    congr 1
    apply List.map_congr_left
    intro c _
    simp
  have v : ∀ f : Char → Char, (∀ c ∈ cs, f c = c) → (Strings.mapRunes f s = s ↔ ∃ ds, s = utf8 ds) := by
    intro f hf
    rw [e, map_id_of hf]
    refine ⟨fun h => ⟨cs, h.symm⟩, ?_⟩
    rintro ⟨ds, rfl⟩
    rw [runes_utf8] at hcs
    rw [toNat_inj hcs]
  exact ⟨cs, hcs, e _, e _, v _, v _⟩

/-- The table that changes ASCII letters only. -/
def asciiTable : CaseTable := ⟨Char.toLower, Char.toUpper, fun _ _ => rfl, fun _ _ => rfl⟩
example : Str.toLowercase asciiTable (utf8 ['G', 'o', 'S', 't', ' ', 'É', '7']) = utf8 ['g', 'o', 's', 't', ' ', 'É', '7'] := by
  decide +kernel
example : Str.toUppercase asciiTable (utf8 ['G', 'o', 'S', 't', '@', '[', '`', '{']) =
    utf8 ['G', 'O', 'S', 'T', '@', '[', '`', '{'] := by decide +kernel
-- not UTF-8: one byte becomes three
example : Str.toLowercase asciiTable [0x61, 0xFF] = [0x61, 0xEF, 0xBF, 0xBD] := by decide +kernel
end Gost
