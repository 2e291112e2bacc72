import Verif.Props.StrSearch
import Verif.Lemmas.Text
/-
Property C100 for the empty separator, on arbitrary bytes.
-/
namespace Gost
open Spec Utf8

/-- The characters of a string: encoded characters, and bytes at which no encoded character begins. -/
inductive Spec.Units : GoStr → List GoStr → Prop
  | nil : Units [] []
  | char (c : Char) {t : GoStr} {us : List GoStr} (h : Units t us) : Units (utf8 [c] ++ t) (utf8 [c] :: us)
  | stray (b : UInt8) {t : GoStr} {us : List GoStr} (hn : ∀ c r, b :: t ≠ utf8 [c] ++ r) (h : Units t us) :
      Units (b :: t) ([b] :: us)

theorem explode_units (n : Nat) (s : GoStr) (h : s.length ≤ n) : Units s (Strings.explode n s) := by
  induction n generalizing s with
  | zero =>
    have : s = [] := List.length_eq_zero_iff.1 (by omega)
    subst this
    exact .nil
  | succ n ih =>
    cases s with
    | nil => exact .nil
    | cons b t =>
      rw [Strings.explode, if_neg (by simp)]
      rcases Classical.em (∃ c r, b :: t = utf8 [c] ++ r) with ⟨c, r, e⟩ | hn
      · have hl : 1 ≤ (String.utf8EncodeChar c).length := by
          have := String.utf8EncodeChar_ne_nil (c := c)
          cases h : String.utf8EncodeChar c with
          | nil => exact absurd h this
          | cons => simp
        rw [e] at h ⊢
        rw [utf8_singleton] at h ⊢
        rw [decode_char]
        simp only [List.take_left, List.drop_left]
        have := Units.char c (ih r (by rw [List.length_append] at h; omega))
        rwa [utf8_singleton] at this
      · have hn' : ∀ c r, b :: t ≠ utf8 [c] ++ r := fun c r e => hn ⟨c, r, e⟩
        rcases decode_cases (b :: t) (by simp) with hd | ⟨c, r, e⟩
        · rw [hd]
          exact .stray b hn' (ih t (by simpa using h))
        · exact absurd (by rw [e, utf8_singleton]) (hn' c r)

theorem Spec.Units.flatten {s : GoStr} {us : List GoStr} (h : Units s us) : us.flatten = s := by
  induction h with
  | nil => rfl
  | char c h ih => simp [ih]
  | stray b hn h ih => simp [ih]

/-- `Units` leaves no choice. -/
theorem Spec.Units.unique {s : GoStr} {us vs : List GoStr} (h : Units s us) (h' : Units s vs) : us = vs := by
  have ne : ∀ (c : Char) (t : GoStr), utf8 [c] ++ t ≠ [] := by
    intro c t; simp [utf8_singleton, String.utf8EncodeChar_ne_nil]
  induction h generalizing vs with
  | nil =>
    generalize hs : ([] : GoStr) = s at h'
    cases h' with
    | nil => rfl
    | char c => exact absurd hs.symm (ne _ _)
    | stray => cases hs
  | @char c t us h ih =>
    generalize hs : utf8 [c] ++ t = s at h'
    cases h' with
    | nil => exact absurd hs (ne _ _)
    | @char d t' _ h' =>
      have hd := congrArg decodeRune hs
      rw [utf8_singleton, utf8_singleton, decode_char, decode_char] at hd
      have := Char.toNat_inj.1 (congrArg Prod.fst hd)
      subst this
      have := List.append_cancel_left hs
      subst this
      rw [ih h']
    | @stray b t' _ hn h' => exact absurd hs.symm (hn _ _)
  | @stray b t us hn h ih =>
    generalize hs : b :: t = s at h'
    cases h' with
    | nil => cases hs
    | @char d t' _ h' => exact absurd hs (hn _ _)
    | @stray b' t' _ hn' h' =>
      injection hs with h1 h2
      subst h1; subst h2
      rw [ih h']

/-- C100: with the empty separator Split gives the characters of a string of arbitrary bytes, which put together
give the string, and Replace of the empty string puts `new` before each of them and at the end. -/
theorem C100_empty (g : Growth) (s new : GoStr) :
    Units s (Str.split g s []).data ∧ (Str.split g s []).data.flatten = s ∧
    Str.replace s [] new = new ++ ((Str.split g s []).data.map (· ++ new)).flatten := by
  have e : (Str.split g s []).data = Strings.explode s.length s := by
    rw [Str.split, Str.pushAll_data, Strings.split, if_pos (by rfl)]; rfl
  have hu := explode_units s.length s (Nat.le_refl _)
  rw [e]
  refine ⟨hu, hu.flatten, ?_⟩
  rw [Str.replace, Strings.replaceAll, if_pos (by rfl)]
  generalize Strings.explode s.length s = us
  induction us with
  | nil => simp [Strings.interleave]
  | cons u us ih => rw [Strings.interleave, ih]; simp

/-- C100: the characters of a string are determined, and those of a text are its characters. -/
theorem C100_units_unique (s : GoStr) (us vs : List GoStr) (h : Units s us) (h' : Units s vs) : us = vs := h.unique h'

-- a two-byte character, a stray byte, a letter
example : Str.replace [0xC3, 0xA9, 0xA9, 0x78] [] [0x2D] = [0x2D, 0xC3, 0xA9, 0x2D, 0xA9, 0x2D, 0x78, 0x2D] := by
  decide +kernel
example : Str.replace [] [] [0x2D] = [0x2D] := by decide +kernel
end Gost
