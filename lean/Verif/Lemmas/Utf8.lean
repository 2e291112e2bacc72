import Verif.Model.Utf8
import Verif.Spec.Unicode
/-
Decoding and encoding of UTF-8.
-/
namespace Gost
open Spec Utf8

theorem Utf8.toNat_ofNat (n : Nat) (h : n < 256) : (UInt8.ofNat n).toNat = n := by
  simp [UInt8.toNat_ofNat']; omega

theorem Utf8.char_range (c : Char) : c.toNat < 0xD800 ∨ (0xDFFF < c.toNat ∧ c.toNat < 0x110000) := by
  have := c.valid
  simp only [UInt32.isValidChar, Nat.isValidChar] at this
  exact this

theorem Utf8.inRange_iff (lo hi : Nat) (b : UInt8) : inRange lo hi b = true ↔ lo ≤ b.toNat ∧ b.toNat ≤ hi := by
  simp [inRange]

theorem Utf8.encodeRune_char (c : Char) : encodeRune c.toNat = String.utf8EncodeChar c := by
  have hr := char_range c
  unfold encodeRune String.utf8EncodeChar
  simp only [show c.val.toNat = c.toNat from rfl]
  by_cases h1 : c.toNat ≤ 0x7F
  · rw [if_pos h1, if_pos h1]
  · rw [if_neg h1, if_neg h1]
    by_cases h2 : c.toNat ≤ 0x7FF
    · rw [if_pos h2, if_pos h2]
      have e1 : 0xC0 + c.toNat / 64 = c.toNat / 64 % 0x20 + 0xc0 := by omega
      have e2 : 0x80 + c.toNat % 64 = c.toNat % 0x40 + 0x80 := by omega
      rw [e1, e2]
    · rw [if_neg h2, if_neg h2, if_neg (by omega)]
      by_cases h3 : c.toNat ≤ 0xFFFF
      · rw [if_pos h3, if_pos h3]
        have e1 : 0xE0 + c.toNat / 4096 = c.toNat / 4096 % 0x10 + 0xe0 := by omega
        have e2 : 0x80 + c.toNat / 64 % 64 = c.toNat / 64 % 0x40 + 0x80 := by omega
        have e3 : 0x80 + c.toNat % 64 = c.toNat % 0x40 + 0x80 := by omega
        rw [e1, e2, e3]
      · rw [if_neg h3, if_neg h3]
        have e1 : 0xF0 + c.toNat / 262144 = c.toNat / 262144 % 0x08 + 0xf0 := by omega
        have e2 : 0x80 + c.toNat / 4096 % 64 = c.toNat / 4096 % 0x40 + 0x80 := by omega
        have e3 : 0x80 + c.toNat / 64 % 64 = c.toNat / 64 % 0x40 + 0x80 := by omega
        have e4 : 0x80 + c.toNat % 64 = c.toNat % 0x40 + 0x80 := by omega
        rw [e1, e2, e3, e4]

theorem Utf8.encode_chars (cs : List Char) : encode (cs.map Char.toNat) = utf8 cs := by
  induction cs with
  | nil => rfl
  | cons c cs ih =>
    simp only [encode, utf8, List.map_cons, List.flatMap_cons, encodeRune_char] at ih ⊢
    rw [ih]

theorem Utf8.decode_char (c : Char) (t : GoStr) :
    decodeRune (String.utf8EncodeChar c ++ t) = (c.toNat, (String.utf8EncodeChar c).length) := by
  rw [← encodeRune_char]
  have hr := char_range c
  unfold encodeRune
  by_cases h1 : c.toNat ≤ 0x7F
  · rw [if_pos h1]
    simp only [List.cons_append, decodeRune, toNat_ofNat _ (show c.toNat < 256 by omega)]
    rw [if_pos (by omega)]; rfl
  · rw [if_neg h1]
    by_cases h2 : c.toNat ≤ 0x7FF
    · rw [if_pos h2]
      simp only [List.cons_append, List.nil_append, decodeRune,
        toNat_ofNat _ (show 0xC0 + c.toNat / 64 < 256 by omega),
        toNat_ofNat _ (show 0x80 + c.toNat % 64 < 256 by omega)]
      rw [if_neg (by omega), if_neg (by omega), if_pos (by omega), if_pos]
      · exact Prod.ext (show _ = c.toNat by simp only; omega) rfl
      · rw [inRange_iff, toNat_ofNat _ (by omega)]; omega
    · rw [if_neg h2, if_neg (by omega)]
      by_cases h3 : c.toNat ≤ 0xFFFF
      · rw [if_pos h3]
        simp only [List.cons_append, List.nil_append, decodeRune,
          toNat_ofNat _ (show 0xE0 + c.toNat / 4096 < 256 by omega),
          toNat_ofNat _ (show 0x80 + c.toNat / 64 % 64 < 256 by omega),
          toNat_ofNat _ (show 0x80 + c.toNat % 64 < 256 by omega)]
        rw [if_neg (by omega), if_neg (by omega), if_neg (by omega), if_pos (by omega), if_pos]
        · exact Prod.ext (show _ = c.toNat by simp only; omega) rfl
        · rw [Bool.and_eq_true, inRange_iff, inRange_iff, toNat_ofNat _ (by omega), toNat_ofNat _ (by omega)]
          refine ⟨⟨?_, ?_⟩, by omega, by omega⟩
          · split <;> omega
          · split <;> omega
      · rw [if_neg h3]
        simp only [List.cons_append, List.nil_append, decodeRune,
          toNat_ofNat _ (show 0xF0 + c.toNat / 262144 < 256 by omega),
          toNat_ofNat _ (show 0x80 + c.toNat / 4096 % 64 < 256 by omega),
          toNat_ofNat _ (show 0x80 + c.toNat / 64 % 64 < 256 by omega),
          toNat_ofNat _ (show 0x80 + c.toNat % 64 < 256 by omega)]
        rw [if_neg (by omega), if_neg (by omega), if_neg (by omega), if_neg (by omega), if_pos (by omega), if_pos]
        · exact Prod.ext (show _ = c.toNat by simp only; omega) rfl
        · rw [Bool.and_eq_true, Bool.and_eq_true, inRange_iff, inRange_iff, inRange_iff, toNat_ofNat _ (by omega),
            toNat_ofNat _ (by omega), toNat_ofNat _ (by omega)]
          refine ⟨⟨⟨?_, ?_⟩, by omega, by omega⟩, by omega, by omega⟩
          · split <;> omega
          · split <;> omega

/-- Every decoded rune is a character, and its size is at most the length. -/
theorem Utf8.decode_spec (s : GoStr) : ∃ c : Char, (decodeRune s).1 = c.toNat ∧ (decodeRune s).2 ≤ s.length ∧
    (s ≠ [] → 1 ≤ (decodeRune s).2) := by
  have mk : ∀ n : Nat, (n < 0xD800 ∨ (0xDFFF < n ∧ n < 0x110000)) → ∃ c : Char, n = c.toNat := by
    intro n hn
    refine ⟨Char.ofNat n, ?_⟩
    have : n.isValidChar := hn
    simp [Char.ofNat, this, Char.ofNatAux, Char.toNat]
  have he : ∃ c : Char, runeError = c.toNat := mk _ (by unfold runeError; omega)
  cases s with
  | nil => obtain ⟨c, hc⟩ := he; exact ⟨c, hc, Nat.le_refl _, by simp⟩
  | cons b0 t =>
    have h0 := b0.toNat_lt
    obtain ⟨ce, hce⟩ := he
    have er : ∃ c : Char, ((runeError, 1) : Nat × Nat).1 = c.toNat ∧ ((runeError, 1) : Nat × Nat).2 ≤ (b0 :: t).length ∧
        (b0 :: t ≠ [] → 1 ≤ ((runeError, 1) : Nat × Nat).2) := ⟨ce, hce, by simp, by simp⟩
    simp only [decodeRune]
    by_cases h1 : b0.toNat < 0x80
    · rw [if_pos h1]
      obtain ⟨c, hc⟩ := mk b0.toNat (by omega)
      exact ⟨c, hc, by simp, by simp⟩
    rw [if_neg h1]
    by_cases h2 : b0.toNat < 0xC2
    · rw [if_pos h2]; exact er
    rw [if_neg h2]
    by_cases h3 : b0.toNat < 0xE0
    · rw [if_pos h3]
      cases t with
      | nil => exact er
      | cons b1 t =>
        simp only
        by_cases hb : inRange 0x80 0xBF b1 = true
        · rw [if_pos hb]
          rw [inRange_iff] at hb
          obtain ⟨c, hc⟩ := mk (b0.toNat % 32 * 64 + b1.toNat % 64) (by omega)
          exact ⟨c, hc, by simp, by simp⟩
        · rw [if_neg hb]; exact er
    rw [if_neg h3]
    by_cases h4 : b0.toNat < 0xF0
    · rw [if_pos h4]
      match t, er with
      | [], er => exact er
      | [_], er => exact er
      | b1 :: b2 :: t, er =>
        simp only
        cases hb : (inRange (if b0.toNat = 0xE0 then 0xA0 else 0x80) (if b0.toNat = 0xED then 0x9F else 0xBF) b1 &&
            inRange 0x80 0xBF b2) with
        | false => rw [if_neg (by decide)]; exact er
        | true =>
          rw [if_pos rfl]
          rw [Bool.and_eq_true, inRange_iff, inRange_iff] at hb
          obtain ⟨⟨l1, u1⟩, l2, u2⟩ := hb
          have : ∃ c : Char, b0.toNat % 16 * 4096 + b1.toNat % 64 * 64 + b2.toNat % 64 = c.toNat := by
            apply mk
            split at l1 <;> split at u1 <;> omega
          obtain ⟨c, hc⟩ := this
          exact ⟨c, hc, by simp, by simp⟩
    rw [if_neg h4]
    by_cases h5 : b0.toNat < 0xF5
    · rw [if_pos h5]
      match t, er with
      | [], er => exact er
      | [_], er => exact er
      | [_, _], er => exact er
      | b1 :: b2 :: b3 :: t, er =>
        simp only
        cases hb : (inRange (if b0.toNat = 0xF0 then 0x90 else 0x80) (if b0.toNat = 0xF4 then 0x8F else 0xBF) b1 &&
            inRange 0x80 0xBF b2 && inRange 0x80 0xBF b3) with
        | false => rw [if_neg (by decide)]; exact er
        | true =>
          rw [if_pos rfl]
          rw [Bool.and_eq_true, Bool.and_eq_true, inRange_iff, inRange_iff, inRange_iff] at hb
          obtain ⟨⟨⟨l1, u1⟩, l2, u2⟩, l3, u3⟩ := hb
          have : ∃ c : Char, b0.toNat % 8 * 262144 + b1.toNat % 64 * 4096 + b2.toNat % 64 * 64 + b3.toNat % 64
              = c.toNat := by
            apply mk
            split at l1 <;> split at u1 <;> omega
          obtain ⟨c, hc⟩ := this
          exact ⟨c, hc, by simp, by simp⟩
    rw [if_neg h5]; exact er

/-- The bytes that continue a character. -/
def Utf8.Continues (t : GoStr) : Prop := ∃ b r, t = b :: r ∧ 0x80 ≤ b.toNat ∧ b.toNat ≤ 0xBF

/-- What follows does not matter, unless it starts with a continuation byte. -/
theorem Utf8.decode_append (s t : GoStr) (hs : s ≠ []) (ht : ¬ Continues t) :
    decodeRune (s ++ t) = decodeRune s := by
  have bad : ∀ lo hi b r, 0x80 ≤ lo → hi ≤ 0xBF → t = b :: r → inRange lo hi b = false := by
    intro lo hi b r hl hh e
    rw [Bool.eq_false_iff]
    intro h
    rw [inRange_iff] at h
    exact ht ⟨b, r, e, by omega, by omega⟩
  cases s with
  | nil => exact absurd rfl hs
  | cons b0 s =>
    simp only [List.cons_append, decodeRune]
    by_cases h1 : b0.toNat < 0x80
    · rw [if_pos h1, if_pos h1]
    rw [if_neg h1, if_neg h1]
    by_cases h2 : b0.toNat < 0xC2
    · rw [if_pos h2, if_pos h2]
    rw [if_neg h2, if_neg h2]
    by_cases h3 : b0.toNat < 0xE0
    · rw [if_pos h3, if_pos h3]
      match s with
      | b1 :: s => rfl
      | [] =>
        cases t with
        | nil => rfl
        | cons b r =>
          simp only [List.nil_append]
          rw [bad _ _ b r (Nat.le_refl _) (Nat.le_refl _) rfl, if_neg (by decide)]
    rw [if_neg h3, if_neg h3]
    have lo1 : ∀ (p : Prop) [Decidable p], 0x80 ≤ (if p then 0xA0 else 0x80) := by intro p _; split <;> omega
    have hi1 : ∀ (p : Prop) [Decidable p], (if p then 0x9F else 0xBF) ≤ 0xBF := by intro p _; split <;> omega
    have lo2 : ∀ (p : Prop) [Decidable p], 0x80 ≤ (if p then 0x90 else 0x80) := by intro p _; split <;> omega
    have hi2 : ∀ (p : Prop) [Decidable p], (if p then 0x8F else 0xBF) ≤ 0xBF := by intro p _; split <;> omega
    by_cases h4 : b0.toNat < 0xF0
    · rw [if_pos h4, if_pos h4]
      match s with
      | b1 :: b2 :: s => rfl
      | [b1] =>
        match t, bad with
        | [], _ => rfl
        | b :: r, bad =>
          simp only [List.cons_append, List.nil_append]
          rw [bad 0x80 0xBF b r (Nat.le_refl _) (Nat.le_refl _) rfl, Bool.and_false, if_neg (by decide)]
      | [] =>
        match t, bad with
        | [], _ => rfl
        | [_], _ => rfl
        | b :: b' :: r, bad =>
          simp only [List.nil_append]
          rw [bad _ _ b (b' :: r) (lo1 _) (hi1 _) rfl, Bool.false_and, if_neg (by decide)]
    rw [if_neg h4, if_neg h4]
    by_cases h5 : b0.toNat < 0xF5
    · rw [if_pos h5, if_pos h5]
      match s with
      | b1 :: b2 :: b3 :: s => rfl
      | [b1, b2] =>
        match t, bad with
        | [], _ => rfl
        | b :: r, bad =>
          simp only [List.cons_append, List.nil_append]
          rw [bad 0x80 0xBF b r (Nat.le_refl _) (Nat.le_refl _) rfl, Bool.and_false, if_neg (by decide)]
      | [b1] =>
        match t, bad with
        | [], _ => rfl
        | [_], _ => rfl
        | b :: b' :: r, bad =>
          simp only [List.cons_append, List.nil_append]
          rw [bad 0x80 0xBF b (b' :: r) (Nat.le_refl _) (Nat.le_refl _) rfl, Bool.and_false, Bool.false_and,
            if_neg (by decide)]
      | [] =>
        match t, bad with
        | [], _ => rfl
        | [_], _ => rfl
        | [_, _], _ => rfl
        | b :: b' :: b'' :: r, bad =>
          simp only [List.nil_append]
          rw [bad _ _ b (b' :: b'' :: r) (lo2 _) (hi2 _) rfl, Bool.false_and, Bool.false_and, if_neg (by decide)]
    rw [if_neg h5, if_neg h5]

theorem Utf8.not_continues_char (c : Char) (t : GoStr) : ¬ Continues (String.utf8EncodeChar c ++ t) := by
  rw [← encodeRune_char]
  have hr := char_range c
  rintro ⟨b, r, e, h1, h2⟩
  unfold encodeRune at e
  by_cases h3 : c.toNat ≤ 0x7F
  · rw [if_pos h3] at e
    simp only [List.cons_append, List.cons.injEq] at e
    rw [← e.1, toNat_ofNat _ (by omega)] at h1; omega
  rw [if_neg h3] at e
  by_cases h4 : c.toNat ≤ 0x7FF
  · rw [if_pos h4] at e
    simp only [List.cons_append, List.cons.injEq] at e
    rw [← e.1, toNat_ofNat _ (by omega)] at h2; omega
  rw [if_neg h4, if_neg (by omega)] at e
  by_cases h5 : c.toNat ≤ 0xFFFF
  · rw [if_pos h5] at e
    simp only [List.cons_append, List.cons.injEq] at e
    rw [← e.1, toNat_ofNat _ (by omega)] at h2; omega
  · rw [if_neg h5] at e
    simp only [List.cons_append, List.cons.injEq] at e
    rw [← e.1, toNat_ofNat _ (by omega)] at h2; omega

theorem Utf8.runesLoop_eq (s : GoStr) (fuel : Nat) (h : s.length ≤ fuel) : runesLoop fuel s = runes s := by
  unfold runes
  generalize hn : s.length = n at h
  induction n using Nat.strongRecOn generalizing s fuel with
  | ind n ih =>
    cases s with
    | nil => subst hn; cases fuel <;> rfl
    | cons b s =>
      obtain ⟨fuel, rfl⟩ : ∃ f, fuel = f + 1 := ⟨fuel - 1, by simp at hn; omega⟩
      obtain ⟨_, _, h1, h2⟩ := decode_spec (b :: s)
      have h2 := h2 (by simp)
      obtain ⟨n, rfl⟩ : ∃ m, n = m + 1 := ⟨n - 1, by simp at hn; omega⟩
      simp only [runesLoop, List.isEmpty_cons, Bool.false_eq_true, if_false]
      congr 1
      have hl : ((b :: s).drop (decodeRune (b :: s)).2).length ≤ n := by rw [List.length_drop]; omega
      rw [ih _ (Nat.lt_succ_of_le hl) _ fuel rfl (by omega), ih _ (Nat.lt_succ_of_le hl) _ n rfl hl]

theorem Utf8.runes_nil : runes [] = [] := rfl

theorem Utf8.runes_step (s : GoStr) (hs : s ≠ []) :
    runes s = (decodeRune s).1 :: runes (s.drop (decodeRune s).2) := by
  cases s with
  | nil => exact absurd rfl hs
  | cons b s =>
    obtain ⟨_, _, h1, h2⟩ := decode_spec (b :: s)
    have h2 := h2 (by simp)
    rw [← runesLoop_eq (List.drop _ _) s.length (by
      rw [List.length_drop]; simp only [List.length_cons] at h1 ⊢; omega)]
    rfl

/-- Strong induction along the decoding. -/
theorem Utf8.decode_induction {P : GoStr → Prop} (nil : P [])
    (step : ∀ s, s ≠ [] → P (s.drop (decodeRune s).2) → P s) (s : GoStr) : P s := by
  generalize hn : s.length = n
  induction n using Nat.strongRecOn generalizing s with
  | ind n ih =>
    cases s with
    | nil => exact nil
    | cons b s =>
      obtain ⟨_, _, h1, h2⟩ := decode_spec (b :: s)
      have h2 := h2 (by simp)
      exact step _ (by simp) (ih _ (by rw [List.length_drop]; simp only [List.length_cons] at hn ⊢; omega) _ rfl)

/-- Decoding of a text. -/
theorem Utf8.runes_utf8_append (cs : List Char) (t : GoStr) :
    runes (utf8 cs ++ t) = cs.map Char.toNat ++ runes t := by
  induction cs with
  | nil => rfl
  | cons c cs ih =>
    have e : utf8 (c :: cs) ++ t = String.utf8EncodeChar c ++ (utf8 cs ++ t) := by
      simp [utf8]
    rw [e, runes_step _ (by simp [String.utf8EncodeChar_ne_nil]), decode_char]
    simp only [List.drop_left, ih, List.map_cons, List.cons_append]

theorem Utf8.runes_utf8 (cs : List Char) : runes (utf8 cs) = cs.map Char.toNat := by
  have := runes_utf8_append cs []
  simpa [runes_nil] using this

/-- Decoding of arbitrary bytes followed by something that does not continue a character. -/
theorem Utf8.runes_append (s t : GoStr) (ht : ¬ Continues t) : runes (s ++ t) = runes s ++ runes t := by
  induction s using decode_induction with
  | nil => rfl
  | step s hs ih =>
    obtain ⟨_, _, h1, _⟩ := decode_spec s
    rw [runes_step (s ++ t) (by simp [hs]), runes_step s hs, decode_append s t hs ht,
      List.drop_append_of_le_length h1, ih]
    rfl

/-- Every string decodes to a text. -/
theorem Utf8.runes_chars (s : GoStr) : ∃ cs : List Char, runes s = cs.map Char.toNat := by
  induction s using decode_induction with
  | nil => exact ⟨[], rfl⟩
  | step s hs ih =>
    obtain ⟨cs, e⟩ := ih
    obtain ⟨c, h, _⟩ := decode_spec s
    exact ⟨c :: cs, by rw [runes_step s hs, e, h]; rfl⟩

theorem Utf8.utf8_append (as bs : List Char) : utf8 (as ++ bs) = utf8 as ++ utf8 bs := by simp [utf8]
theorem Utf8.utf8_singleton (c : Char) : utf8 [c] = String.utf8EncodeChar c := by simp [utf8]

theorem Utf8.toNat_inj {a b : List Char} (h : a.map Char.toNat = b.map Char.toNat) : a = b := by
  induction a generalizing b with
  | nil => cases b with
    | nil => rfl
    | cons => simp at h
  | cons x a ih =>
    cases b with
    | nil => simp at h
    | cons y b =>
      simp only [List.map_cons, List.cons.injEq] at h
      rw [Char.toNat_inj.1 h.1, ih h.2]

theorem Utf8.utf8_inj {a b : List Char} (h : utf8 a = utf8 b) : a = b := by
  apply toNat_inj
  rw [← runes_utf8, ← runes_utf8, h]
end Gost
