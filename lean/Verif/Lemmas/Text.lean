import Verif.Lemmas.Utf8
import Verif.Model.Text
/-
Lemmas about decoding from either end of a string.
-/
namespace Gost
open Spec Utf8

theorem Utf8.mk_char (n : Nat) (hn : n < 0xD800 ∨ (0xDFFF < n ∧ n < 0x110000)) : ∃ c : Char, n = c.toNat := by
  refine ⟨Char.ofNat n, ?_⟩
  have : n.isValidChar := hn
  simp [Char.ofNat, this, Char.ofNatAux, Char.toNat]

theorem Utf8.ofNat_eq (n : Nat) (b : UInt8) (h : n = b.toNat) : UInt8.ofNat n = b := by
  subst h; simp

/-- A string begins with an encoded character or decodes to (U+FFFD, 1). -/
theorem Utf8.decode_cases (s : GoStr) (hs : s ≠ []) :
    decodeRune s = (runeError, 1) ∨ ∃ (c : Char) (t : GoStr), s = String.utf8EncodeChar c ++ t := by
  have mk : ∀ n : Nat, (n < 0xD800 ∨ (0xDFFF < n ∧ n < 0x110000)) → ∀ t, s = encodeRune n ++ t →
      ∃ (c : Char) (t : GoStr), s = String.utf8EncodeChar c ++ t := by
    intro n hn t e
    obtain ⟨c, rfl⟩ := mk_char n hn
    exact ⟨c, t, by rw [← encodeRune_char]; exact e⟩
  cases s with
  | nil => exact absurd rfl hs
  | cons b0 t =>
    have h0 := b0.toNat_lt
    simp only [decodeRune]
    by_cases h1 : b0.toNat < 0x80
    · right
      refine mk b0.toNat (by omega) t ?_
      rw [encodeRune, if_pos (by omega), ofNat_eq _ b0 rfl]; rfl
    rw [if_neg h1]
    by_cases h2 : b0.toNat < 0xC2
    · rw [if_pos h2]; exact .inl rfl
    rw [if_neg h2]
    by_cases h3 : b0.toNat < 0xE0
    · rw [if_pos h3]
      cases t with
      | nil => exact .inl rfl
      | cons b1 t =>
        simp only
        by_cases hb : inRange 0x80 0xBF b1 = true
        · right
          rw [inRange_iff] at hb
          refine mk (b0.toNat % 32 * 64 + b1.toNat % 64) (by omega) t ?_
          rw [encodeRune, if_neg (by omega), if_pos (by omega), ofNat_eq _ b0 (by omega), ofNat_eq _ b1 (by omega)]
          rfl
        · rw [if_neg hb]; exact .inl rfl
    rw [if_neg h3]
    by_cases h4 : b0.toNat < 0xF0
    · rw [if_pos h4]
      match t, mk with
      | [], _ => exact .inl rfl
      | [_], _ => exact .inl rfl
      | b1 :: b2 :: t, mk =>
        simp only
        cases hb : (inRange (if b0.toNat = 0xE0 then 0xA0 else 0x80) (if b0.toNat = 0xED then 0x9F else 0xBF) b1 &&
            inRange 0x80 0xBF b2) with
        | false => rw [if_neg (by decide)]; exact .inl rfl
        | true =>
          right
          rw [Bool.and_eq_true, inRange_iff, inRange_iff] at hb
          obtain ⟨⟨l1, u1⟩, l2, u2⟩ := hb
          have l1' : 0x80 ≤ b1.toNat ∧ (b0.toNat = 0xE0 → 0xA0 ≤ b1.toNat) := by split at l1 <;> omega
          have u1' : b1.toNat ≤ 0xBF ∧ (b0.toNat = 0xED → b1.toNat ≤ 0x9F) := by split at u1 <;> omega
          refine mk (b0.toNat % 16 * 4096 + b1.toNat % 64 * 64 + b2.toNat % 64) (by omega) t ?_
          rw [encodeRune, if_neg (by omega), if_neg (by omega), if_neg (by omega), if_pos (by omega),
            ofNat_eq _ b0 (by omega), ofNat_eq _ b1 (by omega), ofNat_eq _ b2 (by omega)]
          rfl
    rw [if_neg h4]
    by_cases h5 : b0.toNat < 0xF5
    · rw [if_pos h5]
      match t, mk with
      | [], _ => exact .inl rfl
      | [_], _ => exact .inl rfl
      | [_, _], _ => exact .inl rfl
      | b1 :: b2 :: b3 :: t, mk =>
        simp only
        cases hb : (inRange (if b0.toNat = 0xF0 then 0x90 else 0x80) (if b0.toNat = 0xF4 then 0x8F else 0xBF) b1 &&
            inRange 0x80 0xBF b2 && inRange 0x80 0xBF b3) with
        | false => rw [if_neg (by decide)]; exact .inl rfl
        | true =>
          right
          rw [Bool.and_eq_true, Bool.and_eq_true, inRange_iff, inRange_iff, inRange_iff] at hb
          obtain ⟨⟨⟨l1, u1⟩, l2, u2⟩, l3, u3⟩ := hb
          have l1' : 0x80 ≤ b1.toNat ∧ (b0.toNat = 0xF0 → 0x90 ≤ b1.toNat) := by split at l1 <;> omega
          have u1' : b1.toNat ≤ 0xBF ∧ (b0.toNat = 0xF4 → b1.toNat ≤ 0x8F) := by split at u1 <;> omega
          refine mk (b0.toNat % 8 * 262144 + b1.toNat % 64 * 4096 + b2.toNat % 64 * 64 + b3.toNat % 64)
            (by omega) t ?_
          rw [encodeRune, if_neg (by omega), if_neg (by omega), if_neg (by omega), if_neg (by omega),
            ofNat_eq _ b0 (by omega), ofNat_eq _ b1 (by omega), ofNat_eq _ b2 (by omega), ofNat_eq _ b3 (by omega)]
          rfl
    rw [if_neg h5]; exact .inl rfl

/-- The shape of an encoded character: a byte below 0x80, or a start byte and one to three continuation bytes. -/
theorem Utf8.encode_shape (c : Char) :
    (∃ b : UInt8, String.utf8EncodeChar c = [b] ∧ b.toNat = c.toNat ∧ b.toNat < 0x80) ∨
    (∃ (b0 b : UInt8) (m : GoStr), String.utf8EncodeChar c = b0 :: (m ++ [b]) ∧ m.length ≤ 2 ∧
      ∀ x ∈ m ++ [b], 0x80 ≤ x.toNat ∧ x.toNat ≤ 0xBF) := by
  rw [← encodeRune_char]
  have hr := char_range c
  unfold encodeRune
  by_cases h1 : c.toNat ≤ 0x7F
  · rw [if_pos h1]; left
    exact ⟨_, rfl, toNat_ofNat _ (by omega), by rw [toNat_ofNat _ (by omega)]; omega⟩
  right
  rw [if_neg h1]
  have cont : ∀ n : Nat, n < 64 → 0x80 ≤ (UInt8.ofNat (0x80 + n)).toNat ∧ (UInt8.ofNat (0x80 + n)).toNat ≤ 0xBF := by
    intro n hn; rw [toNat_ofNat _ (by omega)]; omega
  by_cases h2 : c.toNat ≤ 0x7FF
  · rw [if_pos h2]
    refine ⟨_, _, [], rfl, by simp, ?_⟩
    intro x hx
    simp only [List.nil_append, List.mem_singleton] at hx
    subst hx; exact cont _ (by omega)
  rw [if_neg h2, if_neg (by omega)]
  by_cases h3 : c.toNat ≤ 0xFFFF
  · rw [if_pos h3]
    refine ⟨_, _, [UInt8.ofNat (0x80 + c.toNat / 64 % 64)], rfl, by simp, ?_⟩
    intro x hx
    simp only [List.cons_append, List.nil_append, List.mem_cons, List.not_mem_nil, or_false] at hx
    rcases hx with rfl | rfl <;> exact cont _ (by omega)
  · rw [if_neg h3]
    refine ⟨_, _, [UInt8.ofNat (0x80 + c.toNat / 4096 % 64), UInt8.ofNat (0x80 + c.toNat / 64 % 64)], rfl, by simp, ?_⟩
    intro x hx
    simp only [List.cons_append, List.nil_append, List.mem_cons, List.not_mem_nil, or_false] at hx
    rcases hx with rfl | rfl | rfl <;> exact cont _ (by omega)

theorem Utf8.lastBytes_append (s t : GoStr) : lastBytes (s ++ t) t.length = t := by
  simp [lastBytes]

theorem Utf8.decode_continues (b : UInt8) (t : GoStr) (h : 0x80 ≤ b.toNat ∧ b.toNat ≤ 0xBF) :
    decodeRune (b :: t) = (runeError, 1) := by
  simp only [decodeRune]
  rw [if_neg (by omega), if_pos (by omega)]

/-- The last rune of a string that ends with an encoded character. -/
theorem Utf8.decodeLast_char (s : GoStr) (c : Char) :
    decodeLastRune (s ++ String.utf8EncodeChar c) = (c.toNat, (String.utf8EncodeChar c).length) := by
  have hd : decodeRune (String.utf8EncodeChar c) = (c.toNat, (String.utf8EncodeChar c).length) := by
    have := decode_char c []
    rwa [List.append_nil] at this
  rcases encode_shape c with ⟨b, e, hb, hlt⟩ | ⟨b0, b, m, e, hm, hc⟩
  · rw [e]
    simp only [decodeLastRune, List.getLast?_append, List.getLast?_singleton, Option.some_or]
    rw [if_pos hlt, hb]; rfl
  · have hl : (s ++ String.utf8EncodeChar c).getLast? = some b := by
      rw [e, show s ++ b0 :: (m ++ [b]) = (s ++ b0 :: m) ++ [b] by simp, List.getLast?_append]
      simp
    have hb := hc b (by simp)
    rw [decodeLastRune, hl]
    simp only
    rw [if_neg (by omega)]
    have hall : lastBytes (s ++ String.utf8EncodeChar c) (String.utf8EncodeChar c).length = String.utf8EncodeChar c :=
      lastBytes_append _ _
    have hlen : (s ++ String.utf8EncodeChar c).length = s.length + (String.utf8EncodeChar c).length := by simp
    have bad : ∀ p x q, String.utf8EncodeChar c = p ++ x :: q → x ∈ m ++ [b] →
        ¬ ((q.length + 1) ≠ 1 ∧ (decodeRune (lastBytes (s ++ String.utf8EncodeChar c) (q.length + 1))).2 = q.length + 1) := by
      intro p x q he hx hh
      have := lastBytes_append (s ++ p) (x :: q)
      rw [he, ← List.append_assoc] at hh
      simp only [List.length_cons] at this
      rw [this, decode_continues x q (hc x hx)] at hh
      exact hh.1 hh.2.symm
    match m, hm with
    | [], _ =>
      have h2 : (String.utf8EncodeChar c).length = 2 := by rw [e]; rfl
      rw [h2] at hall hd ⊢
      rw [hall, hd, if_pos ⟨by omega, rfl⟩]
    | [x], _ =>
      have h2 : (String.utf8EncodeChar c).length = 3 := by rw [e]; rfl
      rw [if_neg (fun h => bad [b0] x [b] e (by simp) ⟨by simp, h.2⟩)]
      rw [h2] at hall hd ⊢
      rw [hall, hd, if_pos ⟨by omega, rfl⟩]
    | [x, y], _ =>
      have h2 : (String.utf8EncodeChar c).length = 4 := by rw [e]; rfl
      rw [if_neg (fun h => bad [b0, x] y [b] e (by simp) ⟨by simp, h.2⟩),
        if_neg (fun h => bad [b0] x [y, b] e (by simp) ⟨by simp, h.2⟩)]
      rw [h2] at hall hd ⊢
      rw [hall, hd, if_pos ⟨by omega, rfl⟩]
    | _ :: _ :: _ :: _, hm => simp at hm

/-- A string ends with an encoded character or its last rune is U+FFFD, of size 1. -/
theorem Utf8.decodeLast_cases (s : GoStr) (hs : s ≠ []) :
    decodeLastRune s = (runeError, 1) ∨ ∃ (t : GoStr) (c : Char), s = t ++ String.utf8EncodeChar c := by
  have try_k : ∀ k, 2 ≤ k → k ≤ s.length → (decodeRune (lastBytes s k)).2 = k →
      ∃ (t : GoStr) (c : Char), s = t ++ String.utf8EncodeChar c := by
    intro k h2 hk hd
    have hlen : (lastBytes s k).length = k := by simp [lastBytes]; omega
    have hsplit : s = s.take (s.length - k) ++ lastBytes s k := (List.take_append_drop _ _).symm
    rcases decode_cases (lastBytes s k) (by intro h; rw [h] at hlen; simp at hlen; omega) with h | ⟨c, t, h⟩
    · rw [h] at hd; simp only at hd; omega
    · have hd' := decode_char c t
      rw [← h] at hd'
      rw [hd'] at hd
      simp only at hd
      have : t = [] := by
        rw [h, List.length_append] at hlen
        exact List.length_eq_zero_iff.1 (by omega)
      subst this
      rw [List.append_nil] at h
      exact ⟨_, c, by rw [← h]; exact hsplit⟩
  obtain ⟨l, b, rfl⟩ : ∃ l b, s = l ++ [b] := ⟨s.dropLast, s.getLast hs, (List.dropLast_concat_getLast hs).symm⟩
  have hl : (l ++ [b]).getLast? = some b := by simp
  rw [decodeLastRune, hl]
  simp only
  by_cases hb : b.toNat < 0x80
  · right
    obtain ⟨c, hc⟩ := mk_char b.toNat (by omega)
    refine ⟨l, c, ?_⟩
    rw [← encodeRune_char, encodeRune, if_pos (by omega), ofNat_eq _ b hc.symm]
  rw [if_neg hb]
  by_cases h2 : 2 ≤ (l ++ [b]).length ∧ (decodeRune (lastBytes (l ++ [b]) 2)).2 = 2
  · exact .inr (try_k 2 (by omega) h2.1 h2.2)
  rw [if_neg h2]
  by_cases h3 : 3 ≤ (l ++ [b]).length ∧ (decodeRune (lastBytes (l ++ [b]) 3)).2 = 3
  · exact .inr (try_k 3 (by omega) h3.1 h3.2)
  rw [if_neg h3]
  by_cases h4 : 4 ≤ (l ++ [b]).length ∧ (decodeRune (lastBytes (l ++ [b]) 4)).2 = 4
  · exact .inr (try_k 4 (by omega) h4.1 h4.2)
  rw [if_neg h4]; exact .inl rfl
end Gost
