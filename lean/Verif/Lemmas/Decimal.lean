import Verif.Spec.Decimal
/-
Facts about decimal numerals: the formatting contract yields canonical numerals, the numeral of a
number is unique and parsing inverts formatting.
-/
namespace Gost.Dec
open Gost.Spec

theorem digit_toNat {d : Nat} (h : d < 10) : (digit d).toNat = 48 + d := by
  unfold digit
  simp only [UInt8.toNat_ofNat']
  omega

theorem formatNat_ne_nil (n : Nat) : formatNat n ≠ [] := by
  unfold formatNat; split <;> simp

theorem numeralValue_snoc (s : GoStr) (b : UInt8) :
    numeralValue (s ++ [b]) = numeralValue s * 10 + (b.toNat - 48) := by
  simp [numeralValue]

theorem formatNat_value (n : Nat) : numeralValue (formatNat n) = n := by
  induction n using Nat.strongRecOn with
  | _ n ih =>
    unfold formatNat
    split
    · rename_i h
      simp [numeralValue, digit_toNat h]
    · rename_i h
      rw [numeralValue_snoc, ih (n / 10) (by omega), digit_toNat (by omega)]
      omega

theorem formatNat_digits (n : Nat) : ∀ b ∈ formatNat n, 48 ≤ b.toNat ∧ b.toNat ≤ 57 := by
  induction n using Nat.strongRecOn with
  | _ n ih =>
    unfold formatNat
    split
    · rename_i h
      intro b hb
      simp only [List.mem_singleton] at hb
      subst hb
      rw [digit_toNat h]; omega
    · rename_i h
      intro b hb
      rw [List.mem_append, List.mem_singleton] at hb
      rcases hb with hb | hb
      · exact ih (n / 10) (by omega) b hb
      · subst hb
        rw [digit_toNat (by omega)]; omega

theorem formatNat_head (n : Nat) : (formatNat n).head? = some 48 → n = 0 := by
  induction n using Nat.strongRecOn with
  | _ n ih =>
    unfold formatNat
    split
    · rename_i h
      intro hb
      simp only [List.head?_cons, Option.some.injEq] at hb
      have := congrArg UInt8.toNat hb
      rw [digit_toNat h] at this
      have h48 : (48 : UInt8).toNat = 48 := by decide
      omega
    · rename_i h
      intro hb
      have hne := formatNat_ne_nil (n / 10)
      rw [List.head?_append] at hb
      cases hf : formatNat (n / 10) with
      | nil => exact absurd hf hne
      | cons c cs =>
        have := ih (n / 10) (by omega) (by rw [hf] at hb ⊢; simpa using hb)
        omega

theorem formatNat_zero : formatNat 0 = [48] := by
  unfold formatNat; decide

/-- The formatting contract produces the canonical numeral. -/
theorem formatNat_isNumeral (n : Nat) : IsNumeral (formatNat n) n := by
  refine ⟨formatNat_ne_nil n, formatNat_digits n, ?_, formatNat_value n⟩
  intro h
  rw [formatNat_head n h, formatNat_zero]

theorem foldl_acc (s : GoStr) (acc : Nat) :
    s.foldl (fun acc b => acc * 10 + (b.toNat - 48)) acc = acc * 10 ^ s.length + numeralValue s := by
  induction s generalizing acc with
  | nil => simp [numeralValue]
  | cons b s ih =>
    unfold numeralValue
    simp only [List.foldl_cons, List.length_cons]
    rw [ih, ih (0 * 10 + (b.toNat - 48)), Nat.pow_succ, Nat.add_mul, Nat.add_mul]
    simp only [Nat.mul_assoc, Nat.zero_mul, Nat.zero_add, Nat.mul_comm 10]
    omega

theorem numeralValue_lt (s : GoStr) (h : ∀ b ∈ s, 48 ≤ b.toNat ∧ b.toNat ≤ 57) :
    numeralValue s < 10 ^ s.length := by
  induction s with
  | nil => simp [numeralValue]
  | cons b s ih =>
    have h1 := ih fun c hc => h c (List.mem_cons_of_mem _ hc)
    have h2 := h b (List.mem_cons_self ..)
    unfold numeralValue
    simp only [List.foldl_cons, List.length_cons]
    rw [foldl_acc, Nat.pow_succ]
    have h3 : (0 * 10 + (b.toNat - 48)) * 10 ^ s.length ≤ 9 * 10 ^ s.length :=
      Nat.mul_le_mul_right _ (by omega)
    omega

/-- A digit sequence is determined by its length and value. -/
theorem numeral_ext {s t : GoStr} (hs : ∀ b ∈ s, 48 ≤ b.toNat ∧ b.toNat ≤ 57)
    (ht : ∀ b ∈ t, 48 ≤ b.toNat ∧ b.toNat ≤ 57) (hl : s.length = t.length)
    (hv : numeralValue s = numeralValue t) : s = t := by
  induction s generalizing t with
  | nil => cases t with
    | nil => rfl
    | cons => simp at hl
  | cons b s ih =>
    cases t with
    | nil => simp at hl
    | cons c t =>
      have hl' : s.length = t.length := by simpa using hl
      have h1 := numeralValue_lt s fun c hc => hs c (List.mem_cons_of_mem _ hc)
      have h2 := numeralValue_lt t fun c hc => ht c (List.mem_cons_of_mem _ hc)
      have hb := hs b (List.mem_cons_self ..)
      have hc := ht c (List.mem_cons_self ..)
      have e1 : numeralValue (b :: s) = (b.toNat - 48) * 10 ^ s.length + numeralValue s := by
        have := foldl_acc s (0 * 10 + (b.toNat - 48))
        rw [Nat.zero_mul, Nat.zero_add] at this
        unfold numeralValue at *
        simpa using this
      have e2 : numeralValue (c :: t) = (c.toNat - 48) * 10 ^ t.length + numeralValue t := by
        have := foldl_acc t (0 * 10 + (c.toNat - 48))
        rw [Nat.zero_mul, Nat.zero_add] at this
        unfold numeralValue at *
        simpa using this
      rw [e1, e2, hl'] at hv
      rw [hl'] at h1
      have hp : 0 < 10 ^ t.length := Nat.pow_pos (by omega)
      have hq : b.toNat - 48 = c.toNat - 48 := by
        have q1 : ((b.toNat - 48) * 10 ^ t.length + numeralValue s) / 10 ^ t.length = b.toNat - 48 := by
          rw [Nat.add_comm, Nat.add_mul_div_right _ _ hp, Nat.div_eq_of_lt h1, Nat.zero_add]
        have q2 : ((c.toNat - 48) * 10 ^ t.length + numeralValue t) / 10 ^ t.length = c.toNat - 48 := by
          rw [Nat.add_comm, Nat.add_mul_div_right _ _ hp, Nat.div_eq_of_lt h2, Nat.zero_add]
        rw [← q1, ← q2, hv]
      have hbc : b = c := UInt8.toNat_inj.1 (by omega)
      have hvv : numeralValue s = numeralValue t := by rw [hq] at hv; omega
      rw [hbc, ih (fun c hc => hs c (List.mem_cons_of_mem _ hc))
        (fun c hc => ht c (List.mem_cons_of_mem _ hc)) hl' hvv]

theorem numeralValue_ge {s : GoStr} {n : Nat} (h : IsNumeral s n) (hn : n ≠ 0) :
    10 ^ (s.length - 1) ≤ n := by
  obtain ⟨h1, h2, h3, h4⟩ := h
  cases s with
  | nil => exact absurd rfl h1
  | cons b s =>
    have hb := h2 b (List.mem_cons_self ..)
    have hb0 : b.toNat ≠ 48 := by
      intro hb'
      have : b = 48 := UInt8.toNat_inj.1 hb'
      have h5 := h3 (by rw [this]; rfl)
      rw [h5] at h4
      exact hn (by rw [← h4]; decide)
    have e1 : numeralValue (b :: s) = (b.toNat - 48) * 10 ^ s.length + numeralValue s := by
      have := foldl_acc s (0 * 10 + (b.toNat - 48))
      rw [Nat.zero_mul, Nat.zero_add] at this
      unfold numeralValue at *
      simpa using this
    have : 1 * 10 ^ s.length ≤ (b.toNat - 48) * 10 ^ s.length := Nat.mul_le_mul_right _ (by omega)
    simp only [List.length_cons, Nat.add_sub_cancel]
    omega

/-- The canonical numeral of a number is unique. -/
theorem IsNumeral.unique {s t : GoStr} {n : Nat} (hs : IsNumeral s n) (ht : IsNumeral t n) : s = t := by
  by_cases hn : n = 0
  · subst hn
    have key : ∀ s : GoStr, IsNumeral s 0 → s = [48] := by
      rintro s ⟨h1, h2, h3, h4⟩
      cases s with
      | nil => exact absurd rfl h1
      | cons b s =>
        have hb := h2 b (List.mem_cons_self ..)
        have e1 : numeralValue (b :: s) = (b.toNat - 48) * 10 ^ s.length + numeralValue s := by
          have := foldl_acc s (0 * 10 + (b.toNat - 48))
          rw [Nat.zero_mul, Nat.zero_add] at this
          unfold numeralValue at *
          simpa using this
        have hp : 0 < 10 ^ s.length := Nat.pow_pos (by omega)
        have hz : (b.toNat - 48) * 10 ^ s.length = 0 := by omega
        have : b.toNat - 48 = 0 := by
          rcases Nat.mul_eq_zero.1 hz with h | h <;> omega
        have hb' : b = 48 := UInt8.toNat_inj.1 (by have : (48 : UInt8).toNat = 48 := by decide
                                                   omega)
        exact h3 (by rw [hb']; rfl)
    rw [key s hs, key t ht]
  · have g1 := numeralValue_ge hs hn
    have g2 := numeralValue_ge ht hn
    have l1 := numeralValue_lt s hs.2.1
    have l2 := numeralValue_lt t ht.2.1
    rw [hs.2.2.2] at l1
    rw [ht.2.2.2] at l2
    have p1 : s.length - 1 < t.length :=
      (Nat.pow_lt_pow_iff_right (by omega : 1 < 10)).1 (Nat.lt_of_le_of_lt g1 l2)
    have p2 : t.length - 1 < s.length :=
      (Nat.pow_lt_pow_iff_right (by omega : 1 < 10)).1 (Nat.lt_of_le_of_lt g2 l1)
    exact numeral_ext hs.2.1 ht.2.1 (by omega) (by rw [hs.2.2.2, ht.2.2.2])

theorem parseDigits_of_digits (s : GoStr) (h : ∀ b ∈ s, 48 ≤ b.toNat ∧ b.toNat ≤ 57) (acc : Nat) :
    parseDigits s acc = some (s.foldl (fun acc b => acc * 10 + (b.toNat - 48)) acc) := by
  induction s generalizing acc with
  | nil => rfl
  | cons b s ih =>
    have hb := h b (List.mem_cons_self ..)
    simp only [parseDigits, digitVal, if_pos hb, List.foldl_cons]
    exact ih (fun c hc => h c (List.mem_cons_of_mem _ hc)) _

/-- Parsing a canonical numeral returns its value. -/
theorem parseNat_numeral {s : GoStr} {n : Nat} (h : IsNumeral s n) : parseNat s = some n := by
  obtain ⟨h1, h2, _, h4⟩ := h
  cases s with
  | nil => exact absurd rfl h1
  | cons b s =>
    simp only [parseNat]
    rw [parseDigits_of_digits _ h2]
    rw [show n = numeralValue (b :: s) from h4.symm]
    rfl

theorem parseInt_numeral {s : GoStr} {i : Int} (h : IsSignedNumeral s i) : parseInt s = some i := by
  rcases h with ⟨h0, h⟩ | ⟨h0, t, rfl, h⟩
  · have hp := parseNat_numeral h
    cases s with
    | nil => exact absurd rfl h.1
    | cons b s =>
      have hb := h.2.1 b (List.mem_cons_self ..)
      have b1 : b ≠ 45 := by rintro rfl; revert hb; decide
      have b2 : b ≠ 43 := by rintro rfl; revert hb; decide
      simp only [parseInt, if_neg b1, if_neg b2, hp]
      show some ((i.toNat : Nat) : Int) = some i
      rw [Int.toNat_of_nonneg h0]
  · simp only [parseInt, if_true, parseNat_numeral h]
    show some (-(((-i).toNat : Nat) : Int)) = some i
    rw [Int.toNat_of_nonneg (by omega), Int.neg_neg]

theorem formatInt_isSignedNumeral (i : Int) : IsSignedNumeral (formatInt i) i := by
  unfold formatInt IsSignedNumeral
  split
  · rename_i h
    right
    refine ⟨h, _, rfl, ?_⟩
    have := formatNat_isNumeral i.natAbs
    rwa [show (-i).toNat = i.natAbs by omega]
  · rename_i h
    left
    refine ⟨by omega, ?_⟩
    have := formatNat_isNumeral i.natAbs
    rwa [show i.toNat = i.natAbs by omega]

/-- The signed numeral of a number is unique. -/
theorem IsSignedNumeral.unique {s t : GoStr} {i : Int} (hs : IsSignedNumeral s i)
    (ht : IsSignedNumeral t i) : s = t := by
  rcases hs with ⟨h, hs⟩ | ⟨h, s', rfl, hs⟩ <;> rcases ht with ⟨h', ht⟩ | ⟨h', t', rfl, ht⟩
  · exact IsNumeral.unique hs ht
  · omega
  · omega
  · rw [IsNumeral.unique hs ht]

theorem IsSignedNumeral.val_unique {s : GoStr} {i j : Int} (hs : IsSignedNumeral s i)
    (ht : IsSignedNumeral s j) : i = j := by
  have h1 := parseInt_numeral hs
  have h2 := parseInt_numeral ht
  rw [h1] at h2
  exact Option.some.inj h2

theorem parseInt_formatInt (i : Int) : parseInt (formatInt i) = some i :=
  parseInt_numeral (formatInt_isSignedNumeral i)

end Gost.Dec
