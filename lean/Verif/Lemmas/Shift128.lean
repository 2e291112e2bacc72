import Verif.Lemmas.I128
/-
Where the 128-bit shifts of /repo/bitwise.go are exact.
-/
namespace Gost
open Ints Cmp Spec

theorem pow_split {k : Nat} (h : k ≤ 64) : 2 ^ k * 2 ^ (64 - k) = (2 : Nat) ^ 64 := by
  rw [← Nat.pow_add]; congr 1; omega

theorem pow_ge_four {k : Nat} (h : 2 ≤ k) : 4 ≤ (2 : Nat) ^ k := by
  obtain ⟨m, rfl⟩ : ∃ m, k = m + 2 := ⟨k - 2, by omega⟩
  rw [Nat.pow_add]
  have := Nat.two_pow_pos m
  omega

theorem goShl_toNat (x s : BitVec 64) : (goShl x s).toNat = x.toNat * 2 ^ s.toNat % 2 ^ 64 := by
  unfold goShl
  rw [BitVec.toNat_shiftLeft, Nat.shiftLeft_eq]

/-- The shift amounts and low halves for which `Shl` is exact. -/
def ShlExact (low k : Nat) : Prop :=
  k = 1 ∨ (k = 0 ∧ low < 2 ^ 63) ∨ (2 ≤ k ∧ k < 64 ∧ low < 2 ^ (64 - k)) ∨
  (64 ≤ k ∧ low < 2 ^ 63 ∧ low % 2 ^ (128 - k) = 0)

theorem U128.shl_eq (a b : U128) : (a.shl b).val =
    (a.high.toNat * 2 ^ b.low.toNat % 2 ^ 64 + (if 2 ^ 63 ≤ a.low.toNat then 1 else 0)) % 2 ^ 64 * 2 ^ 64 +
      a.low.toNat * 2 ^ b.low.toNat % 2 ^ 64 := by
  have hs := shr63_eq a.low
  unfold U128.shl U128.val
  simp only
  by_cases h : 2 ^ 63 ≤ a.low.toNat
  · rw [if_pos (hs.2 h), if_pos h, goShl_toNat, BitVec.toNat_add, goShl_toNat, toNat_one64]
  · rw [if_neg (fun h' => h (hs.1 h')), if_neg h, goShl_toNat, goShl_toNat, Nat.add_zero, Nat.mod_mod]

/-- Exact domain of the left shift, on numbers. -/
theorem shl_core (h l k : Nat) (_hh : h < 2 ^ 64) (hl : l < 2 ^ 64) (hk : k < 128) :
    ((h * 2 ^ k % 2 ^ 64 + (if 2 ^ 63 ≤ l then 1 else 0)) % 2 ^ 64 * 2 ^ 64 + l * 2 ^ k % 2 ^ 64 =
      (h * 2 ^ 64 + l) * 2 ^ k % 2 ^ 128) ↔ ShlExact l k := by
  rcases Nat.lt_or_ge k 2 with h2 | h2
  · rcases (by omega : k = 0 ∨ k = 1) with rfl | rfl
    · rw [show ShlExact l 0 ↔ l < 2 ^ 63 by unfold ShlExact; omega]
      simp only [Nat.pow_zero, Nat.mul_one]
      split
      · exact iff_of_false (by omega) (by omega)
      · exact iff_of_true (by omega) (by omega)
    · rw [show ShlExact l 1 ↔ True from iff_of_true (Or.inl rfl) trivial]
      simp only [Nat.pow_one]
      refine iff_of_true ?_ trivial
      split <;> omega
  rcases Nat.lt_or_ge k 64 with h3 | h3
  · rw [show ShlExact l k ↔ l < 2 ^ (64 - k) by unfold ShlExact; omega]
    have hpq := pow_split (k := k) (by omega)
    have hp := pow_ge_four h2
    have hq : (2 : Nat) ^ (64 - k) ≤ 2 ^ 62 := Nat.pow_le_pow_right (by omega) (by omega)
    have hq0 : 0 < (2 : Nat) ^ (64 - k) := Nat.two_pow_pos _
    generalize hP : (2 : Nat) ^ k = p at *
    generalize hQ : (2 : Nat) ^ (64 - k) = q at *
    have hd := Nat.div_add_mod l q
    have hdl := Nat.mod_lt l hq0
    generalize l / q = c at *
    generalize l % q = d at *
    have e1 : l * p = c * 2 ^ 64 + d * p := by
      rw [← hd, Nat.add_mul, ← hpq, Nat.mul_comm q c, Nat.mul_assoc, Nat.mul_comm q p]
    have e2 : d * p < 2 ^ 64 := by
      rw [← hpq, Nat.mul_comm p q]
      exact (Nat.mul_lt_mul_right (by omega)).2 hdl
    have e3 : (h * 2 ^ 64 + l) * p = (h * p) * 2 ^ 64 + (c * 2 ^ 64 + d * p) := by
      rw [Nat.add_mul, e1, Nat.mul_assoc, Nat.mul_comm (2 ^ 64) p, Nat.mul_assoc]
    have e4 : q * c ≤ l := by omega
    have hc64 : c < 2 ^ 64 := by
      have : 1 * c ≤ q * c := Nat.mul_le_mul_right _ hq0
      omega
    rw [e3, e1]
    generalize h * p = X at *
    generalize d * p = D at *
    have hcz : l < q ↔ c = 0 := by
      constructor
      · intro hlq
        rcases Nat.eq_zero_or_pos c with h0 | h0
        · exact h0
        · have : q * 1 ≤ q * c := Nat.mul_le_mul_left _ h0
          omega
      · rintro rfl; omega
    have hct : 2 ^ 63 ≤ l → 2 ≤ c := by
      intro hl'
      rcases Nat.lt_or_ge c 2 with h0 | h0
      · have : q * c ≤ q * 1 := Nat.mul_le_mul_left _ (by omega)
        omega
      · exact h0
    split
    · have := hct (by assumption)
      omega
    · omega
  · rw [show ShlExact l k ↔ l < 2 ^ 63 ∧ l % 2 ^ (128 - k) = 0 by unfold ShlExact; omega]
    obtain ⟨j, rfl⟩ : ∃ j, k = 64 + j := ⟨k - 64, by omega⟩
    have hrq := pow_split (k := j) (by omega)
    rw [show 128 - (64 + j) = 64 - j by omega]
    have hr0 : 0 < (2 : Nat) ^ j := Nat.two_pow_pos _
    have hq0 : 0 < (2 : Nat) ^ (64 - j) := Nat.two_pow_pos _
    have hone : (2 : Nat) ^ j = 1 → j = 0 := by
      intro h
      rcases Nat.eq_zero_or_pos j with h0 | h0
      · exact h0
      · have := Nat.pow_le_pow_right (by omega : 0 < 2) h0
        omega
    rw [Nat.pow_add]
    generalize hR : (2 : Nat) ^ j = r at *
    have hq1 : r = 1 → (2 : Nat) ^ (64 - j) = 2 ^ 64 := by
      intro h; rw [hone h]
    generalize hQ : (2 : Nat) ^ (64 - j) = q at *
    have hd := Nat.div_add_mod l q
    have hdl := Nat.mod_lt l hq0
    generalize l / q = c at *
    generalize l % q = d at *
    have e1 : l * r = c * 2 ^ 64 + d * r := by
      rw [← hd, Nat.add_mul, ← hrq, Nat.mul_comm q c, Nat.mul_assoc, Nat.mul_comm q r]
    have e2 : d * r < 2 ^ 64 := by
      rw [← hrq, Nat.mul_comm r q]
      exact (Nat.mul_lt_mul_right (by omega)).2 hdl
    have e3 : (h * 2 ^ 64 + l) * (2 ^ 64 * r) = (h * r) * 2 ^ 128 + (c * 2 ^ 128 + d * r * 2 ^ 64) := by
      rw [Nat.mul_comm (2 ^ 64) r, ← Nat.mul_assoc, Nat.add_mul, Nat.add_mul, e1, Nat.mul_assoc h,
        Nat.mul_comm (2 ^ 64) r, ← Nat.mul_assoc]
      omega
    have e4 : l * (2 ^ 64 * r) % 2 ^ 64 = 0 := by
      rw [Nat.mul_comm (2 ^ 64) r, ← Nat.mul_assoc]; exact Nat.mul_mod_left _ _
    have e5 : h * (2 ^ 64 * r) % 2 ^ 64 = 0 := by
      rw [Nat.mul_comm (2 ^ 64) r, ← Nat.mul_assoc]; exact Nat.mul_mod_left _ _
    rw [e3, e4, e5]
    have hdr : d * r = 1 → d = 1 ∧ r = 1 := fun h =>
      ⟨Nat.dvd_one.1 ⟨r, h.symm⟩, Nat.dvd_one.1 ⟨d, by rw [Nat.mul_comm]; exact h.symm⟩⟩
    have hdz : d * r = 0 ↔ d = 0 := by
      constructor
      · intro h; rcases Nat.mul_eq_zero.1 h with h | h <;> omega
      · rintro rfl; omega
    generalize h * r = X at *
    generalize d * r = D at *
    split
    · rename_i ht
      constructor
      · intro h
        have hD : D = 1 := by omega
        have h1 := hdr hD
        have h2 := hq1 h1.2
        have : c = 0 := by
          rcases Nat.eq_zero_or_pos c with h0 | h0
          · exact h0
          · have : q * 1 ≤ q * c := Nat.mul_le_mul_left _ h0
            omega
        subst this
        omega
      · intro h; omega
    · rename_i ht
      have hXD : (X * 2 ^ 128 + (c * 2 ^ 128 + D * 2 ^ 64)) % 2 ^ 128 = D * 2 ^ 64 := by omega
      rw [hXD]
      clear e1 e2 e3 e4 e5 hXD
      simp only [Nat.add_zero, Nat.zero_mod, Nat.zero_mul]
      constructor
      · intro h
        exact ⟨by omega, hdz.1 (by omega)⟩
      · intro h
        have : D = 0 := hdz.2 h.2
        omega

theorem U128.shl_val_iff (a b : U128) (hb : b.val < 128) :
    (a.shl b).val = a.val * 2 ^ b.val % 2 ^ 128 ↔ ShlExact a.low.toNat b.val := by
  have h1 := a.high.isLt
  have h2 := a.low.isLt
  have h3 : b.low.toNat = b.val := by
    have := b.low.isLt
    unfold U128.val at *; omega
  rw [shl_eq, h3]
  exact shl_core _ _ _ h1 h2 hb

/-- The shift amounts and high halves for which `Shr` is exact (`high` as a number, signed for
I128). -/
def ShrExact (high : Int) (low k : Nat) : Prop :=
  k = 1 ∨ (k = 0 ∧ (high % 2 = 0 ∨ 2 ^ 63 ≤ low)) ∨ (2 ≤ k ∧ k < 64 ∧ high % 2 ^ k = 0) ∨
  (64 ≤ k ∧ high % 2 = 0 ∧ 0 ≤ high ∧ high < 2 ^ (k - 64))

theorem or_top' (x : BitVec 64) (h : 2 ^ 63 ≤ x.toNat) : (x ||| (1#64 <<< 63)).toNat = x.toNat := by
  have hx := x.isLt
  rw [BitVec.toNat_or]
  have e : (1#64 <<< 63).toNat = 2 ^ 63 := by decide
  rw [e, Nat.or_comm]
  have h1 := Nat.two_pow_add_eq_or_of_lt (i := 63) (b := x.toNat - 2 ^ 63) (by omega) 1
  rw [Nat.mul_one] at h1
  have h2 : x.toNat = 2 ^ 63 ||| (x.toNat - 2 ^ 63) := by rw [← h1]; omega
  have h3 : 2 ^ 63 ||| x.toNat = 2 ^ 63 ||| (2 ^ 63 ||| (x.toNat - 2 ^ 63)) := congrArg _ h2
  rw [← Nat.or_assoc, Nat.or_self, ← h2] at h3
  exact h3

/-- Exact domain of the right shift, on numbers. -/
theorem shr_core (H : Int) (l : BitVec 64) (k : Nat) (h1 : -(2 : Int) ^ 63 ≤ H) (h2 : H < 2 ^ 64)
    (hk : k < 128) :
    ((H / (2 : Int) ^ k) * (2 : Int) ^ 64 +
      ((if H % 2 = 1 then (l >>> k) ||| (1#64 <<< 63) else l >>> k).toNat : Int) =
      (H * 2 ^ 64 + l.toNat) / (2 : Int) ^ k) ↔ ShrExact H l.toNat k := by
  have hl := l.isLt
  have esh : (l >>> k).toNat = l.toNat / 2 ^ k := by
    rw [BitVec.toNat_ushiftRight, Nat.shiftRight_eq_div_pow]
  rcases Nat.lt_or_ge k 2 with hk2 | hk2
  · rcases (by omega : k = 0 ∨ k = 1) with rfl | rfl
    · rw [show ShrExact H l.toNat 0 ↔ H % 2 = 0 ∨ 2 ^ 63 ≤ l.toNat by unfold ShrExact; omega]
      simp only [Int.pow_zero, Int.ediv_one, Nat.pow_zero, Nat.div_one] at *
      split
      · rcases Nat.lt_or_ge (l >>> 0).toNat (2 ^ 63) with h | h
        · rw [or_top _ h]; exact iff_of_false (by omega) (by omega)
        · rw [or_top' _ h, esh]; exact iff_of_true rfl (by omega)
      · rw [esh]; exact iff_of_true rfl (by omega)
    · rw [show ShrExact H l.toNat 1 ↔ True from iff_of_true (Or.inl rfl) trivial]
      simp only [Int.pow_one, Nat.pow_one] at *
      refine iff_of_true ?_ trivial
      split
      · rw [or_top _ (by omega)]; omega
      · omega
  have hp0 : (0 : Int) < 2 ^ k := Int.pow_pos (by decide)
  have hp0' : (0 : Nat) < 2 ^ k := Nat.two_pow_pos k
  have hp4 := pow_ge_four hk2
  have hsmall : (l >>> k).toNat < 2 ^ 63 := by
    rw [esh]
    have : l.toNat / 2 ^ k ≤ l.toNat / 4 := Nat.div_le_div_left hp4 (by omega)
    omega
  have hval : ((if H % 2 = 1 then (l >>> k) ||| (1#64 <<< 63) else l >>> k).toNat : Int) =
      (l.toNat / 2 ^ k : Nat) + (if H % 2 = 1 then 2 ^ 63 else 0) := by
    split
    · rw [or_top _ hsmall, esh]; exact Int.natCast_add ..
    · rw [esh]; omega
  rw [hval]
  rcases Nat.lt_or_ge k 64 with h3 | h3
  · rw [show ShrExact H l.toNat k ↔ H % 2 ^ k = 0 by unfold ShrExact; omega]
    have hpq := pow_split (k := k) (by omega)
    have hpq' : (2 : Int) ^ k * 2 ^ (64 - k) = 2 ^ 64 := by exact_mod_cast hpq
    have hq : (2 : Nat) ^ (64 - k) ≤ 2 ^ 62 := Nat.pow_le_pow_right (by omega) (by omega)
    have hq' : (2 : Int) ^ (64 - k) ≤ 2 ^ 62 := by exact_mod_cast hq
    have hq0 : (0 : Int) < 2 ^ (64 - k) := Int.pow_pos (by decide)
    have hev : ∃ m : Int, (2 : Int) ^ k = 4 * m ∧ (2 : Int) ^ 63 = 2 * m * 2 ^ (64 - k) := by
      refine ⟨2 ^ (k - 2), ?_, ?_⟩
      · rw [show k = (k - 2) + 2 by omega, Int.pow_add]; simp; omega
      · have : (2 : Int) ^ 63 = 2 ^ (1 + (k - 2) + (64 - k)) := by congr 1; omega
        rw [this, Int.pow_add, Int.pow_add]; simp
    obtain ⟨m, hm1, hm2⟩ := hev
    have hlp : ((l.toNat / 2 ^ k : Nat) : Int) = (l.toNat : Int) / 2 ^ k := by simp
    rw [hlp]
    generalize hP : (2 : Int) ^ k = p at *
    generalize hQ : (2 : Int) ^ (64 - k) = q at *
    have hd := Int.mul_ediv_add_emod H p
    have hd0 := Int.emod_nonneg H (show p ≠ 0 by omega)
    have hd1 := Int.emod_lt_of_pos H hp0
    have e1 : (H * 2 ^ 64 + l.toNat) / p = H * q + (l.toNat : Int) / p := by
      rw [← hpq', show H * (p * q) = (H * q) * p by rw [Int.mul_assoc, Int.mul_comm p q],
        Int.add_comm, Int.add_mul_ediv_right _ _ (by omega), Int.add_comm]
    have e2 : H * q = H / p * 2 ^ 64 + H % p * q := by
      conv => lhs; rw [← hd]
      rw [Int.add_mul, ← hpq', Int.mul_comm p (H / p), Int.mul_assoc]
    rw [e1, e2]
    generalize hC : H / p = C at *
    generalize hc : H % p = c at *
    have hz : c * q = 0 ↔ c = 0 := by
      constructor
      · intro h; rcases Int.mul_eq_zero.1 h with h | h <;> omega
      · rintro rfl; simp
    have hpar : H % 2 = c % 2 := by
      have : H = 2 * (2 * m * C) + c := by
        rw [← hd, hm1]
        have : 4 * m * C = 2 * (2 * m * C) := by
          rw [Int.mul_assoc, Int.mul_assoc]; omega
        omega
      omega
    have hodd : c * q = 2 ^ 63 → c % 2 = 0 := by
      intro h
      rw [hm2] at h
      have := Int.eq_of_mul_eq_mul_right (by omega) h
      omega
    split
    · constructor
      · intro h
        have := hodd (by omega)
        omega
      · intro h; omega
    · constructor
      · intro h; exact hz.1 (by omega)
      · intro h
        have : c * q = 0 := hz.2 h
        omega
  · rw [show ShrExact H l.toNat k ↔ H % 2 = 0 ∧ 0 ≤ H ∧ H < 2 ^ (k - 64) by unfold ShrExact; omega]
    obtain ⟨j, rfl⟩ : ∃ j, k = 64 + j := ⟨k - 64, by omega⟩
    rw [show 64 + j - 64 = j by omega]
    have hl0 : l.toNat / 2 ^ (64 + j) = 0 := by
      apply Nat.div_eq_of_lt
      rw [Nat.pow_add]
      have := Nat.two_pow_pos j
      have : 2 ^ 64 * 1 ≤ 2 ^ 64 * 2 ^ j := Nat.mul_le_mul_left _ this
      omega
    rw [hl0]
    have hr0 : (0 : Int) < 2 ^ j := Int.pow_pos (by decide)
    have hpa : (2 : Int) ^ (64 + j) = 2 ^ 64 * 2 ^ j := Int.pow_add ..
    rw [hpa]
    generalize hR : (2 : Int) ^ j = r at *
    have e1 : H / (2 ^ 64 * r) = H / r / 2 ^ 64 := by
      rw [Int.mul_comm, Int.ediv_ediv_of_nonneg (by omega)]
    have e2 : (H * 2 ^ 64 + l.toNat) / (2 ^ 64 * r) = H / r := by
      rw [← Int.ediv_ediv_of_nonneg (by decide : (0 : Int) ≤ 2 ^ 64)]
      congr 1
      omega
    rw [e1, e2]
    have hd := Int.mul_ediv_add_emod H r
    have hd0 := Int.emod_nonneg H (show r ≠ 0 by omega)
    have hd1 := Int.emod_lt_of_pos H hr0
    generalize hD : H / r = D at *
    generalize hc : H % r = c at *
    have hDlo : -(2 : Int) ^ 63 ≤ D := by
      rcases Int.lt_or_le D (-(2 : Int) ^ 63) with h | h
      · exfalso
        have : r * D ≤ r * (-(2 : Int) ^ 63 - 1) := Int.mul_le_mul_of_nonneg_left (by omega) (by omega)
        omega
      · exact h
    have hDhi : D < (2 : Int) ^ 64 := by
      rcases Int.lt_or_le D ((2 : Int) ^ 64) with h | h
      · exact h
      · exfalso
        have : r * (2 : Int) ^ 64 ≤ r * D := Int.mul_le_mul_of_nonneg_left h (by omega)
        omega
    have hDz : D = 0 ↔ 0 ≤ H ∧ H < r := by
      constructor
      · rintro rfl; omega
      · rintro ⟨g1, g2⟩
        rw [← hD]; exact Int.ediv_eq_zero_of_lt g1 g2
    have hodd : D % 2 ^ 64 = 2 ^ 63 → H % 2 = 0 := by
      intro hh
      rcases (by omega : r = 1 ∨ 2 ≤ r) with h | h
      · subst h; omega
      · exfalso
        rcases (by omega : D = 2 ^ 63 ∨ D = -(2 : Int) ^ 63) with h' | h'
        · subst h'
          omega
        · subst h'
          omega
    split
    · constructor
      · intro h; have := hodd (by omega); omega
      · intro h; omega
    · constructor
      · intro h
        have : D = 0 := by omega
        have := hDz.1 this
        exact ⟨by omega, this⟩
      · intro h
        have : D = 0 := hDz.2 h.2
        omega

theorem U128.shr_val_iff (a b : U128) (hb : b.val < 128) :
    (a.shr b).val = a.val / 2 ^ b.val ↔ ShrExact a.high.toNat a.low.toNat b.val := by
  have h1 := a.high.isLt
  have h3 : b.low.toNat = b.val := by
    have := b.low.isLt
    unfold U128.val at *; omega
  rw [← shr_core a.high.toNat a.low b.val (by omega) (by omega) hb]
  have hodd := and_one_eq a.high
  have e : (a.shr b).val = a.high.toNat / 2 ^ b.val * 2 ^ 64 +
      (if ((a.high.toNat : Int) % 2 = 1) then (a.low >>> b.val) ||| (1#64 <<< 63)
        else a.low >>> b.val).toNat := by
    unfold U128.shr
    conv => lhs; unfold U128.val
    simp only [goUShr, h3, BitVec.toNat_ushiftRight, Nat.shiftRight_eq_div_pow]
    congr 2
    by_cases h : a.high.toNat % 2 = 1
    · rw [if_pos (hodd.2 h), if_pos (by omega)]
    · rw [if_neg (fun h' => h (hodd.1 h')), if_neg (by omega)]
  rw [e, U128.val.eq_1 a]
  generalize (if ((a.high.toNat : Int) % 2 = 1) then (a.low >>> b.val) ||| (1#64 <<< 63)
        else a.low >>> b.val).toNat = x
  have e2 : ((a.high.toNat : Int) / 2 ^ b.val) = ((a.high.toNat / 2 ^ b.val : Nat) : Int) := by simp
  have e3 : ((a.high.toNat : Int) * 2 ^ 64 + a.low.toNat) / 2 ^ b.val =
      (((a.high.toNat * 2 ^ 64 + a.low.toNat) / 2 ^ b.val : Nat) : Int) := by simp
  rw [e2, e3]
  omega

theorem I128.shr_val_iff (a b : I128) (hb0 : 0 ≤ b.val) (hb : b.val < 128) :
    (a.shr b).val = a.val / 2 ^ b.val.toNat ↔ ShrExact a.high.toInt a.low.toNat b.val.toNat := by
  have h1 := a.high.isLt
  have hc := hi_cases a.high
  have h3 : b.low.toNat = b.val.toNat := by
    have := b.low_toNat; omega
  rw [← shr_core a.high.toInt a.low b.val.toNat (by omega) (by omega) (by omega)]
  have hodd := and_one_eq a.high
  have e : (a.shr b).val = a.high.toInt / 2 ^ b.val.toNat * 2 ^ 64 +
      (if (a.high.toInt % 2 = 1) then (a.low >>> b.val.toNat) ||| (1#64 <<< 63)
        else a.low >>> b.val.toNat).toNat := by
    unfold I128.shr
    conv => lhs; unfold I128.val
    simp only [goUShr, goSShr, h3, BitVec.toInt_sshiftRight, Int.shiftRight_eq_div_pow]
    push_cast
    congr 3
    by_cases h : a.high.toNat % 2 = 1
    · rw [if_pos (hodd.2 h), if_pos (by omega)]
    · rw [if_neg (fun h' => h (hodd.1 h')), if_neg (by omega)]
  rw [e]
  exact Iff.rfl

end Gost
