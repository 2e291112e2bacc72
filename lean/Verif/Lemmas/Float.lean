import Verif.Model.Float
import Mathlib.Tactic.Linarith
import Mathlib.Tactic.Ring
/-
Lemmas about rounding to a binary format.
-/
namespace Gost
namespace Spec

/-- The magnitudes of a format. -/
def Rep (f : Format) (n : Nat) : Prop := ∃ m e, n = m * 2 ^ e ∧ m < 2 ^ f.prec ∧ f.emin ≤ e ∧ e ≤ f.emax

/-- `r` is a number of the format nearest to `n`. -/
def Nearest (f : Format) (n r : Nat) : Prop :=
  Rep f r ∧ (∀ r', Rep f r' → r < r' → 2 * n ≤ r + r') ∧ (∀ r', Rep f r' → r' < r → r + r' ≤ 2 * n)

/-- `r` is a number of the format nearest to the square root of `t`: compared with any other number r', the root is
on the side of r of (r + r')/2. -/
def NearestSqrt (f : Format) (t r : Nat) : Prop :=
  Rep f r ∧ (∀ r', Rep f r' → r < r' → 4 * t ≤ (r + r') * (r + r')) ∧
    (∀ r', Rep f r' → r' < r → (r + r') * (r + r') ≤ 4 * t)
end Spec

namespace Flt
open Spec

/-- A sensible format. -/
structure Ok (f : Format) : Prop where
  prec : 1 ≤ f.prec
  exp : f.emin ≤ f.emax

theorem f32_ok : Ok f32 := ⟨by decide, by decide⟩
theorem f64_ok : Ok f64 := ⟨by decide, by decide⟩

theorem pow_succ_pred {p : Nat} (h : 1 ≤ p) : 2 ^ p = 2 * 2 ^ (p - 1) := by
  obtain ⟨k, rfl⟩ : ∃ k, p = k + 1 := ⟨p - 1, by omega⟩
  simp [Nat.pow_succ]; omega

/-- The size of a number in last places. -/
theorem quo_bounds {f : Format} (hf : Ok f) (n : Nat) :
    n / 2 ^ ulpExp f n < 2 ^ f.prec ∧ (f.emin < ulpExp f n → 2 ^ (f.prec - 1) ≤ n / 2 ^ ulpExp f n) := by
  have hp : 0 < 2 ^ ulpExp f n := Nat.pow_pos (by decide)
  constructor
  · rw [Nat.div_lt_iff_lt_mul hp, ← Nat.pow_add]
    have h1 : n < 2 ^ (n.log2 + 1) := Nat.lt_log2_self
    refine Nat.lt_of_lt_of_le h1 (Nat.pow_le_pow_right (by decide) ?_)
    unfold ulpExp; omega
  · intro h
    rw [Nat.le_div_iff_mul_le hp, ← Nat.pow_add]
    have hl : ulpExp f n = n.log2 + 1 - f.prec := by unfold ulpExp at *; omega
    have hn : n ≠ 0 := by
      rintro rfl
      have := hf.prec
      have h0 : Nat.log2 0 = 0 := by decide
      rw [h0] at hl; omega
    have h1 : 2 ^ n.log2 ≤ n := Nat.log2_self_le hn
    refine Nat.le_trans (Nat.pow_le_pow_right (by decide) ?_) h1
    have := hf.prec
    omega

/-- The numbers of a format next to n are n rounded down and up to a last place. -/
theorem spacing {f : Format} (hf : Ok f) (n r : Nat) (hr : Rep f r) :
    (r ≤ n → r ≤ n / 2 ^ ulpExp f n * 2 ^ ulpExp f n) ∧ (n < r → (n / 2 ^ ulpExp f n + 1) * 2 ^ ulpExp f n ≤ r) := by
  obtain ⟨m, e, rfl, hm, he, -⟩ := hr
  obtain ⟨-, hq⟩ := quo_bounds hf n
  generalize hE : ulpExp f n = E at *
  have hp : 0 < 2 ^ E := Nat.pow_pos (by decide)
  by_cases hle : E ≤ e
  · have e1 : m * 2 ^ e = m * 2 ^ (e - E) * 2 ^ E := by
      rw [Nat.mul_assoc, ← Nat.pow_add]; congr 2; omega
    rw [e1]
    constructor
    · intro h
      exact Nat.mul_le_mul_right _ ((Nat.le_div_iff_mul_le hp).2 h)
    · intro h
      exact Nat.mul_le_mul_right _ ((Nat.div_lt_iff_lt_mul hp).2 h)
  · have hq := hq (by omega)
    have h1 : m * 2 ^ e ≤ 2 ^ (f.prec - 1) * 2 ^ E := by
      have a : m * 2 ^ e ≤ 2 ^ f.prec * 2 ^ e := Nat.mul_le_mul_right _ (by omega)
      have b : 2 ^ f.prec * 2 ^ e ≤ 2 ^ (f.prec - 1) * 2 ^ E := by
        rw [← Nat.pow_add, ← Nat.pow_add]
        have := hf.prec
        exact Nat.pow_le_pow_right (by decide) (by omega)
      omega
    have h2 : 2 ^ (f.prec - 1) * 2 ^ E ≤ n / 2 ^ E * 2 ^ E := Nat.mul_le_mul_right _ hq
    have h3 : n / 2 ^ E * 2 ^ E ≤ n := Nat.div_mul_le_self _ _
    exact ⟨fun _ => by omega, fun h => by omega⟩

/-- Last places are numbers of the format, if not too large. -/
theorem rep_quo {f : Format} (hf : Ok f) (n k : Nat) (hk : k = n / 2 ^ ulpExp f n ∨ k = n / 2 ^ ulpExp f n + 1)
    (hm : k * 2 ^ ulpExp f n ≤ maxMag f) : Rep f (k * 2 ^ ulpExp f n) := by
  obtain ⟨h1, h2⟩ := quo_bounds hf n
  have hmin : f.emin ≤ ulpExp f n := by unfold ulpExp; omega
  have hpp := pow_succ_pred hf.prec
  generalize hE : ulpExp f n = E at *
  generalize hQ : n / 2 ^ E = q at *
  have hmax : k * 2 ^ E < 2 ^ (f.prec + f.emax) := by
    refine Nat.lt_of_le_of_lt hm ?_
    unfold maxMag
    rw [Nat.pow_add]
    exact Nat.mul_lt_mul_of_pos_right (by have : 0 < 2 ^ f.prec := Nat.pow_pos (by decide); omega)
      (Nat.pow_pos (by decide))
  have hqk : q ≤ k := by omega
  by_cases hk2 : k < 2 ^ f.prec
  · refine ⟨k, E, rfl, hk2, hmin, ?_⟩
    by_cases hlt : f.emin < E
    · have h3 := h2 hlt
      have h4 : 2 ^ (f.prec - 1 + E) ≤ k * 2 ^ E := by
        rw [Nat.pow_add]; exact Nat.mul_le_mul_right _ (by omega)
      have h5 : 2 ^ (f.prec - 1 + E) < 2 ^ (f.prec + f.emax) := by omega
      have h6 := (Nat.pow_lt_pow_iff_right (by decide : 1 < 2)).1 h5
      have := hf.prec
      omega
    · have := hf.exp; omega
  · have hkp : k = 2 ^ f.prec := by omega
    refine ⟨2 ^ (f.prec - 1), E + 1, ?_, by have : 0 < 2 ^ (f.prec - 1) := Nat.pow_pos (by decide); omega, by omega, ?_⟩
    · rw [hkp, hpp, Nat.pow_succ]; ring
    · have h4 : k * 2 ^ E = 2 ^ (f.prec + E) := by rw [hkp, Nat.pow_add]
      have h7 : 2 ^ (f.prec + E) ≤ (2 ^ f.prec - 1) * 2 ^ f.emax := by rw [← h4]; exact hm
      by_contra hc
      have h8 : 2 ^ (f.prec + f.emax) ≤ 2 ^ (f.prec + E) := Nat.pow_le_pow_right (by decide) (by omega)
      have h9 : (2 ^ f.prec - 1) * 2 ^ f.emax < 2 ^ (f.prec + f.emax) := by
        rw [Nat.pow_add]
        exact Nat.mul_lt_mul_of_pos_right (by have : 0 < 2 ^ f.prec := Nat.pow_pos (by decide); omega)
          (Nat.pow_pos (by decide))
      omega

theorem rep_le_max {f : Format} (n : Nat) (h : Rep f n) : n ≤ maxMag f := by
  obtain ⟨m, e, rfl, hm, -, he⟩ := h
  unfold maxMag
  exact Nat.mul_le_mul (by omega) (Nat.pow_le_pow_right (by decide) he)

/-- roundMag is one of the two neighbours, with n on its side of the middle. -/
theorem roundMag_cases (f : Format) (n : Nat) :
    (roundMag f n = n / 2 ^ ulpExp f n * 2 ^ ulpExp f n ∧ 2 * n ≤ (2 * (n / 2 ^ ulpExp f n) + 1) * 2 ^ ulpExp f n) ∨
    (roundMag f n = (n / 2 ^ ulpExp f n + 1) * 2 ^ ulpExp f n ∧
      (2 * (n / 2 ^ ulpExp f n) + 1) * 2 ^ ulpExp f n ≤ 2 * n) := by
  unfold roundMag
  generalize 2 ^ ulpExp f n = u
  simp only []
  have hd := Nat.div_add_mod n u
  have e1 : (2 * (n / u) + 1) * u = 2 * (u * (n / u)) + u := by ring
  rw [e1]
  by_cases h1 : 2 * (n % u) < u
  · rw [if_pos h1]; exact Or.inl ⟨rfl, by omega⟩
  · rw [if_neg h1]
    by_cases h2 : u < 2 * (n % u)
    · rw [if_pos h2]; exact Or.inr ⟨rfl, by omega⟩
    · rw [if_neg h2]
      by_cases h3 : n / u % 2 = 0
      · rw [if_pos h3]; exact Or.inl ⟨rfl, by omega⟩
      · rw [if_neg h3]; exact Or.inr ⟨rfl, by omega⟩

/-- Rounding gives a nearest number of the format, unless it overflows. -/
theorem roundMag_nearest {f : Format} (hf : Ok f) (n : Nat) (hm : roundMag f n ≤ maxMag f) :
    Nearest f n (roundMag f n) := by
  have hu : 0 < 2 ^ ulpExp f n := Nat.pow_pos (by decide)
  have hlo : n / 2 ^ ulpExp f n * 2 ^ ulpExp f n ≤ n := Nat.div_mul_le_self _ _
  have hhi : n < (n / 2 ^ ulpExp f n + 1) * 2 ^ ulpExp f n := Nat.lt_mul_of_div_lt (by omega) hu
  rcases roundMag_cases f n with ⟨h, h'⟩ | ⟨h, h'⟩
  · rw [h] at hm ⊢
    refine ⟨rep_quo hf n _ (Or.inl rfl) hm, ?_, ?_⟩
    · intro r' hr hlt
      have hs := spacing hf n r' hr
      have hn : n < r' := by
        by_contra hc
        have := hs.1 (by omega); omega
      have h2 := hs.2 hn
      rw [Nat.add_mul] at h2 h'
      rw [Nat.mul_assoc] at h'
      omega
    · intro r' hr hlt; omega
  · rw [h] at hm ⊢
    refine ⟨rep_quo hf n _ (Or.inr rfl) hm, ?_, ?_⟩
    · intro r' hr hlt; omega
    · intro r' hr hlt
      have hs := spacing hf n r' hr
      have hn : r' ≤ n := by
        by_contra hc
        have := hs.2 (by omega); omega
      have h2 := hs.1 hn
      rw [Nat.add_mul] at h' ⊢
      rw [Nat.mul_assoc] at h'
      omega

/-- A number of the format is rounded to itself. -/
theorem roundMag_rep {f : Format} (hf : Ok f) (n : Nat) (h : Rep f n) : roundMag f n = n := by
  have hs := (spacing hf n n h).1 (Nat.le_refl _)
  have hlo : n / 2 ^ ulpExp f n * 2 ^ ulpExp f n ≤ n := Nat.div_mul_le_self _ _
  have hm : n % 2 ^ ulpExp f n = 0 := by
    have := Nat.div_add_mod n (2 ^ ulpExp f n)
    rw [Nat.mul_comm] at this
    omega
  have hu : 0 < 2 ^ ulpExp f n := Nat.pow_pos (by decide)
  unfold roundMag
  simp only [hm]
  rw [if_pos (by omega)]
  omega

theorem convert_rep {f : Format} (hf : Ok f) (s : Bool) (n : Nat) (h : Rep f n) : convert f (fin s n) = fin s n := by
  show (if maxMag f < roundMag f n then inf s else fin s (roundMag f n)) = fin s n
  rw [roundMag_rep hf n h, if_neg (by have := rep_le_max n h; omega)]

/-! ### Square root -/

theorem isqrt_spec (fuel n : Nat) (h : n < 4 ^ fuel) :
    isqrt fuel n * isqrt fuel n ≤ n ∧ n < (isqrt fuel n + 1) * (isqrt fuel n + 1) := by
  induction fuel generalizing n with
  | zero => simp at h; subst h; decide
  | succ fuel ih =>
    rw [isqrt]
    by_cases h0 : n = 0
    · rw [if_pos h0]; subst h0; decide
    · rw [if_neg h0]
      have h4 : n / 4 < 4 ^ fuel := by
        rw [Nat.div_lt_iff_lt_mul (by decide)]
        rw [Nat.pow_succ] at h; exact h
      obtain ⟨h1, h2⟩ := ih (n / 4) h4
      generalize isqrt fuel (n / 4) = s at *
      simp only []
      have e1 : 2 * s * (2 * s) = 4 * (s * s) := by ring
      have e2 : (2 * s + 1) * (2 * s + 1) = 4 * (s * s) + 4 * s + 1 := by ring
      have e3 : (2 * s + 1 + 1) * (2 * s + 1 + 1) = 4 * (s * s) + 8 * s + 4 := by ring
      have e4 : (s + 1) * (s + 1) = s * s + 2 * s + 1 := by ring
      by_cases hc : (2 * s + 1) * (2 * s + 1) ≤ n
      · rw [if_pos hc]
        exact ⟨hc, by omega⟩
      · rw [if_neg hc]
        exact ⟨by omega, by omega⟩

theorem isqrt_log2 (t : Nat) :
    isqrt (t.log2 + 1) t * isqrt (t.log2 + 1) t ≤ t ∧
      t < (isqrt (t.log2 + 1) t + 1) * (isqrt (t.log2 + 1) t + 1) := by
  apply isqrt_spec
  have h1 : t < 2 ^ (t.log2 + 1) := Nat.lt_log2_self
  exact Nat.lt_of_lt_of_le h1 (Nat.pow_le_pow_left (by decide) _)

theorem sq_le {a b : Nat} (h : a ≤ b) : a * a ≤ b * b := Nat.mul_le_mul h h
theorem sq_lt {a b : Nat} (h : a < b) : a * a < b * b := Nat.mul_lt_mul'' h h
theorem le_of_sq {a b : Nat} (h : a * a ≤ b * b) : a ≤ b := by
  by_contra hc
  have := sq_lt (Nat.lt_of_not_le hc); omega

/-- The rounded square root is a nearest number of the format, if the format is large enough. -/
theorem sqrtMag_nearest {f : Format} (hf : Ok f) (n : Nat) (hm : sqrtMag f n ≤ maxMag f) :
    NearestSqrt f (n * one) (sqrtMag f n) := by
  unfold sqrtMag at hm ⊢
  simp only [] at hm ⊢
  generalize n * one = t at *
  obtain ⟨h1, h2⟩ := isqrt_log2 t
  generalize isqrt (t.log2 + 1) t = s at *
  have hu : 0 < 2 ^ ulpExp f s := Nat.pow_pos (by decide)
  have hlo : s / 2 ^ ulpExp f s * 2 ^ ulpExp f s ≤ s := Nat.div_mul_le_self _ _
  have hhi : s < (s / 2 ^ ulpExp f s + 1) * 2 ^ ulpExp f s := Nat.lt_mul_of_div_lt (by omega) hu
  have rq := fun k => rep_quo hf s k
  have sp := fun r => spacing hf s r
  generalize 2 ^ ulpExp f s = u at *
  generalize s / u = q at *
  have emid : (2 * q + 1) * u = q * u + (q + 1) * u := by ring
  have a1 := sq_le hlo
  have a2 : t < (q + 1) * u * ((q + 1) * u) := Nat.lt_of_lt_of_le h2 (sq_le hhi)
  have main1 : q * u ≤ maxMag f → 4 * t ≤ (2 * q + 1) * u * ((2 * q + 1) * u) → NearestSqrt f t (q * u) := by
    intro hmx hle
    refine ⟨rq q (Or.inl rfl) hmx, ?_, ?_⟩
    · intro r' hr hlt
      have hs : s < r' := by
        by_contra hc
        have := (sp r' hr).1 (by omega); omega
      have h3 := (sp r' hr).2 hs
      exact Nat.le_trans hle (sq_le (by omega))
    · intro r' hr hlt
      have b1 : (q * u + r') * (q * u + r') ≤ (2 * (q * u)) * (2 * (q * u)) := sq_le (by omega)
      have b2 : (2 * (q * u)) * (2 * (q * u)) = 4 * (q * u * (q * u)) := by ring
      omega
  have main2 : (q + 1) * u ≤ maxMag f → (2 * q + 1) * u * ((2 * q + 1) * u) ≤ 4 * t →
      NearestSqrt f t ((q + 1) * u) := by
    intro hmx hle
    refine ⟨rq (q + 1) (Or.inr rfl) hmx, ?_, ?_⟩
    · intro r' hr hlt
      have b1 : (2 * ((q + 1) * u)) * (2 * ((q + 1) * u)) ≤ ((q + 1) * u + r') * ((q + 1) * u + r') := sq_le (by omega)
      have b2 : (2 * ((q + 1) * u)) * (2 * ((q + 1) * u)) = 4 * ((q + 1) * u * ((q + 1) * u)) := by ring
      omega
    · intro r' hr hlt
      have hs : r' ≤ s := by
        by_contra hc
        have := (sp r' hr).2 (by omega); omega
      have h3 := (sp r' hr).1 hs
      exact Nat.le_trans (sq_le (by omega)) hle
  by_cases c1 : 4 * t < (2 * q + 1) * u * ((2 * q + 1) * u)
  · rw [if_pos c1] at hm ⊢; exact main1 hm (by omega)
  · rw [if_neg c1] at hm ⊢
    by_cases c2 : (2 * q + 1) * u * ((2 * q + 1) * u) < 4 * t
    · rw [if_pos c2] at hm ⊢; exact main2 hm (by omega)
    · rw [if_neg c2] at hm ⊢
      by_cases c3 : q % 2 = 0
      · rw [if_pos c3] at hm ⊢; exact main1 hm (by omega)
      · rw [if_neg c3] at hm ⊢; exact main2 hm (by omega)

/-- A number of the format below (above) the root is below (above) the rounded root. -/
theorem sqrtMag_bounds {f : Format} (hf : Ok f) (n r : Nat) (hr : Rep f r) :
    (r * r ≤ n * one → r ≤ sqrtMag f n) ∧ (n * one < r * r → sqrtMag f n ≤ r) := by
  unfold sqrtMag
  simp only []
  generalize n * one = t at *
  obtain ⟨h1, h2⟩ := isqrt_log2 t
  generalize isqrt (t.log2 + 1) t = s at *
  have sp := spacing hf s r hr
  generalize 2 ^ ulpExp f s = u at *
  generalize s / u = q at *
  have e : (q + 1) * u = q * u + u := by ring
  constructor
  · intro h
    have hrs : r ≤ s := by
      by_contra hc
      have := sq_le (show s + 1 ≤ r by omega); omega
    have h3 := sp.1 hrs
    split <;> (try split) <;> (try split) <;> omega
  · intro h
    have hrs : s < r := by
      by_contra hc
      have := sq_le (show r ≤ s by omega); omega
    have h3 := sp.2 hrs
    split <;> (try split) <;> (try split) <;> omega

/-- If the root of a number with few bits is rounded to the middle of two numbers of half the precision, it was that
middle. -/
theorem tie_exact (t x j M g : Nat) (ht : t = x * 2 ^ j) (hx : x < 2 ^ 24) (hM1 : 2 ^ 24 ≤ M) (hM2 : M < 2 ^ 25)
    (hg1 : 28 ≤ g) (hg2 : g ≤ 2000) (h : NearestSqrt f64 t (M * 2 ^ g)) : t = M * 2 ^ g * (M * 2 ^ g) := by
  have hv : 0 < 2 ^ (g - 28) := Nat.pow_pos (by decide)
  have eg : 2 ^ g = 2 ^ 28 * 2 ^ (g - 28) := by rw [← Nat.pow_add]; congr 1; omega
  have e2g : 2 ^ (2 * g) = 2 ^ g * 2 ^ g := by rw [← Nat.pow_add]; congr 1; omega
  have rep : ∀ k, k < 2 ^ 53 → Rep f64 (k * 2 ^ (g - 28)) := fun k hk =>
    ⟨k, g - 28, rfl, hk, Nat.zero_le _, by show g - 28 ≤ 2045; omega⟩
  -- t is a multiple of 2^(2g)
  have mult : 2 * g ≤ j → ∃ X, t = X * (2 ^ g * 2 ^ g) := fun hj =>
    ⟨x * 2 ^ (j - 2 * g), by rw [ht, ← e2g, Nat.mul_assoc, ← Nat.pow_add]; congr 2; omega⟩
  have hMM : 2 ^ 48 ≤ M * M := by
    have := sq_le hM1
    omega
  have hbig : 2 ^ (48 + 2 * g) ≤ M * M * (2 ^ g * 2 ^ g) := by
    rw [Nat.pow_add, e2g]; exact Nat.mul_le_mul_right _ hMM
  have htl : t < 2 ^ (24 + j) := by
    rw [ht, Nat.pow_add]; exact Nat.mul_lt_mul_of_pos_right hx (Nat.pow_pos (by decide))
  have emid : M * 2 ^ g * (M * 2 ^ g) = M * M * (2 ^ g * 2 ^ g) := by ring
  rcases Nat.lt_trichotomy t (M * 2 ^ g * (M * 2 ^ g)) with hlt | heq | hgt
  · exfalso
    have hr := h.2.2 ((M * 2 ^ 28 - 1) * 2 ^ (g - 28)) (rep _ (by omega)) (by
      rw [eg, ← Nat.mul_assoc]; exact Nat.mul_lt_mul_of_pos_right (by omega) hv)
    obtain ⟨K, hK⟩ : ∃ K, M * 2 ^ 28 = K + 1 := ⟨M * 2 ^ 28 - 1, by omega⟩
    have hj : 2 * g ≤ j := by
      by_contra hc
      have b1 : M * 2 ^ g * (M * 2 ^ g) ≤ 4 * t := Nat.le_trans (sq_le (by omega)) hr
      have b2 : 4 * t < 2 ^ (26 + j) := by
        have : 2 ^ (26 + j) = 4 * 2 ^ (24 + j) := by
          rw [show 26 + j = 2 + (24 + j) by omega, Nat.pow_add]
        omega
      have b3 : 2 ^ (48 + 2 * g) < 2 ^ (26 + j) := by omega
      have := (Nat.pow_lt_pow_iff_right (by decide : 1 < 2)).1 b3
      omega
    obtain ⟨X, hX⟩ := mult hj
    have hXM : X < M * M := by
      rw [emid, hX] at hlt
      exact Nat.lt_of_mul_lt_mul_right hlt
    rw [hX, eg] at hr
    generalize 2 ^ (g - 28) = v at *
    have e3 : M * (2 ^ 28 * v) + (M * 2 ^ 28 - 1) * v = (2 * K + 1) * v := by
      rw [← Nat.mul_assoc, hK]; simp only [Nat.add_sub_cancel]; ring
    rw [e3] at hr
    have e4 : (2 * K + 1) * v * ((2 * K + 1) * v) = (4 * (K * K) + 4 * K + 1) * (v * v) := by ring
    have e5 : 4 * (X * (2 ^ 28 * v * (2 ^ 28 * v))) = (4 * X * 2 ^ 56) * (v * v) := by ring
    rw [e4, e5] at hr
    have hr := Nat.le_of_mul_le_mul_right hr (Nat.mul_pos hv hv)
    have e6 : (K + 1) * (K + 1) = K * K + 2 * K + 1 := by ring
    have e7 : (M * 2 ^ 28) * (M * 2 ^ 28) = M * M * 2 ^ 56 := by ring
    rw [hK, e6] at e7
    generalize M * M = P at *
    generalize K * K = Q at *
    omega
  · exact heq
  · exfalso
    have hr := h.2.1 ((M * 2 ^ 28 + 1) * 2 ^ (g - 28)) (rep _ (by omega)) (by
      rw [eg, ← Nat.mul_assoc]; exact Nat.mul_lt_mul_of_pos_right (by omega) hv)
    have hj : 2 * g ≤ j := by
      by_contra hc
      have b3 : 2 ^ (48 + 2 * g) < 2 ^ (24 + j) := by omega
      have := (Nat.pow_lt_pow_iff_right (by decide : 1 < 2)).1 b3
      omega
    obtain ⟨X, hX⟩ := mult hj
    have hXM : M * M < X := by
      rw [emid, hX] at hgt
      exact Nat.lt_of_mul_lt_mul_right hgt
    rw [hX, eg] at hr
    generalize 2 ^ (g - 28) = v at *
    have e3 : M * (2 ^ 28 * v) + (M * 2 ^ 28 + 1) * v = (M * 2 ^ 29 + 1) * v := by ring
    rw [e3] at hr
    have e4 : (M * 2 ^ 29 + 1) * v * ((M * 2 ^ 29 + 1) * v) = (M * M * 2 ^ 58 + M * 2 ^ 30 + 1) * (v * v) := by ring
    have e5 : 4 * (X * (2 ^ 28 * v * (2 ^ 28 * v))) = (4 * X * 2 ^ 56) * (v * v) := by ring
    rw [e4, e5] at hr
    have hr := Nat.le_of_mul_le_mul_right hr (Nat.mul_pos hv hv)
    generalize M * M = P at *
    omega
end Flt
end Gost
