import Verif.Props.Complex
import Mathlib.Algebra.Order.Field.Rat
import Mathlib.Algebra.Order.Ring.Abs
import Mathlib.Tactic.FieldSimp
import Mathlib.Tactic.Positivity
/-
Property C145, the error of a quotient of complex numbers.
-/
namespace Gost
open Spec Flt

attribute [local irreducible] Flt.one Flt.maxMag

namespace Flt
/-! ### Smith's algorithm with relative errors -/

theorem rel_exists {x y u : ℚ} (hu : 0 ≤ u) (h : |x - y| ≤ u * |y|) : ∃ δ, |δ| ≤ u ∧ x = y * (1 + δ) := by
  by_cases hy : y = 0
  · subst hy
    have : x = 0 := by
      have : |x| ≤ 0 := by simpa using h
      exact abs_eq_zero.1 (le_antisymm this (abs_nonneg x))
    exact ⟨0, by simpa using hu, by simp [this]⟩
  · refine ⟨(x - y) / y, ?_, by field_simp; ring⟩
    rw [abs_div]
    exact (div_le_iff₀ (abs_pos.2 hy)).2 h

theorem two_rel {x y u : ℚ} (hx : |x| ≤ u) (hy : |y| ≤ u) : |x + y + x * y| ≤ 2 * u + u * u := by
  have h1 := abs_add_le (x + y) (x * y)
  have h2 := abs_add_le x y
  have h3 : |x * y| ≤ u * u := by
    rw [abs_mul]; exact mul_le_mul hx hy (abs_nonneg _) (le_trans (abs_nonneg _) hx)
  linarith

/-- One part of Smith's quotient. -/
theorem smith_core {a b c d r t n p s e u : ℚ} (hu0 : 0 ≤ u) (hu : u ≤ 1 / 4096) (hc : c ≠ 0)
    (hr : |r - d / c| ≤ u * |d / c|) (ht : |t - r * d| ≤ u * |r * d|) (hn : |n - (c + t)| ≤ u * |c + t|)
    (hp : |p - b * r| ≤ u * |b * r|) (hs : |s - (a + p)| ≤ u * |a + p|) (he : |e - s / n| ≤ u * |s / n|) :
    |e * (c * c + d * d) - (a * c + b * d)| ≤ (5 + 1 / 64) * u * |a * c + b * d| + (2 + 1 / 64) * u * |b * d| := by
  obtain ⟨δ1, h1, rfl⟩ := rel_exists hu0 hr
  obtain ⟨δ2, h2, rfl⟩ := rel_exists hu0 ht
  obtain ⟨δ3, h3, rfl⟩ := rel_exists hu0 hn
  obtain ⟨δ4, h4, rfl⟩ := rel_exists hu0 hp
  obtain ⟨δ5, h5, rfl⟩ := rel_exists hu0 hs
  obtain ⟨δ6, h6, rfl⟩ := rel_exists hu0 he
  have hD : 0 < c * c + d * d := by
    have := mul_self_pos.2 hc
    have := mul_self_nonneg d
    linarith
  -- the denominator
  obtain ⟨θ, hθ, eθ⟩ : ∃ θ, |θ| ≤ 2 * u + u * u ∧
      c * (c + d / c * (1 + δ1) * d * (1 + δ2)) = (c * c + d * d) * (1 + θ) := by
    refine ⟨d * d * (δ1 + δ2 + δ1 * δ2) / (c * c + d * d), ?_, by field_simp; ring⟩
    rw [abs_div, abs_of_pos hD, abs_mul, abs_of_nonneg (mul_self_nonneg d), div_le_iff₀ hD]
    have := two_rel h1 h2
    calc d * d * |δ1 + δ2 + δ1 * δ2| ≤ (c * c + d * d) * (2 * u + u * u) := by
          apply mul_le_mul _ this (abs_nonneg _) (le_of_lt hD)
          have := mul_self_nonneg c; linarith
      _ = _ := by ring
  set φ := δ1 + δ4 + δ1 * δ4 with hφ
  have hφ' : |φ| ≤ 2 * u + u * u := two_rel h1 h4
  have hu2 : u * u ≤ u * (1 / 4096) := mul_le_mul_of_nonneg_left hu hu0
  have b3 := abs_le.1 h3
  have bθ := abs_le.1 hθ
  have p3 : 0 < 1 + δ3 := by linarith
  have pθ : 0 < 1 + θ := by linarith
  set ψ := (1 + δ5) * (1 + δ6) / ((1 + θ) * (1 + δ3)) - 1 with hψ
  have hψ' : |ψ| ≤ (5 + 1 / 64) * u := by
    have e : ψ = ((δ5 + δ6 + δ5 * δ6) - (θ + δ3 + θ * δ3)) / ((1 + θ) * (1 + δ3)) := by
      rw [hψ]; field_simp; ring
    have pp := mul_pos pθ p3
    rw [e, abs_div, abs_of_pos pp, div_le_iff₀ pp]
    have g1 := two_rel h5 h6
    have g2 : |θ + δ3 + θ * δ3| ≤ 3 * u + u * (1 / 1024) := by
      have k1 := abs_add_le (θ + δ3) (θ * δ3)
      have k2 := abs_add_le θ δ3
      have k3 : |θ * δ3| ≤ (2 * u + u * u) * (1 / 4096) := by
        rw [abs_mul]; exact mul_le_mul hθ (le_trans h3 hu) (abs_nonneg _) (by positivity)
      linarith
    have g3 := abs_sub (δ5 + δ6 + δ5 * δ6) (θ + δ3 + θ * δ3)
    have g4 : 1 - 1 / 1024 ≤ (1 + θ) * (1 + δ3) := by
      have := (abs_le.1 g2).1
      have e : (1 + θ) * (1 + δ3) = 1 + (θ + δ3 + θ * δ3) := by ring
      rw [e]; linarith
    have g5 : (5 + 1 / 64) * u * (1 - 1 / 1024) ≤ (5 + 1 / 64) * u * ((1 + θ) * (1 + δ3)) :=
      mul_le_mul_of_nonneg_left g4 (by positivity)
    linarith
  have key : (a + b * (d / c * (1 + δ1)) * (1 + δ4)) * (1 + δ5) / ((c + d / c * (1 + δ1) * d * (1 + δ2)) * (1 + δ3)) *
      (1 + δ6) * (c * c + d * d) = (a * c + b * d + b * d * φ) * (1 + ψ) := by
    have h0 : c + d / c * (1 + δ1) * d * (1 + δ2) = (c * c + d * d) * (1 + θ) / c := by
      rw [← eθ]; field_simp
    rw [h0, hφ, hψ]
    field_simp
    ring
  rw [key]
  have e : (a * c + b * d + b * d * φ) * (1 + ψ) - (a * c + b * d) = (a * c + b * d) * ψ + b * d * (φ * (1 + ψ)) := by ring
  rw [e]
  have g1 := abs_add_le ((a * c + b * d) * ψ) (b * d * (φ * (1 + ψ)))
  rw [abs_mul, abs_mul (b * d)] at g1
  have g2 : |a * c + b * d| * |ψ| ≤ |a * c + b * d| * ((5 + 1 / 64) * u) := mul_le_mul_of_nonneg_left hψ' (abs_nonneg _)
  have g3 : |φ * (1 + ψ)| ≤ (2 + 1 / 64) * u := by
    rw [abs_mul]
    have k1 := abs_add_le 1 ψ
    rw [abs_one] at k1
    have k2 : |1 + ψ| ≤ 1 + 1 / 512 := by linarith
    have : |φ| * |1 + ψ| ≤ (2 * u + u * u) * (1 + 1 / 512) := mul_le_mul hφ' k2 (abs_nonneg _) (by positivity)
    linarith
  have g4 : |b * d| * |φ * (1 + ψ)| ≤ |b * d| * ((2 + 1 / 64) * u) := mul_le_mul_of_nonneg_left g3 (abs_nonneg _)
  linarith

theorem sq_bound {x α β : ℚ} (h : |x| ≤ α + β) (hα : 0 ≤ α) (hβ : 0 ≤ β) : x * x ≤ 2 * (α * α) + 2 * (β * β) := by
  have h1 : x * x = |x| * |x| := (abs_mul_abs_self x).symm
  have h2 : |x| * |x| ≤ (α + β) * (α + β) := mul_le_mul h h (abs_nonneg _) (by linarith)
  have h3 := mul_self_nonneg (α - β)
  nlinarith

/-- Both parts together. -/
theorem smith_norm {a b c d e f u : ℚ} (hu0 : 0 ≤ u) (hd : d * d ≤ c * c)
    (he : |e * (c * c + d * d) - (a * c + b * d)| ≤ (5 + 1 / 64) * u * |a * c + b * d| + (2 + 1 / 64) * u * |b * d|)
    (hf : |f * (c * c + d * d) - (b * c - a * d)| ≤ (5 + 1 / 64) * u * |b * c - a * d| + (2 + 1 / 64) * u * |a * d|) :
    (e * (c * c + d * d) - (a * c + b * d)) * (e * (c * c + d * d) - (a * c + b * d)) +
      (f * (c * c + d * d) - (b * c - a * d)) * (f * (c * c + d * d) - (b * c - a * d)) ≤
    64 * (u * u) * ((a * a + b * b) * (c * c + d * d)) := by
  have h1 := sq_bound he (by positivity) (by positivity)
  have h2 := sq_bound hf (by positivity) (by positivity)
  have q (x k : ℚ) : k * u * |x| * (k * u * |x|) = k * k * (u * u) * (x * x) := by
    rw [show k * u * |x| * (k * u * |x|) = k * k * (u * u) * (|x| * |x|) by ring, abs_mul_abs_self]
  rw [q, q] at h1 h2
  have h3 : (a * c + b * d) * (a * c + b * d) + (b * c - a * d) * (b * c - a * d) = (a * a + b * b) * (c * c + d * d) := by ring
  have h4 : (b * d) * (b * d) + (a * d) * (a * d) = (a * a + b * b) * (d * d) := by ring
  have hab : 0 ≤ a * a + b * b := add_nonneg (mul_self_nonneg a) (mul_self_nonneg b)
  have hcd : 0 ≤ c * c + d * d := add_nonneg (mul_self_nonneg c) (mul_self_nonneg d)
  have h5 : (a * a + b * b) * (d * d) ≤ (a * a + b * b) * ((c * c + d * d) / 2) :=
    mul_le_mul_of_nonneg_left (by linarith) hab
  have hN : 0 ≤ u * u * ((a * a + b * b) * (c * c + d * d)) :=
    mul_nonneg (mul_self_nonneg u) (mul_nonneg hab hcd)
  have h6 : u * u * ((a * a + b * b) * (d * d)) ≤ u * u * ((a * a + b * b) * ((c * c + d * d) / 2)) :=
    mul_le_mul_of_nonneg_left h5 (by positivity)
  nlinarith

/-! ### Rounding errors -/

/-- The number of v units. -/
def real (v : Int) : ℚ := (v : ℚ) / (one : ℚ)

/-- x is v units, a number of float64 that is 0 or between 2^lo and 2^hi units. -/
structure Sized (lo hi : Nat) (x : Flt) (v : Int) : Prop where
  value : Value x v
  rep : Rep f64 v.natAbs
  low : v = 0 ∨ 2 ^ lo ≤ v.natAbs
  high : v.natAbs ≤ 2 ^ hi

theorem rep_pow64 {k : Nat} (h : k ≤ 2045) : Rep f64 (2 ^ k) := ⟨1, k, by simp, by decide, by simp [f64], h⟩

theorem oneQ_pos : (0 : ℚ) < (one : ℚ) := by exact_mod_cast Flt.one_pos

theorem one_eq : one = 2 ^ 1074 := by with_unfolding_all rfl

/-- A number of the normal range is rounded with a relative error of at most 2^-53. -/
theorem roundRat_error (p q : Nat) (hq : 0 < q) (h : 2 ^ 52 * q ≤ p) :
    2 ^ 53 * (roundRat f64 p q * q) ≤ 2 ^ 53 * p + p ∧ 2 ^ 53 * p ≤ 2 ^ 53 * (roundRat f64 p q * q) + p := by
  have hc := roundRat_cases f64 p q
  simp only [] at hc
  have hn : 2 ^ 52 ≤ p / q := (Nat.le_div_iff_mul_le hq).2 h
  have hn0 : p / q ≠ 0 := by intro c; rw [c] at hn; exact absurd hn (by decide)
  have hl : 52 ≤ (p / q).log2 := (Nat.le_log2 hn0).2 hn
  have hu : 2 ^ ulpExp f64 (p / q) * 2 ^ 52 ≤ p / q := by
    have e : ulpExp f64 (p / q) = (p / q).log2 - 52 := by
      show max 0 ((p / q).log2 + 1 - 53) = _
      omega
    rw [e, ← Nat.pow_add, Nat.sub_add_cancel hl]
    exact Nat.log2_self_le hn0
  have hu0 : 0 < 2 ^ ulpExp f64 (p / q) := Nat.pow_pos (by decide)
  generalize 2 ^ ulpExp f64 (p / q) = u at *
  have hlo : p / q / u * u * q ≤ p :=
    Nat.le_trans (Nat.mul_le_mul_right q (Nat.div_mul_le_self _ _)) (Nat.div_mul_le_self _ _)
  have hhi : p < (p / q / u + 1) * u * q := (Nat.div_lt_iff_lt_mul hq).1 (Nat.lt_mul_of_div_lt (by omega) hu0)
  have huq : u * 2 ^ 52 * q ≤ p := Nat.le_trans (Nat.mul_le_mul_right q hu) (Nat.div_mul_le_self _ _)
  generalize p / q / u = a at *
  rcases hc with ⟨e, h1, -⟩ | ⟨e, h1, -⟩ <;> rw [e] <;> constructor <;> nlinarith

theorem sized_round {lo hi : Nat} {p : Int} {q : Nat} {r : Flt} (hr : Rounded f64 p q r) (hq : 0 < q) (h1 : 52 ≤ lo)
    (h2 : lo ≤ 2045) (h3 : hi ≤ 2045) (hl : p = 0 ∨ 2 ^ lo * q ≤ p.natAbs) (hh : p.natAbs ≤ 2 ^ hi * q) :
    ∃ w, Sized lo hi r w ∧ |(w : ℚ) - (p : ℚ) / (q : ℚ)| ≤ 1 / 2 ^ 53 * |(p : ℚ) / (q : ℚ)| := by
  by_cases h0 : p = 0
  · subst h0
    exact ⟨0, ⟨hr.2 rfl, ⟨0, 0, by simp, by decide, by simp [f64], by simp [f64]⟩, Or.inl rfl, by simp⟩, by simp⟩
  · have hl' := hl.resolve_left h0
    have e := (rounds_iff f64_ok p q hq r).1 (hr.1 h0)
    have b1 := roundRat_le f64_ok hq hh (rep_pow64 h3)
    have b2 := le_roundRat f64_ok hq hl' (rep_pow64 h2)
    have b3 := rep_le_max _ (rep_pow64 h3)
    have b4 := (roundRat_nearest f64_ok p.natAbs q hq (Nat.le_trans b1 b3)).1
    have b5 := roundRat_error p.natAbs q hq
      (Nat.le_trans (Nat.mul_le_mul_right q (Nat.pow_le_pow_right (by decide) h1)) hl')
    unfold roundTo at e
    rw [if_neg (by omega)] at e
    generalize roundRat f64 p.natAbs q = R at *
    have hqQ : (0 : ℚ) < (q : ℚ) := by exact_mod_cast hq
    have c1 : (2 : ℚ) ^ 53 * ((R : ℚ) * q) ≤ 2 ^ 53 * (p.natAbs : ℚ) + p.natAbs := by exact_mod_cast b5.1
    have c2 : (2 : ℚ) ^ 53 * (p.natAbs : ℚ) ≤ 2 ^ 53 * ((R : ℚ) * q) + p.natAbs := by exact_mod_cast b5.2
    have c3 : |(R : ℚ) - (p.natAbs : ℚ) / q| ≤ 1 / 2 ^ 53 * ((p.natAbs : ℚ) / q) := by
      have e1 : (R : ℚ) - (p.natAbs : ℚ) / q = ((R : ℚ) * q - p.natAbs) / q := by field_simp
      rw [e1, abs_div, abs_of_pos hqQ, ← mul_div_assoc, div_le_div_iff_of_pos_right hqQ, abs_le]
      constructor <;> linarith
    by_cases hp : p < 0
    · rw [show decide (p < 0) = true from decide_eq_true hp] at e
      subst e
      refine ⟨-(R : Int), ⟨rfl, by simpa using b4, Or.inr (by simpa using b2), by simpa using b1⟩, ?_⟩
      have e2 : (p : ℚ) = -(p.natAbs : ℚ) := by
        have : p = -(p.natAbs : Int) := by omega
        exact_mod_cast this
      have e3 : (((-(R : Int) : Int)) : ℚ) - -(p.natAbs : ℚ) / q = -((R : ℚ) - (p.natAbs : ℚ) / q) := by push_cast; ring
      rw [e2, e3, abs_neg, neg_div, abs_neg, abs_of_nonneg (by positivity : (0 : ℚ) ≤ (p.natAbs : ℚ) / q)]
      exact c3
    · rw [show decide (p < 0) = false from decide_eq_false hp] at e
      subst e
      refine ⟨(R : Int), ⟨rfl, by simpa using b4, Or.inr (by simpa using b2), by simpa using b1⟩, ?_⟩
      have e2 : (p : ℚ) = (p.natAbs : ℚ) := by
        have : p = (p.natAbs : Int) := by omega
        exact (congrArg (fun z : Int => (z : ℚ)) this).trans (Int.cast_natCast _)
      rw [e2, abs_of_nonneg (by positivity : (0 : ℚ) ≤ (p.natAbs : ℚ) / q)]
      exact_mod_cast c3

theorem real_error {w : Int} {x y : ℚ} (h : |(w : ℚ) - x| ≤ 1 / 2 ^ 53 * |x|) (e : y * one = x) :
    |real w - y| ≤ 1 / 2 ^ 53 * |y| := by
  have ho := oneQ_pos
  have e1 : real w - y = ((w : ℚ) - x) / one := by rw [← e]; unfold real; field_simp
  have e2 : y = x / one := by rw [← e]; field_simp
  rw [e1, e2, abs_div, abs_div, abs_of_pos ho, ← mul_div_assoc, div_le_div_iff_of_pos_right ho]
  exact h

theorem sized_times {l1 h1 l2 h2 lo hi : Nat} {x y : Flt} {v w : Int} (hx : Sized l1 h1 x v) (hy : Sized l2 h2 y w)
    (g1 : lo + 1074 = l1 + l2) (g2 : hi + 1074 = h1 + h2) (g3 : 52 ≤ lo) (g4 : lo ≤ 2045) (g5 : hi ≤ 2045) :
    ∃ z, Sized lo hi (times f64 x y) z ∧ |real z - real v * real w| ≤ 1 / 2 ^ 53 * |real v * real w| := by
  have ho := oneQ_pos
  obtain ⟨z, hz, he⟩ := sized_round (lo := lo) (hi := hi) (times_rounded f64_ok hx.value hy.value) Flt.one_pos g3 g4 g5
    (by
      rcases hx.low with h | h
      · exact Or.inl (by rw [h]; simp)
      · rcases hy.low with h' | h'
        · exact Or.inl (by rw [h']; simp)
        · right
          rw [one_eq, ← Nat.pow_add, g1, Nat.pow_add, Int.natAbs_mul]
          exact Nat.mul_le_mul h h')
    (by rw [one_eq, ← Nat.pow_add, g2, Nat.pow_add, Int.natAbs_mul]; exact Nat.mul_le_mul hx.high hy.high)
  refine ⟨z, hz, real_error he ?_⟩
  unfold real; push_cast; field_simp

theorem sized_over {l1 h1 l2 h2 lo hi : Nat} {x y : Flt} {v w : Int} (hx : Sized l1 h1 x v) (hy : Sized l2 h2 y w) (hw : w ≠ 0)
    (g1 : lo + h2 ≤ l1 + 1074) (g2 : v.natAbs * one ≤ 2 ^ hi * w.natAbs) (g3 : 52 ≤ lo) (g4 : lo ≤ 2045) (g5 : hi ≤ 2045) :
    ∃ z, Sized lo hi (over f64 x y) z ∧ |real z - real v / real w| ≤ 1 / 2 ^ 53 * |real v / real w| := by
  have ho := oneQ_pos
  have hs : (v * w.sign * one).natAbs = v.natAbs * one := by
    rw [Int.natAbs_mul, Int.natAbs_mul, Int.natAbs_sign_of_ne_zero hw]; simp
  have hw0 : 0 < w.natAbs := Int.natAbs_pos.2 hw
  obtain ⟨z, hz, he⟩ := sized_round (lo := lo) (hi := hi) (over_rounded f64_ok hx.value hy.value hw) hw0 g3 g4 g5
    (by
      rcases hx.low with h | h
      · exact Or.inl (by rw [h]; simp)
      · right
        rw [hs, one_eq]
        calc 2 ^ lo * w.natAbs ≤ 2 ^ lo * 2 ^ h2 := Nat.mul_le_mul_left _ hy.high
          _ = 2 ^ (lo + h2) := (Nat.pow_add _ _ _).symm
          _ ≤ 2 ^ (l1 + 1074) := Nat.pow_le_pow_right (by decide) g1
          _ = 2 ^ l1 * 2 ^ 1074 := Nat.pow_add _ _ _
          _ ≤ v.natAbs * 2 ^ 1074 := Nat.mul_le_mul_right _ h)
    (by rw [hs]; exact g2)
  refine ⟨z, hz, real_error he ?_⟩
  have e : (w.natAbs : ℚ) * (w.sign : ℚ) = (w : ℚ) := by
    have := Int.sign_mul_natAbs w
    have h' : (w.natAbs : Int) * w.sign = w := by rw [Int.mul_comm]; exact this
    rw [← Int.cast_natCast w.natAbs, ← Int.cast_mul, h']
  have hwQ : (w : ℚ) ≠ 0 := by exact_mod_cast hw
  have hnQ : (w.natAbs : ℚ) ≠ 0 := by
    have : w.natAbs ≠ 0 := by omega
    exact_mod_cast this
  have es : (w.sign : ℚ) * (w.sign : ℚ) = 1 := by
    have : w.sign * w.sign = 1 := by
      rcases Int.lt_or_gt_of_ne hw with h | h
      · rw [Int.sign_eq_neg_one_of_neg h]; rfl
      · rw [Int.sign_eq_one_of_pos h]; rfl
    exact_mod_cast this
  unfold real
  push_cast
  rw [eq_div_iff hnQ]
  have : (v : ℚ) / one / ((w : ℚ) / one) * one * (w.natAbs : ℚ) = (v : ℚ) * one * ((w.natAbs : ℚ) / w) := by
    field_simp
  rw [this]
  have : (w.natAbs : ℚ) / w = (w.sign : ℚ) := by
    rw [div_eq_iff hwQ, ← e]
    rw [show (w.sign : ℚ) * ((w.natAbs : ℚ) * (w.sign : ℚ)) = (w.natAbs : ℚ) * ((w.sign : ℚ) * (w.sign : ℚ)) by ring, es, mul_one]
  rw [this]; ring

theorem sized_dvd {lo hi k : Nat} {x : Flt} {v : Int} (h : Sized lo hi x v) (hk : k + 52 ≤ lo) : ((2 ^ k : Nat) : Int) ∣ v := by
  rcases h.low with h0 | h0
  · rw [h0]; exact Int.dvd_zero _
  · rw [Int.natCast_dvd]
    obtain ⟨m, e, h1, h2, -, -⟩ := h.rep
    rw [h1]
    by_cases c : k ≤ e
    · exact Nat.dvd_trans (Nat.pow_dvd_pow 2 c) (Nat.dvd_mul_left _ _)
    · exfalso
      have : m * 2 ^ e < 2 ^ 53 * 2 ^ e := Nat.mul_lt_mul_of_pos_right h2 (Nat.pow_pos (by decide))
      rw [← Nat.pow_add] at this
      have := Nat.pow_le_pow_right (n := 2) (by decide) (show 53 + e ≤ lo by omega)
      omega

theorem sized_plus {l1 h1 l2 h2 lo hi : Nat} {x y z : Flt} {v w : Int} (hx : Sized l1 h1 x v) (hy : Sized l2 h2 y w)
    (hz : Rounded f64 (v + w) 1 z)
    (g1 : lo + 52 ≤ l1) (g2 : lo + 52 ≤ l2) (g3 : h1 + 1 ≤ hi) (g4 : h2 + 1 ≤ hi) (g5 : 52 ≤ lo) (g6 : lo ≤ 2045) (g7 : hi ≤ 2045) :
    ∃ s, Sized lo hi z s ∧ |real s - (real v + real w)| ≤ 1 / 2 ^ 53 * |real v + real w| := by
  have ho := oneQ_pos
  obtain ⟨s, hs, he⟩ := sized_round (lo := lo) (hi := hi) hz (by decide) g5 g6 g7
    (by
      by_cases h0 : v + w = 0
      · exact Or.inl h0
      · right
        rw [Nat.mul_one]
        refine Nat.le_of_dvd (Int.natAbs_pos.2 h0) ?_
        rw [← Int.natCast_dvd]
        exact Int.dvd_add (sized_dvd hx g1) (sized_dvd hy g2))
    (by
      have a1 := hx.high
      have a2 := hy.high
      have b1 := Nat.pow_le_pow_right (n := 2) (by decide) g3
      have b2 := Nat.pow_le_pow_right (n := 2) (by decide) g4
      rw [Nat.pow_succ] at b1 b2
      have := Int.natAbs_add_le v w
      omega)
  refine ⟨s, hs, real_error he ?_⟩
  unfold real; push_cast; field_simp

theorem sized_minus {lo hi : Nat} {x : Flt} {v : Int} (h : Sized lo hi x v) : Sized lo hi (minus x) (-v) :=
  ⟨value_minus h.value, by rw [Int.natAbs_neg]; exact h.rep, by rw [Int.natAbs_neg]; have := h.low; omega,
    by rw [Int.natAbs_neg]; exact h.high⟩

theorem real_neg (v : Int) : real (-v) = -real v := by unfold real; push_cast; ring

theorem real_zero {v : Int} : real v = 0 ↔ v = 0 := by
  have ho := oneQ_pos
  unfold real
  rw [div_eq_zero_iff]
  constructor
  · rintro (h | h)
    · exact_mod_cast h
    · exact absurd h (ne_of_gt ho)
  · intro h; left; exact_mod_cast h

/-- The ratio and the denominator of Smith's algorithm; m1 is the part of the divisor that is not smaller. -/
theorem sized_denom {m1 m2 : Flt} {c d : Int} (h1 : Sized 874 1274 m1 c) (h2 : Sized 874 1274 m2 d) (hc : c ≠ 0)
    (hd : d.natAbs ≤ c.natAbs) : ∃ r t n, Sized 674 1074 (over f64 m2 m1) r ∧
      Sized 422 1275 (plus f64 m1 (times f64 (over f64 m2 m1) m2)) n ∧ n ≠ 0 ∧
      |real r - real d / real c| ≤ 1 / 2 ^ 53 * |real d / real c| ∧
      |real t - real r * real d| ≤ 1 / 2 ^ 53 * |real r * real d| ∧
      |real n - (real c + real t)| ≤ 1 / 2 ^ 53 * |real c + real t| := by
  obtain ⟨r, hr, er⟩ := sized_over (lo := 674) (hi := 1074) h2 h1 hc (by omega)
    (by rw [one_eq, Nat.mul_comm]; exact Nat.mul_le_mul_left _ hd) (by omega) (by omega) (by omega)
  obtain ⟨t, ht, et⟩ := sized_times (lo := 474) (hi := 1274) hr h2 (by omega) (by omega) (by omega) (by omega) (by omega)
  obtain ⟨n, hn, en⟩ := sized_plus (lo := 422) (hi := 1275) h1 ht (plus_rounded f64_ok h1.value ht.value) (by omega) (by omega)
    (by omega) (by omega) (by omega) (by omega) (by omega)
  refine ⟨r, t, n, hr, hn, ?_, er, et, en⟩
  have hcQ : real c ≠ 0 := by rw [ne_eq, real_zero]; exact hc
  rintro rfl
  rw [show real 0 = 0 from real_zero.2 rfl, zero_sub, abs_neg] at en
  have hz : real c + real t = 0 := by
    have := abs_nonneg (real c + real t)
    have : |real c + real t| = 0 := by linarith
    exact abs_eq_zero.1 this
  obtain ⟨δ1, b1, e1⟩ := rel_exists (by norm_num) er
  obtain ⟨δ2, b2, e2⟩ := rel_exists (by norm_num) et
  have e3 : real c * real t = real d * real d * ((1 + δ1) * (1 + δ2)) := by rw [e2, e1]; field_simp
  have p1 : 0 ≤ (1 + δ1) * (1 + δ2) := by
    have := (abs_le.1 b1).1
    have := (abs_le.1 b2).1
    apply mul_nonneg <;> linarith
  have p2 : 0 ≤ real c * real t := by rw [e3]; exact mul_nonneg (mul_self_nonneg _) p1
  have p3 := mul_self_pos.2 hcQ
  have : real c * (real c + real t) = 0 := by rw [hz, mul_zero]
  linarith

/-- One part of the quotient: the numerator is the rounded sum of x and of the product of y and the ratio. -/
theorem sized_part {x P S N : Flt} {a b c d r t n p : Int} (hx : Sized 874 1274 x a) (hP : Sized 474 1274 P p)
    (hn : Sized 422 1275 N n) (hn0 : n ≠ 0) (hc : c ≠ 0)
    (er : |real r - real d / real c| ≤ 1 / 2 ^ 53 * |real d / real c|)
    (et : |real t - real r * real d| ≤ 1 / 2 ^ 53 * |real r * real d|)
    (en : |real n - (real c + real t)| ≤ 1 / 2 ^ 53 * |real c + real t|)
    (ep : |real p - real b * real r| ≤ 1 / 2 ^ 53 * |real b * real r|)
    (hS : Rounded f64 (a + p) 1 S) :
    ∃ e, Value (over f64 S N) e ∧
      |real e * (real c * real c + real d * real d) - (real a * real c + real b * real d)| ≤
        (5 + 1 / 64) * (1 / 2 ^ 53) * |real a * real c + real b * real d| + (2 + 1 / 64) * (1 / 2 ^ 53) * |real b * real d| := by
  obtain ⟨s, hs, es⟩ := sized_plus (lo := 422) (hi := 1275) hx hP hS (by omega) (by omega)
    (by omega) (by omega) (by omega) (by omega) (by omega)
  obtain ⟨e, he, ee⟩ := sized_over (lo := 221) (hi := 1927) hs hn hn0 (by omega)
    (by
      have := hn.low.resolve_left hn0
      calc s.natAbs * one ≤ 2 ^ 1275 * 2 ^ 1074 := by rw [one_eq]; exact Nat.mul_le_mul_right _ hs.high
        _ = 2 ^ 1927 * 2 ^ 422 := by rw [← Nat.pow_add, ← Nat.pow_add]
        _ ≤ _ := Nat.mul_le_mul_left _ this) (by omega) (by omega) (by omega)
  exact ⟨e, he.value, smith_core (by norm_num) (by norm_num) (by rw [ne_eq, real_zero]; exact hc) er et en ep es ee⟩

theorem real_error_int {e a b c d x y : Int} :
    real e * (real c * real c + real d * real d) - (real a * real x + real b * real y) =
      ((e * (c * c + d * d) - (a * x + b * y) * one : Int) : ℚ) / ((one : ℚ) * one * one) := by
  have ho := oneQ_pos
  unfold real
  push_cast
  field_simp

/-- The four parts of Smith's algorithm for one order of the divisor's parts. -/
theorem smith_parts {x1 x2 m1 m2 : Flt} {a b c d : Int} (hx1 : Sized 874 1274 x1 a) (hx2 : Sized 874 1274 x2 b)
    (h1 : Sized 874 1274 m1 c) (h2 : Sized 874 1274 m2 d) (hc : c ≠ 0) (hd : d.natAbs ≤ c.natAbs) :
    ∃ e f : Int,
      (Value (over f64 (plus f64 x1 (times f64 x2 (over f64 m2 m1))) (plus f64 m1 (times f64 (over f64 m2 m1) m2))) e ∧
        Value (over f64 (plus f64 (times f64 x2 (over f64 m2 m1)) x1) (plus f64 m1 (times f64 (over f64 m2 m1) m2))) e) ∧
      Value (over f64 (plus f64 x2 (minus (times f64 x1 (over f64 m2 m1)))) (plus f64 m1 (times f64 (over f64 m2 m1) m2))) f ∧
      (∃ g : Int, Value (over f64 (plus f64 (times f64 x1 (over f64 m2 m1)) (minus x2)) (plus f64 m1 (times f64 (over f64 m2 m1) m2))) g ∧
        |real g * (real c * real c + real d * real d) - (real (-b) * real c + real a * real d)| ≤
          (5 + 1 / 64) * (1 / 2 ^ 53) * |real (-b) * real c + real a * real d| + (2 + 1 / 64) * (1 / 2 ^ 53) * |real a * real d|) ∧
      |real e * (real c * real c + real d * real d) - (real a * real c + real b * real d)| ≤
        (5 + 1 / 64) * (1 / 2 ^ 53) * |real a * real c + real b * real d| + (2 + 1 / 64) * (1 / 2 ^ 53) * |real b * real d| ∧
      |real f * (real c * real c + real d * real d) - (real b * real c + real (-a) * real d)| ≤
        (5 + 1 / 64) * (1 / 2 ^ 53) * |real b * real c + real (-a) * real d| + (2 + 1 / 64) * (1 / 2 ^ 53) * |real (-a) * real d| := by
  obtain ⟨r, t, n, hr, hn, hn0, er, et, en⟩ := sized_denom h1 h2 hc hd
  obtain ⟨p, hp, ep⟩ := sized_times (lo := 474) (hi := 1274) hx2 hr (by omega) (by omega) (by omega) (by omega) (by omega)
  obtain ⟨p', hp', ep'⟩ := sized_times (lo := 474) (hi := 1274) hx1 hr (by omega) (by omega) (by omega) (by omega) (by omega)
  have epn : |real (-p') - real (-a) * real r| ≤ 1 / 2 ^ 53 * |real (-a) * real r| := by
    rw [real_neg, real_neg, show -real p' - -real a * real r = -(real p' - real a * real r) by ring, abs_neg,
      show -real a * real r = -(real a * real r) by ring, abs_neg]
    exact ep'
  obtain ⟨e, he, ee⟩ := sized_part hx1 hp hn hn0 hc er et en ep (plus_rounded f64_ok hx1.value hp.value)
  have he' : Value (over f64 (plus f64 (times f64 x2 (over f64 m2 m1)) x1) (plus f64 m1 (times f64 (over f64 m2 m1) m2))) e := by
    rw [plus_comm]; exact he
  obtain ⟨f, hf, ef⟩ := sized_part hx2 (sized_minus hp') hn hn0 hc er et en epn
    (plus_rounded f64_ok hx2.value (sized_minus hp').value)
  obtain ⟨g, hg, eg⟩ := sized_part (sized_minus hx2) hp' hn hn0 hc er et en ep'
    (plus_rounded f64_ok (sized_minus hx2).value hp'.value)
  exact ⟨e, f, ⟨he, he'⟩, hf, ⟨g, by rw [plus_comm]; exact hg, eg⟩, ee, ef⟩

theorem norm_int {e f a b c d : Int}
    (h : (real e * (real c * real c + real d * real d) - (real a * real c + real b * real d)) *
          (real e * (real c * real c + real d * real d) - (real a * real c + real b * real d)) +
        (real f * (real c * real c + real d * real d) - (real b * real c - real a * real d)) *
          (real f * (real c * real c + real d * real d) - (real b * real c - real a * real d)) ≤
      64 * (1 / 2 ^ 53 * (1 / 2 ^ 53)) * ((real a * real a + real b * real b) * (real c * real c + real d * real d))) :
    ((e * (c ^ 2 + d ^ 2) - (a * c + b * d) * one) ^ 2 + (f * (c ^ 2 + d ^ 2) - (b * c - a * d) * one) ^ 2) * 2 ^ 100 ≤
      (a ^ 2 + b ^ 2) * (c ^ 2 + d ^ 2) * (one : Int) ^ 2 := by
  have ho := oneQ_pos
  have e1 := real_error_int (e := e) (a := a) (b := b) (c := c) (d := d) (x := c) (y := d)
  have e2 := real_error_int (e := f) (a := b) (b := -a) (c := c) (d := d) (x := c) (y := d)
  rw [real_neg, show real b * real c + -real a * real d = real b * real c - real a * real d by ring] at e2
  rw [e1, e2] at h
  unfold real at h
  have h' : (((e * (c * c + d * d) - (a * c + b * d) * one : Int) : ℚ) ^ 2 +
      ((f * (c * c + d * d) - (b * c + -a * d) * one : Int) : ℚ) ^ 2) * 2 ^ 100 ≤
      ((a : ℚ) ^ 2 + (b : ℚ) ^ 2) * ((c : ℚ) ^ 2 + (d : ℚ) ^ 2) * (one : ℚ) ^ 2 := by
    generalize ((e * (c * c + d * d) - (a * c + b * d) * one : Int) : ℚ) = X at *
    generalize ((f * (c * c + d * d) - (b * c + -a * d) * one : Int) : ℚ) = Y at *
    generalize (one : ℚ) = o at *
    have k1 : X / (o * o * o) * (X / (o * o * o)) + Y / (o * o * o) * (Y / (o * o * o)) = (X ^ 2 + Y ^ 2) / o ^ 6 := by
      field_simp
    have k2 : 64 * (1 / 2 ^ 53 * (1 / 2 ^ 53)) * (((a : ℚ) / o * ((a : ℚ) / o) + (b : ℚ) / o * ((b : ℚ) / o)) *
        ((c : ℚ) / o * ((c : ℚ) / o) + (d : ℚ) / o * ((d : ℚ) / o))) =
        ((a : ℚ) ^ 2 + (b : ℚ) ^ 2) * ((c : ℚ) ^ 2 + (d : ℚ) ^ 2) * o ^ 2 / 2 ^ 100 / o ^ 6 := by
      field_simp
      ring
    rw [k1, k2, div_le_div_iff_of_pos_right (by positivity), le_div_iff₀ (by positivity)] at h
    exact h
  have h'' : ((e * (c * c + d * d) - (a * c + b * d) * one) ^ 2 + (f * (c * c + d * d) - (b * c + -a * d) * one) ^ 2) * 2 ^ 100 ≤
      (a ^ 2 + b ^ 2) * (c ^ 2 + d ^ 2) * (one : Int) ^ 2 := by exact_mod_cast h'
  rw [pow_two c, pow_two d, show b * c - a * d = b * c + -a * d by ring]
  rw [pow_two c, pow_two d] at h''
  exact h''

theorem natAbs_real {c d : Int} (h : d.natAbs ≤ c.natAbs) : real d * real d ≤ real c * real c := by
  have h1 : d * d ≤ c * c := by
    rw [← Int.natAbs_mul_self, ← Int.natAbs_mul_self (a := c)]
    exact_mod_cast Nat.mul_le_mul h h
  have ho := oneQ_pos
  have h2 : (d : ℚ) * d ≤ (c : ℚ) * c := by exact_mod_cast h1
  unfold real
  rw [div_mul_div_comm, div_mul_div_comm]
  exact div_le_div_of_nonneg_right h2 (by positivity)

theorem smith_error {x y : Flt × Flt} {a b c d : Int} (h1 : Sized 874 1274 x.1 a) (h2 : Sized 874 1274 x.2 b)
    (h3 : Sized 874 1274 y.1 c) (h4 : Sized 874 1274 y.2 d) (h0 : c ≠ 0 ∨ d ≠ 0) :
    ∃ e f : Int, CValue (smith x y) e f ∧
      ((e * (c ^ 2 + d ^ 2) - (a * c + b * d) * one) ^ 2 + (f * (c ^ 2 + d ^ 2) - (b * c - a * d) * one) ^ 2) * 2 ^ 100 ≤
        (a ^ 2 + b ^ 2) * (c ^ 2 + d ^ 2) * (one : Int) ^ 2 := by
  have ha : atLeast (absolute y.1) (absolute y.2) = decide (d.natAbs ≤ c.natAbs) := by
    obtain ⟨s, n, e1, rfl⟩ := value_cases' h3.value
    obtain ⟨t, m, e2, rfl⟩ := value_cases' h4.value
    rw [e1, e2, atLeast_fin, signed_natAbs, signed_natAbs]
  unfold smith
  rw [ha]
  by_cases hd : d.natAbs ≤ c.natAbs
  · rw [decide_eq_true hd, if_pos rfl]
    obtain ⟨e, f, ⟨he, -⟩, hf, -, ee, ef⟩ := smith_parts h1 h2 h3 h4 (by omega) hd
    refine ⟨e, f, ⟨he, hf⟩, norm_int (smith_norm (by norm_num) (natAbs_real hd) ee ?_)⟩
    rw [real_neg, show real b * real c + -real a * real d = real b * real c - real a * real d by ring,
      show -real a * real d = -(real a * real d) by ring, abs_neg] at ef
    exact ef
  · rw [decide_eq_false hd, if_neg (by decide)]
    obtain ⟨e, -, ⟨-, he⟩, -, ⟨g, hg, eg⟩, ee, -⟩ := smith_parts h2 h1 h4 h3 (by omega) (by omega)
    refine ⟨e, g, ⟨he, hg⟩, norm_int ?_⟩
    have := smith_norm (f := -real g) (by norm_num) (natAbs_real (c := d) (d := c) (by omega)) ee (by
      rw [show -real g * (real d * real d + real c * real c) - (real a * real d - real b * real c) =
          -(real g * (real d * real d + real c * real c) - (real (-a) * real d + real b * real c)) by rw [real_neg]; ring, abs_neg,
        show real a * real d - real b * real c = -(real (-a) * real d + real b * real c) by rw [real_neg]; ring, abs_neg]
      exact eg)
    refine le_trans (le_of_eq ?_) (le_trans this (le_of_eq ?_)) <;> ring

theorem value_ne_nan {x : Flt} {v : Int} (h : Value x v) : x ≠ .nan := by
  obtain ⟨s, n, rfl, -⟩ := value_cases' h
  exact fun c => by cases c

theorem sized_of {x : Flt} {v : Int} (hv : Value x v) (hf : InFormat f64 x) (h1 : v = 0 ∨ 2 ^ 874 ≤ v.natAbs)
    (h2 : v.natAbs ≤ 2 ^ 1274) : Sized 874 1274 x v := ⟨hv, value_rep hv hf, h1, h2⟩

theorem sized_f32 {x : Flt} {v : Int} (hv : Value x v) (hf : InFormat f32 x) : Sized 874 1274 x v := by
  have hr := value_rep hv hf
  refine ⟨hv, rep_mono hr, ?_, ?_⟩
  · by_cases h : v = 0
    · exact Or.inl h
    · right
      obtain ⟨m, e, h1, h2, h3, h4⟩ := hr
      rw [h1]
      have hm : m ≠ 0 := by rintro rfl; rw [Nat.zero_mul] at h1; omega
      have : 2 ^ 874 ≤ 2 ^ e := Nat.pow_le_pow_right (by decide) (by have : (925 : Nat) ≤ e := h3; omega)
      exact Nat.le_trans this (Nat.le_mul_of_pos_left _ (by omega))
  · obtain ⟨m, e, h1, h2, h3, h4⟩ := hr
    rw [h1]
    have h4' : e ≤ 1178 := h4
    have h2' : m < 2 ^ 24 := h2
    calc m * 2 ^ e ≤ 2 ^ 24 * 2 ^ 1178 := Nat.mul_le_mul (by omega) (Nat.pow_le_pow_right (by decide) h4')
      _ = 2 ^ 1202 := by rw [← Nat.pow_add]
      _ ≤ _ := Nat.pow_le_pow_right (by decide) (by omega)
end Flt

/-- C145, the error of `/` on Complex128: when every part of the two operands is 0 or a number between 2^-200 and 2^200 in
absolute value and the divisor is not 0, the quotient has no NaN and no infinity, and its distance from the exact quotient
(a+bi)/(c+di) is at most 2^-50 times the absolute value of that quotient.  In units, with both sides multiplied by (c²+d²):
the squares of the two differences, times 2^100, are at most |x|²|y|². -/
theorem C145_div_error (x y : Flt × Flt) (a b c d : Int) (hx : CValue x a b) (hy : CValue y c d) (fx : CFormat f64 x)
    (fy : CFormat f64 y) (h0 : c ≠ 0 ∨ d ≠ 0)
    (hr : ∀ v ∈ [a, b, c, d], v = 0 ∨ (2 ^ 874 ≤ v.natAbs ∧ v.natAbs ≤ 2 ^ 1274)) :
    ∃ e f : Int, CValue (complexDiv64 x y) e f ∧
      ((e * (c ^ 2 + d ^ 2) - (a * c + b * d) * one) ^ 2 + (f * (c ^ 2 + d ^ 2) - (b * c - a * d) * one) ^ 2) * 2 ^ 100 ≤
        (a ^ 2 + b ^ 2) * (c ^ 2 + d ^ 2) * (one : Int) ^ 2 := by
  have k : ∀ v ∈ [a, b, c, d], (v = 0 ∨ 2 ^ 874 ≤ v.natAbs) ∧ v.natAbs ≤ 2 ^ 1274 := by
    intro v hv
    rcases hr v hv with h | h
    · exact ⟨Or.inl h, by rw [h]; exact Nat.zero_le _⟩
    · exact ⟨Or.inr h.1, h.2⟩
  have ka := k a (by simp)
  have kb := k b (by simp)
  have kc := k c (by simp)
  have kd := k d (by simp)
  obtain ⟨e, f, hv, hb⟩ := smith_error (sized_of hx.1 fx.1 ka.1 ka.2) (sized_of hx.2 fx.2 kb.1 kb.2)
    (sized_of hy.1 fy.1 kc.1 kc.2) (sized_of hy.2 fy.2 kd.1 kd.2) h0
  refine ⟨e, f, ?_, hb⟩
  show CValue (complexOver x y) e f
  rw [complexOver_number x y (value_ne_nan hv.1) (value_ne_nan hv.2)]
  exact hv

/-- C145, the error of `/` on Complex64: for any finite operands and a divisor that is not 0 the quotient is a complex number
whose distance from the exact quotient is at most 2^-50 times its absolute value, each part rounded to float32. -/
theorem C145_div64_error (x y : Flt × Flt) (a b c d : Int) (hx : CValue x a b) (hy : CValue y c d) (fx : CFormat f32 x)
    (fy : CFormat f32 y) (h0 : c ≠ 0 ∨ d ≠ 0) :
    ∃ e f : Int, Rounded f32 e 1 (complexDiv32 x y).1 ∧ Rounded f32 f 1 (complexDiv32 x y).2 ∧
      ((e * (c ^ 2 + d ^ 2) - (a * c + b * d) * one) ^ 2 + (f * (c ^ 2 + d ^ 2) - (b * c - a * d) * one) ^ 2) * 2 ^ 100 ≤
        (a ^ 2 + b ^ 2) * (c ^ 2 + d ^ 2) * (one : Int) ^ 2 := by
  obtain ⟨e, f, hv, hb⟩ := smith_error (sized_f32 hx.1 fx.1) (sized_f32 hx.2 fx.2) (sized_f32 hy.1 fy.1) (sized_f32 hy.2 fy.2) h0
  refine ⟨e, f, ?_, ?_, hb⟩
  · show Rounded f32 e 1 (convert f32 (complexOver x y).1)
    rw [complexOver_number x y (value_ne_nan hv.1) (value_ne_nan hv.2)]
    exact (convert_narrowed f32_ok _).2.2 _ hv.1
  · show Rounded f32 f 1 (convert f32 (complexOver x y).2)
    rw [complexOver_number x y (value_ne_nan hv.1) (value_ne_nan hv.2)]
    exact (convert_narrowed f32_ok _).2.2 _ hv.2

/-- The hypotheses are met, for instance by (1 - I)/(3 + I); the quotient is not exact. -/
example : (∀ v ∈ [(one : Int), -one, 3 * one, one], v = 0 ∨ (2 ^ 874 ≤ v.natAbs ∧ v.natAbs ≤ 2 ^ 1274)) ∧
    CFormat f32 (.fin false one, .fin true one) ∧ CFormat f32 (.fin false (3 * one), .fin false one) ∧
    complexDiv64 (.fin false one, .fin true one) (.fin false (3 * one), .fin false one) =
      (.fin false (3602879701896397 * 2 ^ 1020), .fin true (7205759403792793 * 2 ^ 1020)) := by
  have k : ∀ s, ∀ n : Nat, n ≤ 2 ^ 24 → InFormat f32 (.fin s (n * one)) := fun s n h => rep_upto f32_text _ h
  have k1 := fun s => k s 1 (by decide)
  simp only [Nat.one_mul] at k1
  exact ⟨by decide +kernel, ⟨k1 _, k1 _⟩, ⟨k _ 3 (by decide), k1 _⟩, by decide +kernel⟩

/-- C145: the bound is for the whole number and not for each part: the real part of (1 - (4/3)I)/(4 + 3I), where 4/3 stands for
the float64 next to it, is computed as 0 although it is not 0. -/
theorem C145_div_part_fails : ∃ (x y : Flt × Flt) (a b c d : Int), CValue x a b ∧ CValue y c d ∧ CFormat f64 x ∧ CFormat f64 y ∧
    (∀ v ∈ [a, b, c, d], 2 ^ 874 ≤ v.natAbs ∧ v.natAbs ≤ 2 ^ 1274) ∧ IsZero (complexDiv64 x y).1 ∧ a * c + b * d ≠ 0 := by
  have k : ∀ s, ∀ n : Nat, n ≤ 2 ^ 53 → InFormat f64 (.fin s (n * one)) := fun s n h => rep_upto f64_text _ h
  have k1 := k false 1 (by decide)
  rw [Nat.one_mul] at k1
  have e : complexDiv64 (.fin false one, .fin true (0x15555555555555 * 2 ^ 1022)) (.fin false (4 * one), .fin false (3 * one)) =
    (.fin false 0, .fin true (6004799503160660 * 2 ^ 1020)) := by decide +kernel
  refine ⟨(.fin false one, .fin true (0x15555555555555 * 2 ^ 1022)), (.fin false (4 * one), .fin false (3 * one)), _, _, _, _,
    ⟨rfl, rfl⟩, ⟨rfl, rfl⟩, ⟨k1, ⟨0x15555555555555, 1022, rfl, by decide, by decide, by decide⟩⟩,
    ⟨k _ 4 (by decide), k _ 3 (by decide)⟩, by decide +kernel, ?_, by decide +kernel⟩
  rw [e]
  exact value_zero_fin _
end Gost
