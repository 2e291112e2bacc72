import Verif.Model.FloatText
import Verif.Lemmas.Float
import Verif.Lemmas.Decimal
/-
Lemmas about the texts of floating-point numbers: rounding of fractions and reading of decimal texts.
-/
namespace Gost
namespace Spec

/-- `r` is the number of the format nearest to p/q; of two equally near ones, the even multiple of their distance. -/
def NearestEven (f : Format) (p q r : Nat) : Prop :=
  Rep f r ∧ (∀ r', Rep f r' → r < r' → 2 * p ≤ (r + r') * q) ∧ (∀ r', Rep f r' → r' < r → (r + r') * q ≤ 2 * p) ∧
    (∀ r', Rep f r' → r' ≠ r → 2 * p = (r + r') * q → 2 * ((r - r') + (r' - r)) ∣ r)

/-- p/q lies so far above the largest number of the format that it is no longer rounded to it. -/
def TooLarge (f : Format) (p q : Nat) : Prop := (2 * 2 ^ f.prec - 1) * 2 ^ f.emax * q ≤ 2 * p

/-- The number d·10^e as a fraction of units. -/
def decNum (d : Nat) (e : Int) : Nat := d * 10 ^ e.toNat * Flt.one
def decDen (e : Int) : Nat := 10 ^ (-e).toNat

/-- Only digits. -/
def Digits (s : GoStr) : Prop := ∀ b ∈ s, 48 ≤ b.toNat ∧ b.toNat ≤ 57

/-- A sign, possibly absent. -/
def Sign (s : GoStr) (neg : Bool) : Prop := (s = [] ∧ neg = false) ∨ (s = [43] ∧ neg = false) ∨ (s = [45] ∧ neg = true)

/-- The exponent of a decimal text: empty, or `e` or `E`, a sign, and digits.  Of an exponent of six or more digits (not
counting leading zeros) only the first five count. -/
def ExpText (x : GoStr) (e : Int) : Prop :=
  (x = [] ∧ e = 0) ∨
  ∃ c sg ds neg v t, x = c :: (sg ++ ds) ∧ (c = 101 ∨ c = 69) ∧ Sign sg neg ∧ Digits ds ∧ ds ≠ [] ∧
    v = numeralValue ds / 10 ^ t ∧ v < 100000 ∧ (t = 0 ∨ 10000 ≤ v) ∧ e = if neg then -(v : Int) else v

/-- `s` is a decimal text of the number ±d·10^e: sign, digits with at most one point, exponent. -/
def DecimalText (s : GoStr) (neg : Bool) (d : Nat) (e : Int) : Prop :=
  ∃ sg ip fr fp x ex, s = sg ++ (ip ++ (fr ++ x)) ∧ Sign sg neg ∧ Digits ip ∧ Digits fp ∧
    (fr = [] ∧ fp = [] ∨ fr = 46 :: fp) ∧ ip ++ fp ≠ [] ∧ ExpText x ex ∧ d = numeralValue (ip ++ fp) ∧ e = ex - fp.length

/-- `s` is the word `w` (in small letters) in any mixture of small and capital letters. -/
def AnyCase (s w : GoStr) : Prop := List.Forall₂ (fun b c => b = c ∨ b + 32 = c) s w

/-- `s` is a text for an infinity (`inf`, `infinity`, with a sign or not) or for NaN (`nan`). -/
def SpecialText (s : GoStr) (x : Flt) : Prop :=
  (∃ sg w neg, s = sg ++ w ∧ Sign sg neg ∧
    (AnyCase w [105, 110, 102] ∨ AnyCase w [105, 110, 102, 105, 110, 105, 116, 121]) ∧ x = Flt.inf neg) ∨
  (AnyCase s [110, 97, 110] ∧ x = Flt.nan)
end Spec

namespace Flt
open Spec

theorem nearestEven_unique {f : Format} {p q r r' : Nat} (h : NearestEven f p q r)
    (h' : NearestEven f p q r') : r = r' := by
  have key : ∀ {a b : Nat}, NearestEven f p q a → NearestEven f p q b → ¬ a < b := by
    intro a b ha hb hlt
    have h1 := ha.2.1 b hb.1 hlt
    have h2 := hb.2.2.1 a ha.1 hlt
    have e : 2 * p = (a + b) * q := by rw [Nat.add_comm] at h2; omega
    obtain ⟨i, hi⟩ := ha.2.2.2 b hb.1 (by omega) e
    obtain ⟨j, hj⟩ := hb.2.2.2 a ha.1 (by omega) (by rw [Nat.add_comm b a]; exact e)
    obtain ⟨g, hg⟩ : ∃ g, b = a + g := ⟨b - a, by omega⟩
    have hg0 : 0 < g := by omega
    have e1 : (a - b) + (b - a) = g := by omega
    have e2 : (b - a) + (a - b) = g := by omega
    rw [e1] at hi
    rw [e2] at hj
    have : 2 * g * j = 2 * g * i + g := by omega
    have h3 : g * (2 * j) = g * (2 * i + 1) := by linarith [Nat.mul_assoc 2 g j, Nat.mul_assoc 2 g i]
    have := Nat.eq_of_mul_eq_mul_left hg0 h3
    omega
  have := key h h'
  have := key h' h
  omega

/-- roundRat is one of the two neighbours, with p/q on its side of the middle, and the even one in the middle. -/
theorem roundRat_cases (f : Format) (p q : Nat) :
    let u := 2 ^ ulpExp f (p / q)
    let a := p / q / u
    (roundRat f p q = a * u ∧ 2 * p ≤ (2 * a + 1) * u * q ∧ (2 * p = (2 * a + 1) * u * q → 2 ∣ a)) ∨
    (roundRat f p q = (a + 1) * u ∧ (2 * a + 1) * u * q ≤ 2 * p ∧ (2 * p = (2 * a + 1) * u * q → 2 ∣ a + 1)) := by
  intro u a
  unfold roundRat
  simp only []
  have ha : p / (q * u) = a := (Nat.div_div_eq_div_mul p q u).symm
  have hd := Nat.div_add_mod p (q * u)
  rw [show p / (q * 2 ^ ulpExp f (p / q)) = a from ha]
  rw [ha] at hd
  have e1 : (2 * a + 1) * u * q = 2 * (q * u * a) + q * u := by ring
  rw [e1]
  show ((if 2 * (p % (q * u)) < q * u then a * u else if q * u < 2 * (p % (q * u)) then (a + 1) * u
    else if a % 2 = 0 then a * u else (a + 1) * u) = _ ∧ _) ∨ _
  generalize p % (q * u) = r at *
  generalize q * u = v at *
  by_cases h1 : 2 * r < v
  · rw [if_pos h1]; exact Or.inl ⟨rfl, by omega, by omega⟩
  · rw [if_neg h1]
    by_cases h2 : v < 2 * r
    · rw [if_pos h2]; exact Or.inr ⟨rfl, by omega, by omega⟩
    · rw [if_neg h2]
      by_cases h3 : a % 2 = 0
      · rw [if_pos h3]; exact Or.inl ⟨rfl, by omega, by omega⟩
      · rw [if_neg h3]; exact Or.inr ⟨rfl, by omega, by omega⟩

/-- Rounding gives the nearest number, unless it overflows. -/
theorem roundRat_nearest {f : Format} (hf : Ok f) (p q : Nat) (hq : 0 < q) (hm : roundRat f p q ≤ maxMag f) :
    NearestEven f p q (roundRat f p q) := by
  have hc := roundRat_cases f p q
  have hsp := spacing hf (p / q)
  have hrq := rep_quo hf (p / q)
  have hu : 0 < 2 ^ ulpExp f (p / q) := Nat.pow_pos (by decide)
  simp only [] at hc
  generalize 2 ^ ulpExp f (p / q) = u at *
  have hlo : p / q / u * u * q ≤ p :=
    Nat.le_trans (Nat.mul_le_mul_right q (Nat.div_mul_le_self _ _)) (Nat.div_mul_le_self _ _)
  have hhi' : p / q < (p / q / u + 1) * u := Nat.lt_mul_of_div_lt (by omega) hu
  have hlo' : p / q / u * u ≤ p / q := Nat.div_mul_le_self _ _
  have hhi : p < (p / q / u + 1) * u * q := (Nat.div_lt_iff_lt_mul hq).1 hhi'
  generalize p / q / u = a at *
  generalize p / q = n at *
  rcases hc with ⟨h, h', ht⟩ | ⟨h, h', ht⟩
  · rw [h] at hm ⊢
    have up : ∀ r', Rep f r' → a * u < r' → (a + 1) * u ≤ r' := by
      intro r' hr hlt
      refine (hsp r' hr).2 ?_
      by_contra hc
      have := (hsp r' hr).1 (by omega); omega
    refine ⟨hrq _ (Or.inl rfl) hm, ?_, ?_, ?_⟩
    · intro r' hr hlt
      have := Nat.mul_le_mul_right q (up r' hr hlt)
      linarith
    · intro r' hr hlt
      have := Nat.mul_le_mul_right q (Nat.le_of_lt hlt)
      linarith
    · intro r' hr hne e
      have hlt : a * u < r' := by
        by_contra hc
        have h1 : r' + 1 ≤ a * u := by omega
        have := Nat.mul_le_mul_right q h1
        linarith
      have h1 := up r' hr hlt
      have h2 : r' = (a + 1) * u := by
        by_contra hc
        have h3 : (a + 1) * u + 1 ≤ r' := by omega
        have := Nat.mul_le_mul_right q h3
        linarith
      have e' : (a * u - r') + (r' - a * u) = u := by
        rw [h2, Nat.add_mul]; omega
      rw [e']
      obtain ⟨k, hk⟩ := ht (by rw [e, h2]; ring)
      exact ⟨k, by rw [hk]; ring⟩
  · rw [h] at hm ⊢
    have dn : ∀ r', Rep f r' → r' < (a + 1) * u → r' ≤ a * u := by
      intro r' hr hlt
      refine (hsp r' hr).1 ?_
      by_contra hc
      have := (hsp r' hr).2 (by omega); omega
    refine ⟨hrq _ (Or.inr rfl) hm, ?_, ?_, ?_⟩
    · intro r' hr hlt
      have := Nat.mul_le_mul_right q (Nat.le_of_lt hlt)
      linarith
    · intro r' hr hlt
      have := Nat.mul_le_mul_right q (dn r' hr hlt)
      linarith
    · intro r' hr hne e
      have hlt : r' < (a + 1) * u := by
        by_contra hc
        have h1 : (a + 1) * u + 1 ≤ r' := by omega
        have := Nat.mul_le_mul_right q h1
        linarith
      have h1 := dn r' hr hlt
      have h2 : r' = a * u := by
        by_contra hc
        have h3 : r' + 1 ≤ a * u := by omega
        have := Nat.mul_le_mul_right q h3
        linarith
      have e' : ((a + 1) * u - r') + (r' - (a + 1) * u) = u := by
        rw [h2, Nat.add_mul]; omega
      rw [e']
      obtain ⟨k, hk⟩ := ht (by rw [e, h2]; ring)
      exact ⟨k, by rw [hk]; ring⟩

/-- Exactly the numbers half a last place or more above the largest one overflow. -/
theorem roundRat_overflow {f : Format} (hf : Ok f) (p q : Nat) (hq : 0 < q) :
    maxMag f < roundRat f p q ↔ TooLarge f p q := by
  have hpp := pow_succ_pred hf.prec
  have hp1 : 0 < 2 ^ (f.prec - 1) := Nat.pow_pos (by decide)
  have hE : 0 < 2 ^ f.emax := Nat.pow_pos (by decide)
  have hc := roundRat_cases f p q
  simp only [] at hc
  unfold TooLarge maxMag
  have hqb := quo_bounds hf (p / q)
  have hu : 0 < 2 ^ ulpExp f (p / q) := Nat.pow_pos (by decide)
  have hlo' : p / q / 2 ^ ulpExp f (p / q) * 2 ^ ulpExp f (p / q) ≤ p / q := Nat.div_mul_le_self _ _
  have hlo : p / q / 2 ^ ulpExp f (p / q) * 2 ^ ulpExp f (p / q) * q ≤ p :=
    Nat.le_trans (Nat.mul_le_mul_right q hlo') (Nat.div_mul_le_self _ _)
  have hhi : p < (p / q / 2 ^ ulpExp f (p / q) + 1) * 2 ^ ulpExp f (p / q) * q :=
    (Nat.div_lt_iff_lt_mul hq).1 (Nat.lt_mul_of_div_lt (by omega) hu)
  obtain ⟨hb1, hb2⟩ := hqb
  have hmin : f.emin ≤ ulpExp f (p / q) := by unfold ulpExp; omega
  have hex := hf.exp
  generalize p / q / 2 ^ ulpExp f (p / q) = a at *
  rcases Nat.lt_trichotomy (ulpExp f (p / q)) f.emax with hlt | heq | hgt
  · generalize ulpExp f (p / q) = E at *
    have e1 : 2 ^ f.emax = 2 ^ (E + 1) * 2 ^ (f.emax - (E + 1)) := by rw [← Nat.pow_add]; congr 1; omega
    have hge : 2 * 2 ^ E ≤ 2 ^ f.emax := by
      rw [e1, Nat.pow_succ]
      have : 0 < 2 ^ (f.emax - (E + 1)) := Nat.pow_pos (by decide)
      nlinarith
    generalize 2 ^ f.emax = V at *
    generalize 2 ^ E = u at *
    rw [hpp] at hb1 ⊢
    generalize 2 ^ (f.prec - 1) = M at *
    obtain ⟨M', rfl⟩ : ∃ M', M = M' + 1 := ⟨M - 1, by omega⟩
    have h1 : (a + 1) * u ≤ (M' + 1) * V := by
      have : (a + 1) * u ≤ (2 * (M' + 1)) * u := Nat.mul_le_mul_right _ (by omega)
      nlinarith
    have h2 : (M' + 1) * V ≤ (2 * (M' + 1) - 1) * V := Nat.mul_le_mul_right _ (by omega)
    have h3 : a * u ≤ (a + 1) * u := Nat.mul_le_mul_right _ (by omega)
    constructor
    · intro h; exfalso
      rcases hc with ⟨hr, -⟩ | ⟨hr, -⟩ <;> omega
    · intro h; exfalso
      have h4 := Nat.mul_le_mul_right q h1
      have h5 : (2 * (M' + 1) * V) * q ≤ (2 * (2 * (M' + 1)) - 1) * V * q :=
        Nat.mul_le_mul_right _ (Nat.mul_le_mul_right _ (by omega))
      nlinarith
  · generalize ulpExp f (p / q) = E at *
    subst heq
    generalize 2 ^ f.emax = u at *
    generalize hM : 2 ^ f.prec = M at *
    obtain ⟨M', rfl⟩ : ∃ M', M = M' + 1 := ⟨M - 1, by omega⟩
    have e3 : (2 * (M' + 1) - 1) = 2 * M' + 1 := by omega
    have e4 : M' + 1 - 1 = M' := by omega
    rw [e3, e4]
    have hqu : 0 < u * q := Nat.mul_pos hE hq
    constructor
    · intro h
      rcases hc with ⟨hr, -⟩ | ⟨hr, hr2, -⟩
      · rw [hr] at h
        have := Nat.lt_of_mul_lt_mul_right h
        omega
      · rw [hr] at h
        have := Nat.lt_of_mul_lt_mul_right h
        have : a = M' := by omega
        rw [← this]; exact hr2
    · intro h
      have ha : a = M' := by
        by_contra hne
        have h1 : a + 1 ≤ M' := by omega
        have h2 : (a + 1) * u * q ≤ M' * u * q := Nat.mul_le_mul_right _ (Nat.mul_le_mul_right _ h1)
        have h3 : (2 * M' + 1) * u * q = 2 * (M' * u * q) + u * q := by ring
        omega
      subst ha
      rcases hc with ⟨hr, h1, h2⟩ | ⟨hr, -⟩
      · have := h2 (by omega)
        omega
      · rw [hr]; exact Nat.mul_lt_mul_of_pos_right (by omega) hE
  · replace hb2 := hb2 (by omega)
    generalize ulpExp f (p / q) = E at *
    have e1 : 2 ^ E = 2 ^ (f.emax + 1) * 2 ^ (E - (f.emax + 1)) := by rw [← Nat.pow_add]; congr 1; omega
    have hge : 2 * 2 ^ f.emax ≤ 2 ^ E := by
      rw [e1, Nat.pow_succ]
      have : 0 < 2 ^ (E - (f.emax + 1)) := Nat.pow_pos (by decide)
      nlinarith
    generalize 2 ^ f.emax = V at *
    generalize 2 ^ E = u at *
    rw [hpp] at hb1 ⊢
    generalize 2 ^ (f.prec - 1) = M at *
    have h1 : (2 * M) * V ≤ a * u := by
      have : M * (2 * V) ≤ a * u := Nat.mul_le_mul hb2 hge
      nlinarith
    have h2 : (2 * M - 1) * V < 2 * M * V := Nat.mul_lt_mul_of_pos_right (by omega) hE
    have h3 : a * u ≤ (a + 1) * u := Nat.mul_le_mul_right _ (by omega)
    constructor
    · intro _
      have h4 := Nat.mul_le_mul_right q h1
      have h5 : (2 * (2 * M) - 1) * V * q ≤ (2 * (2 * M)) * V * q :=
        Nat.mul_le_mul_right _ (Nat.mul_le_mul_right _ (by omega))
      have h6 : (2 * (2 * M)) * V * q = 2 * (2 * M * V * q) := by ring
      omega
    · intro _
      rcases hc with ⟨hr, -⟩ | ⟨hr, -⟩ <;> omega

/-- Rounding, described without reference to how it is computed. -/
theorem roundRat_iff {f : Format} (hf : Ok f) (p q r : Nat) (hq : 0 < q) (h : ¬ TooLarge f p q) :
    roundRat f p q = r ↔ NearestEven f p q r := by
  have hn := roundRat_nearest hf p q hq (Nat.le_of_not_lt fun hc => h ((roundRat_overflow hf p q hq).1 hc))
  exact ⟨fun e => e ▸ hn, fun h => nearestEven_unique hn h⟩

/-- The fraction may be expanded. -/
theorem roundRat_expand (f : Format) (p q k : Nat) (hk : 0 < k) : roundRat f (p * k) (q * k) = roundRat f p q := by
  have e1 : p * k / (q * k) = p / q := Nat.mul_div_mul_right _ _ hk
  unfold roundRat
  simp only [e1]
  generalize 2 ^ ulpExp f (p / q) = u
  have e2 : q * k * u = (q * u) * k := by ring
  rw [e2, Nat.mul_div_mul_right _ _ hk, Nat.mul_mod_mul_right]
  generalize p % (q * u) = r
  generalize q * u = v
  have i1 : 2 * (r * k) < v * k ↔ 2 * r < v := by
    rw [← Nat.mul_assoc]; exact Nat.mul_lt_mul_right hk
  have i2 : v * k < 2 * (r * k) ↔ v < 2 * r := by
    rw [← Nat.mul_assoc]; exact Nat.mul_lt_mul_right hk
  simp only [i1, i2]

/-- A number of the format is rounded to itself. -/
theorem roundRat_rep {f : Format} (hf : Ok f) (n q : Nat) (hq : 0 < q) (h : Rep f n) : roundRat f (n * q) q = n := by
  have hs := (spacing hf n n h).1 (Nat.le_refl _)
  have hlo : n / 2 ^ ulpExp f n * 2 ^ ulpExp f n ≤ n := Nat.div_mul_le_self _ _
  have e : n * q / q = n := Nat.mul_div_cancel _ hq
  have hc := roundRat_cases f (n * q) q
  simp only [e] at hc
  have hu : 0 < 2 ^ ulpExp f n := Nat.pow_pos (by decide)
  rcases hc with ⟨hr, -⟩ | ⟨hr, hr', -⟩
  · omega
  · exfalso
    generalize n / 2 ^ ulpExp f n = a at *
    generalize 2 ^ ulpExp f n = u at *
    have hn : n = a * u := by omega
    have : 0 < u * q := Nat.mul_pos hu hq
    rw [hn] at hr'
    have e2 : (2 * a + 1) * u * q = 2 * (a * u * q) + u * q := by ring
    omega

theorem decDen_pos (e : Int) : 0 < decDen e := Nat.pow_pos (by decide)

theorem roundDec_eq (f : Format) (d : Nat) (e : Int) : roundDec f d e = roundRat f (decNum d e) (decDen e) := by
  unfold roundDec decNum decDen
  by_cases h : e < 0
  · rw [if_pos h, show e.toNat = 0 by omega, show (-e).toNat = e.natAbs by omega]; simp
  · rw [if_neg h, show (-e).toNat = 0 by omega, show e.toNat = e.natAbs by omega]; simp

/-! ### Reading texts -/

theorem digitVal_dig {b : UInt8} (h : 48 ≤ b.toNat ∧ b.toNat ≤ 57) : Dec.digitVal b = some (b.toNat - 48) := by
  unfold Dec.digitVal; rw [if_pos h]

theorem dig_of_digitVal {b : UInt8} {v : Nat} (h : Dec.digitVal b = some v) :
    (48 ≤ b.toNat ∧ b.toNat ≤ 57) ∧ v = b.toNat - 48 := by
  unfold Dec.digitVal at h
  by_cases hb : 48 ≤ b.toNat ∧ b.toNat ≤ 57
  · rw [if_pos hb] at h; exact ⟨hb, by simpa using h.symm⟩
  · rw [if_neg hb] at h; exact absurd h (by simp)

theorem dig_ne {b : UInt8} (h : 48 ≤ b.toNat ∧ b.toNat ≤ 57) (c : UInt8) (hc : c.toNat < 48 ∨ 57 < c.toNat) : b ≠ c := by
  rintro rfl; omega

theorem numeralValue_cons (b : UInt8) (s : GoStr) : numeralValue (b :: s) = (b.toNat - 48) * 10 ^ s.length + numeralValue s := by
  show List.foldl _ (0 * 10 + (b.toNat - 48)) s = _
  rw [Dec.foldl_acc]; simp

theorem numeralValue_append (a b : GoStr) : numeralValue (a ++ b) = numeralValue a * 10 ^ b.length + numeralValue b := by
  show List.foldl _ 0 (a ++ b) = _
  rw [List.foldl_append, Dec.foldl_acc]; rfl

theorem digits_append {a b : GoStr} (ha : Digits a) (hb : Digits b) : Digits (a ++ b) := by
  intro c hc; rw [List.mem_append] at hc; rcases hc with h | h
  · exact ha c h
  · exact hb c h

/-- Digits are read one after the other. -/
theorem mantissa_digits (ds t : GoStr) (h : Digits ds) (d k : Nat) (dot seen : Bool) :
    mantissa (ds ++ t) d k dot seen =
      mantissa t (d * 10 ^ ds.length + numeralValue ds) (if dot then k + ds.length else k) dot (seen || !ds.isEmpty) := by
  induction ds generalizing d k seen with
  | nil => simp [numeralValue]
  | cons b bs ih =>
    have hb := h b (List.mem_cons_self ..)
    have hne : b ≠ 46 := dig_ne hb 46 (by decide)
    rw [List.cons_append, mantissa, if_neg hne, digitVal_dig hb]
    simp only []
    rw [ih (fun c hc => h c (List.mem_cons_of_mem _ hc)), numeralValue_cons]
    have e1 : (d * 10 + (b.toNat - 48)) * 10 ^ bs.length + numeralValue bs =
        d * 10 ^ (b :: bs).length + ((b.toNat - 48) * 10 ^ bs.length + numeralValue bs) := by
      rw [List.length_cons, Nat.pow_succ]; ring
    rw [e1]
    cases dot <;> simp [Nat.add_comm, Nat.add_left_comm]

/-- Where the mantissa ends. -/
def Ends (dot : Bool) : GoStr → Prop
  | [] => True
  | b :: _ => Dec.digitVal b = none ∧ (b = 46 → dot = true)

theorem mantissa_end (t : GoStr) (dot : Bool) (h : Ends dot t) (d k : Nat) (seen : Bool) :
    mantissa t d k dot seen = (d, k, seen, t) := by
  cases t with
  | nil => rfl
  | cons b bs =>
    rw [mantissa]
    by_cases h46 : b = 46
    · rw [if_pos h46, if_pos (h.2 h46)]
    · rw [if_neg h46, h.1]

/-- Every text is digits and a rest. -/
theorem split_digits (s : GoStr) : ∃ ds t, s = ds ++ t ∧ Digits ds ∧ (t = [] ∨ ∃ b bs, t = b :: bs ∧ Dec.digitVal b = none) := by
  induction s with
  | nil => exact ⟨[], [], rfl, by simp [Digits], Or.inl rfl⟩
  | cons b bs ih =>
    cases hb : Dec.digitVal b with
    | none => exact ⟨[], b :: bs, rfl, by simp [Digits], Or.inr ⟨b, bs, rfl, hb⟩⟩
    | some v =>
      obtain ⟨ds, t, rfl, h1, h2⟩ := ih
      refine ⟨b :: ds, t, rfl, ?_, h2⟩
      intro c hc
      rcases List.mem_cons.1 hc with rfl | hc
      · exact (dig_of_digitVal hb).1
      · exact h1 c hc

/-- The digits of the exponent, added up. -/
def cap (ds : GoStr) : Nat := ds.foldl (fun e b => if e < 10000 then e * 10 + (b.toNat - 48) else e) 0

theorem expDigits_digits (ds t : GoStr) (h : Digits ds) (e : Nat) :
    expDigits (ds ++ t) e = expDigits t (ds.foldl (fun e b => if e < 10000 then e * 10 + (b.toNat - 48) else e) e) := by
  induction ds generalizing e with
  | nil => rfl
  | cons b bs ih =>
    rw [List.cons_append, expDigits, digitVal_dig (h b (List.mem_cons_self ..))]
    simp only []
    rw [ih (fun c hc => h c (List.mem_cons_of_mem _ hc))]
    rfl

theorem cap_spec (ds : GoStr) (h : Digits ds) :
    cap ds < 100000 ∧ ∃ t, cap ds = numeralValue ds / 10 ^ t ∧ (t = 0 ∨ 10000 ≤ cap ds) := by
  obtain ⟨r, rfl⟩ : ∃ r : GoStr, ds = r.reverse := ⟨ds.reverse, by simp⟩
  induction r with
  | nil => exact ⟨by decide, 0, by simp [cap, numeralValue], Or.inl rfl⟩
  | cons b r ih =>
    rw [List.reverse_cons] at h ⊢
    generalize r.reverse = ds at *
    have hb := h b (by simp)
    obtain ⟨h1, t, h2, h3⟩ := ih fun c hc => h c (List.mem_append_left _ hc)
    have e : cap (ds ++ [b]) = if cap ds < 10000 then cap ds * 10 + (b.toNat - 48) else cap ds := by
      unfold cap; rw [List.foldl_append]; rfl
    rw [e, Dec.numeralValue_snoc]
    by_cases hc : cap ds < 10000
    · rw [if_pos hc]
      have ht : t = 0 := by omega
      subst ht
      simp only [Nat.pow_zero, Nat.div_one] at h2
      exact ⟨by omega, 0, by simp [h2], Or.inl rfl⟩
    · rw [if_neg hc]
      refine ⟨h1, t + 1, ?_, Or.inr (by omega)⟩
      have e2 : (numeralValue ds * 10 + (b.toNat - 48)) / 10 = numeralValue ds := by omega
      rw [Nat.pow_succ, Nat.mul_comm (10 ^ t) 10, ← Nat.div_div_eq_div_mul, e2, h2]

theorem cap_unique (ds : GoStr) (h : Digits ds) (v t : Nat) (h1 : v = numeralValue ds / 10 ^ t) (h2 : v < 100000)
    (h3 : t = 0 ∨ 10000 ≤ v) : v = cap ds := by
  obtain ⟨k1, s, k2, k3⟩ := cap_spec ds h
  have key : ∀ a b v w N : Nat, a < b → v = N / 10 ^ a → w = N / 10 ^ b → v < 100000 → (b = 0 ∨ 10000 ≤ w) → False := by
    intro a b v w N hab hv hw hlt hor
    have e : 10 ^ b = 10 ^ a * 10 ^ (b - a) := by rw [← Nat.pow_add]; congr 1; omega
    rw [e, ← Nat.div_div_eq_div_mul, ← hv] at hw
    have h10 : 10 ^ 1 ≤ 10 ^ (b - a) := Nat.pow_le_pow_right (by decide) (by omega)
    have : v / 10 ^ (b - a) ≤ v / 10 := Nat.div_le_div_left (by omega) (by decide)
    omega
  rcases Nat.lt_trichotomy t s with hlt | rfl | hlt
  · exact (key t s v (cap ds) _ hlt h1 k2 h2 k3).elim
  · rw [h1, k2]
  · exact (key s t (cap ds) v _ hlt k2 h1 k1 h3).elim

theorem sign_split {sg t : GoStr} {neg : Bool} (h : Sign sg neg) (ht : ∀ b, t.head? = some b → b ≠ 43 ∧ b ≠ 45) :
    decide ((sg ++ t).head? = some 45) = neg ∧
      (if (sg ++ t).head? = some 43 ∨ (sg ++ t).head? = some 45 then (sg ++ t).tail else sg ++ t) = t := by
  rcases h with ⟨rfl, rfl⟩ | ⟨rfl, rfl⟩ | ⟨rfl, rfl⟩
  · cases t with
    | nil => simp
    | cons b bs =>
      have := ht b rfl
      simp [this.1, this.2]
  · simp
  · simp

theorem exists_sign (s : GoStr) : ∃ sg, s = sg ++ (if s.head? = some 43 ∨ s.head? = some 45 then s.tail else s) ∧
    Sign sg (decide (s.head? = some 45)) := by
  cases s with
  | nil => exact ⟨[], by simp, Or.inl ⟨rfl, by simp⟩⟩
  | cons b bs =>
    by_cases h1 : b = 43
    · subst h1; exact ⟨[43], by simp, Or.inr (Or.inl ⟨rfl, by simp⟩)⟩
    · by_cases h2 : b = 45
      · subst h2; exact ⟨[45], by simp, Or.inr (Or.inr ⟨rfl, by simp⟩)⟩
      · exact ⟨[], by simp [h1, h2], Or.inl ⟨rfl, by simp [h2]⟩⟩

theorem exponent_text {x : GoStr} {e : Int} (h : ExpText x e) : exponent x = some (e, []) := by
  rcases h with ⟨rfl, rfl⟩ | ⟨c, sg, ds, neg, v, t, rfl, hc, hs, hd, hne, hv, hlt, hor, rfl⟩
  · rfl
  · have hv' := cap_unique ds hd v t hv hlt hor
    have hhead : ∀ b, ds.head? = some b → b ≠ 43 ∧ b ≠ 45 := by
      intro b hb
      have := hd b (List.mem_of_mem_head? hb)
      exact ⟨dig_ne this 43 (by decide), dig_ne this 45 (by decide)⟩
    obtain ⟨h1, h2⟩ := sign_split (t := ds) hs hhead
    rw [exponent, if_pos hc]
    simp only [h1, h2]
    cases ds with
    | nil => exact absurd rfl hne
    | cons b bs =>
      have hb := digitVal_dig (hd b (List.mem_cons_self ..))
      have he := expDigits_digits (b :: bs) [] hd 0
      rw [List.append_nil] at he
      simp only [List.head?_cons, Option.bind_eq_bind, Option.bind_some, hb, he]
      rw [hv']; rfl

theorem text_exponent {x : GoStr} {e : Int} (h : exponent x = some (e, [])) : ExpText x e := by
  cases x with
  | nil => simp [exponent] at h; exact Or.inl ⟨rfl, h.symm⟩
  | cons c x =>
    rw [exponent] at h
    by_cases hc : c = 101 ∨ c = 69
    · rw [if_pos hc] at h
      obtain ⟨sg, h1, h2⟩ := exists_sign x
      simp only [] at h
      generalize hy : (if x.head? = some 43 ∨ x.head? = some 45 then x.tail else x) = y at *
      generalize decide (x.head? = some 45) = neg at *
      obtain ⟨ds, t, rfl, hd, ht⟩ := split_digits y
      rw [expDigits_digits _ _ hd] at h
      cases hh : (ds ++ t).head? >>= Dec.digitVal with
      | none => rw [hh] at h; simp at h
      | some w =>
        rw [hh] at h
        simp only [] at h
        have hne : ds ≠ [] := by
          rintro rfl
          rcases ht with rfl | ⟨b, bs, rfl, hb⟩
          · simp at hh
          · simp [hb] at hh
        have ht' : t = [] := by
          rcases ht with rfl | ⟨b, bs, rfl, hb⟩
          · rfl
          · simp [expDigits, hb] at h
        subst ht'
        obtain ⟨k1, t, k2, k3⟩ := cap_spec ds hd
        refine Or.inr ⟨c, sg, ds, neg, cap ds, t, ?_, hc, h2, hd, hne, k2, k1, k3, ?_⟩
        · rw [h1, List.append_nil]
        · simp [expDigits] at h; exact h.symm
    · rw [if_neg hc] at h; simp at h

theorem expText_ends {x : GoStr} {e : Int} (h : ExpText x e) (dot : Bool) : Ends dot x := by
  rcases h with ⟨rfl, -⟩ | ⟨c, sg, ds, neg, v, t, rfl, hc, -⟩
  · trivial
  · rcases hc with rfl | rfl
    · exact ⟨by decide, fun h => absurd h (by decide)⟩
    · exact ⟨by decide, fun h => absurd h (by decide)⟩

/-- What is read of a decimal text. -/
theorem readFloat_text {s : GoStr} {neg : Bool} {d : Nat} {e : Int} (h : DecimalText s neg d e) :
    readFloat s = some (neg, d, e) := by
  obtain ⟨sg, ip, fr, fp, x, ex, rfl, hs, hi, hf, hfr, hne, hx, rfl, rfl⟩ := h
  have hhead : ∀ b, (ip ++ (fr ++ x)).head? = some b → b ≠ 43 ∧ b ≠ 45 := by
    intro b hb
    cases ip with
    | cons c ip =>
      simp at hb; subst hb
      have := hi c (List.mem_cons_self ..)
      exact ⟨dig_ne this 43 (by decide), dig_ne this 45 (by decide)⟩
    | nil =>
      rcases hfr with ⟨rfl, rfl⟩ | rfl
      · exact absurd rfl hne
      · simp at hb; subst hb; decide
  obtain ⟨h1, h2⟩ := sign_split hs hhead
  unfold readFloat
  simp only [h1, h2]
  have hend := expText_ends hx
  rcases hfr with ⟨rfl, rfl⟩ | rfl
  · rw [List.nil_append, mantissa_digits ip x hi, mantissa_end _ _ (hend _)]
    have hip : ip.isEmpty = false := by cases ip with
      | nil => exact absurd rfl hne
      | cons => rfl
    simp [hip, exponent_text hx]
  · rw [mantissa_digits ip _ hi, List.cons_append, mantissa, if_pos rfl]
    simp only [Bool.false_eq_true, if_false]
    rw [mantissa_digits fp x hf, mantissa_end _ _ (hend _)]
    have hip : (!ip.isEmpty || !fp.isEmpty) = true := by
      cases ip with
      | nil => cases fp with
        | nil => exact absurd rfl hne
        | cons => rfl
      | cons => rfl
    simp [hip, exponent_text hx, numeralValue_append]

/-- Only decimal texts are read. -/
theorem text_readFloat {s : GoStr} {neg : Bool} {d : Nat} {e : Int} (h : readFloat s = some (neg, d, e)) :
    DecimalText s neg d e := by
  unfold readFloat at h
  obtain ⟨sg, h1, h2⟩ := exists_sign s
  simp only [] at h
  generalize hy : (if s.head? = some 43 ∨ s.head? = some 45 then s.tail else s) = y at *
  generalize decide (s.head? = some 45) = neg' at *
  obtain ⟨ip, t, rfl, hi, ht⟩ := split_digits y
  rw [mantissa_digits ip t hi] at h
  have fin : ∀ (x : GoStr) (ex : Int), exponent x = some (ex, []) → ExpText x ex := fun x ex => text_exponent
  by_cases hdot : t.head? = some 46
  · obtain ⟨t, rfl⟩ : ∃ t', t = 46 :: t' := by
      cases t with
      | nil => simp at hdot
      | cons b bs => simp at hdot; exact ⟨bs, by rw [hdot]⟩
    rw [mantissa, if_pos rfl] at h
    obtain ⟨fp, x, rfl, hf, hx⟩ := split_digits t
    simp only [Bool.false_eq_true, if_false] at h
    have hend : Ends true x := by
      rcases hx with rfl | ⟨b, bs, rfl, hb⟩
      · trivial
      · exact ⟨hb, fun _ => rfl⟩
    rw [mantissa_digits fp x hf, mantissa_end _ _ hend] at h
    simp only [] at h
    cases hseen : (false || !ip.isEmpty || !fp.isEmpty) with
    | false => rw [hseen] at h; simp at h
    | true =>
      rw [hseen] at h
      simp only [Bool.not_true, Bool.false_eq_true, if_false] at h
      cases hex : exponent x with
      | none => rw [hex] at h; simp at h
      | some r =>
        obtain ⟨ex, rest⟩ := r
        rw [hex] at h
        cases rest with
        | cons => simp at h
        | nil =>
          simp only [Option.some.injEq, Prod.mk.injEq] at h
          obtain ⟨rfl, hd, he⟩ := h
          refine ⟨sg, ip, 46 :: fp, fp, x, ex, by rw [h1]; simp, h2, hi, hf, Or.inr rfl, ?_, fin x ex hex, ?_, ?_⟩
          · intro hc
            rw [List.append_eq_nil_iff] at hc
            rw [hc.1, hc.2] at hseen; simp at hseen
          · rw [← hd, numeralValue_append]; simp
          · rw [← he]; simp
  · have hend : Ends false t := by
      rcases ht with rfl | ⟨b, bs, rfl, hb⟩
      · trivial
      · exact ⟨hb, fun h46 => absurd (by rw [h46]; rfl) hdot⟩
    rw [mantissa_end _ _ hend] at h
    simp only [] at h
    cases hseen : (false || !ip.isEmpty) with
    | false => rw [hseen] at h; simp at h
    | true =>
      rw [hseen] at h
      simp only [Bool.not_true, Bool.false_eq_true, if_false] at h
      cases hex : exponent t with
      | none => rw [hex] at h; simp at h
      | some r =>
        obtain ⟨ex, rest⟩ := r
        rw [hex] at h
        cases rest with
        | cons => simp at h
        | nil =>
          simp only [Option.some.injEq, Prod.mk.injEq] at h
          obtain ⟨rfl, hd, he⟩ := h
          refine ⟨sg, ip, [], [], t, ex, by rw [h1]; simp, h2, hi, by simp [Digits], Or.inl ⟨rfl, rfl⟩, ?_, fin t ex hex, ?_, ?_⟩
          · intro hc
            rw [List.append_nil] at hc
            rw [hc] at hseen; simp at hseen
          · rw [← hd]; simp
          · rw [← he]; simp

/-! ### Special texts -/

theorem lower_iff {b c : UInt8} (hc : 97 ≤ c.toNat ∧ c.toNat ≤ 122) : lower b = c ↔ (b = c ∨ b + 32 = c) := by
  have h32 : (32 : UInt8).toNat = 32 := rfl
  unfold lower
  by_cases h : 65 ≤ b.toNat ∧ b.toNat ≤ 90
  · rw [if_pos h]
    constructor
    · exact Or.inr
    · rintro (rfl | h')
      · omega
      · exact h'
  · rw [if_neg h]
    constructor
    · exact Or.inl
    · rintro (h' | h')
      · exact h'
      · exfalso
        have h2 := congrArg UInt8.toNat h'
        rw [UInt8.toNat_add, h32] at h2
        have := b.toNat_lt
        omega

theorem anyCase_iff {s w : GoStr} (hw : ∀ c ∈ w, 97 ≤ c.toNat ∧ c.toNat ≤ 122) : AnyCase s w ↔ s.map lower = w := by
  unfold AnyCase
  induction w generalizing s with
  | nil =>
    cases s with
    | nil => simp
    | cons => exact ⟨fun h => (nomatch h), fun h => by simp at h⟩
  | cons c w ih =>
    cases s with
    | nil => exact ⟨fun h => (nomatch h), fun h => by simp at h⟩
    | cons b s =>
      rw [List.forall₂_cons, List.map_cons, List.cons.injEq, lower_iff (hw c (List.mem_cons_self ..)),
        ih fun d hd => hw d (List.mem_cons_of_mem _ hd)]

theorem special_iff (s : GoStr) (x : Flt) : special s = some x ↔ SpecialText s x := by
  have a1 : ∀ w, AnyCase w [105, 110, 102] ↔ w.map lower = [105, 110, 102] := fun w => anyCase_iff (by decide)
  have a2 : ∀ w, AnyCase w [105, 110, 102, 105, 110, 105, 116, 121] ↔
      w.map lower = [105, 110, 102, 105, 110, 105, 116, 121] := fun w => anyCase_iff (by decide)
  have a3 : AnyCase s [110, 97, 110] ↔ s.map lower = [110, 97, 110] := anyCase_iff (by decide)
  have hd : ∀ (w : GoStr) (c : UInt8), (w.map lower).head? = some c → c ≠ 43 → c ≠ 45 →
      ∀ b, w.head? = some b → b ≠ 43 ∧ b ≠ 45 := by
    intro w c h1 h2 h3 b h4
    cases w with
    | nil => simp at h4
    | cons e w =>
      simp at h1 h4; subst h4
      constructor
      · rintro rfl; exact h2 (by rw [← h1]; decide)
      · rintro rfl; exact h3 (by rw [← h1]; decide)
  constructor
  · intro h
    unfold special at h
    obtain ⟨sg, h1, h2⟩ := exists_sign s
    simp only [] at h
    generalize hy : (if s.head? = some 43 ∨ s.head? = some 45 then s.tail else s) = y at *
    generalize decide (s.head? = some 45) = neg at *
    by_cases hi : y.map lower = [105, 110, 102] ∨ y.map lower = [105, 110, 102, 105, 110, 105, 116, 121]
    · rw [if_pos hi] at h
      refine Or.inl ⟨sg, y, neg, h1, h2, ?_, by simpa using h.symm⟩
      rw [a1, a2]; exact hi
    · rw [if_neg hi] at h
      by_cases hn : s.map lower = [110, 97, 110]
      · rw [if_pos hn] at h
        exact Or.inr ⟨a3.2 hn, by simpa using h.symm⟩
      · rw [if_neg hn] at h; simp at h
  · rintro (⟨sg, w, neg, rfl, hs, hw, rfl⟩ | ⟨hn, rfl⟩)
    · rw [a1, a2] at hw
      have hh : ∀ b, w.head? = some b → b ≠ 43 ∧ b ≠ 45 := by
        rcases hw with hw | hw
        · exact hd w 105 (by rw [hw]; rfl) (by decide) (by decide)
        · exact hd w 105 (by rw [hw]; rfl) (by decide) (by decide)
      obtain ⟨h1, h2⟩ := sign_split hs hh
      unfold special
      simp only [h1, h2]
      rw [if_pos hw]
    · rw [a3] at hn
      have hh := hd s 110 (by rw [hn]; rfl) (by decide) (by decide)
      obtain ⟨h1, h2⟩ := sign_split (sg := []) (t := s) (neg := false) (Or.inl ⟨rfl, rfl⟩) hh
      rw [List.nil_append] at h1 h2
      unfold special
      simp only [h1, h2, hn]
      decide

/-! ### Decimal texts are neither special nor unusual -/

/-- The characters of decimal texts. -/
def DecChar (b : UInt8) : Prop := (48 ≤ b.toNat ∧ b.toNat ≤ 57) ∨ b = 43 ∨ b = 45 ∨ b = 46 ∨ b = 101 ∨ b = 69

theorem sign_chars {sg : GoStr} {neg : Bool} (h : Sign sg neg) : ∀ b ∈ sg, DecChar b := by
  rcases h with ⟨rfl, -⟩ | ⟨rfl, -⟩ | ⟨rfl, -⟩
  · simp
  · intro b hb; simp at hb; exact Or.inr (Or.inl hb)
  · intro b hb; simp at hb; exact Or.inr (Or.inr (Or.inl hb))

theorem decimal_chars {s : GoStr} {neg : Bool} {d : Nat} {e : Int} (h : DecimalText s neg d e) : ∀ b ∈ s, DecChar b := by
  obtain ⟨sg, ip, fr, fp, x, ex, rfl, hs, hi, hf, hfr, -, hx, -, -⟩ := h
  intro b hb
  simp only [List.mem_append] at hb
  rcases hb with hb | hb | hb | hb
  · exact sign_chars hs b hb
  · exact Or.inl (hi b hb)
  · rcases hfr with ⟨rfl, -⟩ | rfl
    · simp at hb
    · rcases List.mem_cons.1 hb with rfl | hb
      · exact Or.inr (Or.inr (Or.inr (Or.inl rfl)))
      · exact Or.inl (hf b hb)
  · rcases hx with ⟨rfl, -⟩ | ⟨c, sg', ds, neg', v, t, rfl, hc, hs', hd, -⟩
    · simp at hb
    · rcases List.mem_cons.1 hb with rfl | hb
      · exact Or.inr (Or.inr (Or.inr (Or.inr hc)))
      · rcases List.mem_append.1 hb with hb | hb
        · exact sign_chars hs' b hb
        · exact Or.inl (hd b hb)

theorem lower_decChar {b : UInt8} (h : DecChar b) : lower b ≠ 120 ∧ lower b ≠ 105 ∧ lower b ≠ 110 ∧ b ≠ 95 := by
  rcases h with h | rfl | rfl | rfl | rfl | rfl
  · have e : lower b = b := by unfold lower; rw [if_neg (by omega)]
    rw [e]
    exact ⟨dig_ne h _ (by decide), dig_ne h _ (by decide), dig_ne h _ (by decide), dig_ne h _ (by decide)⟩
  all_goals decide

theorem decimal_plain {s : GoStr} {neg : Bool} {d : Nat} {e : Int} (h : DecimalText s neg d e) :
    special s = none ∧ unusual s = false := by
  have hch := decimal_chars h
  have htail : ∀ b ∈ (if s.head? = some 43 ∨ s.head? = some 45 then s.tail else s), DecChar b := by
    intro b hb
    by_cases hc : s.head? = some 43 ∨ s.head? = some 45
    · rw [if_pos hc] at hb; exact hch b (List.mem_of_mem_tail hb)
    · rw [if_neg hc] at hb; exact hch b hb
  constructor
  · unfold special
    simp only []
    generalize (if s.head? = some 43 ∨ s.head? = some 45 then s.tail else s) = y at *
    have h1 : ¬ (y.map lower = [105, 110, 102] ∨ y.map lower = [105, 110, 102, 105, 110, 105, 116, 121]) := by
      intro hc
      cases y with
      | nil => simp at hc
      | cons b y =>
        have : lower b = 105 := by
          rcases hc with hc | hc <;> exact (List.cons.inj hc).1
        exact (lower_decChar (htail b (List.mem_cons_self ..))).2.1 this
    have h2 : ¬ s.map lower = [110, 97, 110] := by
      intro hc
      cases s with
      | nil => simp at hc
      | cons b s => exact (lower_decChar (hch b (List.mem_cons_self ..))).2.2.1 (List.cons.inj hc).1
    rw [if_neg h1, if_neg h2]
  · unfold unusual
    simp only []
    generalize (if s.head? = some 43 ∨ s.head? = some 45 then s.tail else s) = y at *
    rw [Bool.or_eq_false_iff]
    constructor
    · rw [← Bool.not_eq_true, List.contains_iff_mem]
      intro hc
      exact (lower_decChar (hch 95 hc)).2.2.2 rfl
    · rw [← Bool.not_eq_true, beq_iff_eq]
      intro hc
      rcases y with _ | ⟨a, _ | ⟨b, y⟩⟩
      · simp at hc
      · simp at hc
      · simp at hc
        exact (lower_decChar (htail b (by simp))).1 hc.2

/-! ### Texts of numbers -/

theorem numeralValue_zeros (n : Nat) : numeralValue (List.replicate n 48) = 0 := by
  induction n with
  | zero => rfl
  | succ n ih => rw [List.replicate_succ, numeralValue_cons, ih]; simp

theorem zeros_digits (n : Nat) : Digits (List.replicate n 48) := by
  intro b hb
  rw [List.eq_of_mem_replicate hb]; decide

/-- The layout is a decimal text of its number. -/
theorem layout_text (d : Nat) (e : Int) (sg : GoStr) (neg : Bool) (hs : Sign sg neg) :
    ∃ d' e', DecimalText (sg ++ layout d e) neg d' e' ∧ decNum d' e' = decNum d e ∧ decDen e' = decDen e := by
  have hds : Digits (Dec.formatNat d) := Dec.formatNat_digits d
  have hv := Dec.formatNat_value d
  have hne := Dec.formatNat_ne_nil d
  unfold layout
  simp only []
  by_cases h0 : 0 ≤ e
  · rw [if_pos h0]
    refine ⟨d * 10 ^ e.natAbs, 0, ⟨sg, _, [], [], [], 0, by rw [List.append_nil, List.append_nil], hs,
      digits_append hds (zeros_digits _), by simp [Digits], Or.inl ⟨rfl, rfl⟩, by simp [hne], Or.inl ⟨rfl, rfl⟩, ?_, rfl⟩, ?_, ?_⟩
    · rw [List.append_nil, numeralValue_append, hv, numeralValue_zeros]; simp
    · unfold decNum
      rw [show e.toNat = e.natAbs by omega]; simp
    · unfold decDen
      rw [show (-e).toNat = 0 by omega]; rfl
  · rw [if_neg h0]
    refine ⟨d, e, ?_, rfl, rfl⟩
    by_cases h1 : e.natAbs < (Dec.formatNat d).length
    · rw [if_pos h1]
      refine ⟨sg, _, _, (Dec.formatNat d).drop ((Dec.formatNat d).length - e.natAbs), [], 0, by rw [List.append_nil], hs,
        fun b hb => hds b (List.mem_of_mem_take hb), fun b hb => hds b (List.mem_of_mem_drop hb), Or.inr rfl, ?_,
        Or.inl ⟨rfl, rfl⟩, ?_, ?_⟩
      · rw [List.take_append_drop]; exact hne
      · rw [List.take_append_drop, hv]
      · rw [List.length_drop]; omega
    · rw [if_neg h1]
      refine ⟨sg, [48], _, List.replicate (e.natAbs - (Dec.formatNat d).length) 48 ++ Dec.formatNat d, [], 0,
        by rw [List.append_nil]; rfl, hs, by unfold Digits; decide, digits_append (zeros_digits _) hds, Or.inr rfl, by simp,
        Or.inl ⟨rfl, rfl⟩, ?_, ?_⟩
      · rw [numeralValue_append, numeralValue_append, hv, numeralValue_zeros]
        simp [numeralValue]
      · rw [List.length_append, List.length_replicate]; omega

/-- Reading a decimal text. -/
theorem parseFloat_text {f : Format} (other : GoStr → Option Flt) {s : GoStr} {neg : Bool} {d : Nat} {e : Int}
    (h : DecimalText s neg d e) :
    parseFloat f other s = if maxMag f < roundDec f d e then none else some (fin neg (roundDec f d e)) := by
  obtain ⟨h1, h2⟩ := decimal_plain h
  unfold parseFloat
  rw [h1, h2, readFloat_text h]
  simp

/-- Reading the layout of a number. -/
theorem parseFloat_layout {f : Format} (other : GoStr → Option Flt) (d : Nat) (e : Int) {sg : GoStr} {neg : Bool}
    (hs : Sign sg neg) (hm : roundDec f d e ≤ maxMag f) :
    parseFloat f other (sg ++ layout d e) = some (fin neg (roundDec f d e)) := by
  obtain ⟨d', e', h1, h2, h3⟩ := layout_text d e sg neg hs
  have e1 : roundDec f d' e' = roundDec f d e := by rw [roundDec_eq, roundDec_eq, h2, h3]
  rw [parseFloat_text other h1, e1, if_neg (by omega)]

end Flt
end Gost
