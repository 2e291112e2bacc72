import Verif.Model.FloatArith
import Verif.Props.FloatText
import Verif.Props.FloatOrder
import Verif.Props.Assign
/-
Property C137: the arithmetic of F32 and F64.
-/
namespace Gost
open Spec Flt

attribute [local irreducible] Flt.one

namespace Spec
/-- r is the number p/q ≠ 0 (in units), rounded to the nearest number of the format, to the even one in a tie; it is the
infinity of its sign if p/q is too large. -/
def Rounds (f : Format) (p : Int) (q : Nat) (r : Flt) : Prop :=
  (TooLarge f p.natAbs q ∧ r = .inf (decide (p < 0))) ∨
  (¬ TooLarge f p.natAbs q ∧ ∃ n, r = .fin (decide (p < 0)) n ∧ NearestEven f p.natAbs q n)

/-- The sign of a number; zeros and infinities have one, too. -/
def Negative : Flt → Bool
  | .nan => false
  | .inf s => s
  | .fin s _ => s

/-- One of the two zeros. -/
def IsZero (x : Flt) : Prop := Value x 0
end Spec

namespace Flt
theorem roundTo_rounds {f : Format} (hf : Ok f) (p : Int) (a q : Nat) (hq : 0 < q) (ha : p.natAbs = a) (s : Bool)
    (hs : s = decide (p < 0)) : Rounds f p q (roundTo f s a q) := by
  subst ha hs
  unfold roundTo Rounds
  have h := roundRat_overflow hf p.natAbs q hq
  by_cases hm : maxMag f < roundRat f p.natAbs q
  · rw [if_pos hm]; exact Or.inl ⟨h.1 hm, rfl⟩
  · rw [if_neg hm]
    exact Or.inr ⟨fun c => hm (h.2 c), _, rfl, roundRat_nearest hf _ _ hq (by omega)⟩

theorem roundRat_zero (f : Format) (q : Nat) (hq : 0 < q) : roundRat f 0 q = 0 := by
  unfold roundRat
  have : 0 < q * 2 ^ ulpExp f (0 / q) := Nat.mul_pos hq (Nat.pow_pos (by decide))
  rw [Nat.zero_div] at this
  simp only [Nat.zero_mod, Nat.mul_zero, this, if_true, Nat.zero_div, Nat.zero_mul]

theorem roundTo_zero (f : Format) (s : Bool) (q : Nat) (hq : 0 < q) : roundTo f s 0 q = .fin s 0 := by
  unfold roundTo; rw [roundRat_zero f q hq]; simp

theorem roundTo_rep {f : Format} (hf : Ok f) (s : Bool) (n q : Nat) (hq : 0 < q) (h : Rep f n) :
    roundTo f s (n * q) q = .fin s n := by
  unfold roundTo
  rw [roundRat_rep hf n q hq h, if_neg (by have := rep_le_max n h; omega)]

theorem roundTo_ne_nan (f : Format) (s : Bool) (p q : Nat) : roundTo f s p q ≠ .nan := by
  unfold roundTo; by_cases h : maxMag f < roundRat f p q
  · rw [if_pos h]; exact fun h => by cases h
  · rw [if_neg h]; exact fun h => by cases h

theorem value_cases' {x : Flt} {v : Int} (h : Value x v) : ∃ s n, x = .fin s n ∧ v = if s then -(n : Int) else n := by
  cases x with
  | nan => exact h.elim
  | inf => exact h.elim
  | fin s n => exact ⟨s, n, rfl, h⟩

theorem value_minus {x : Flt} {v : Int} (h : Value x v) : Value (minus x) (-v) := by
  obtain ⟨s, n, rfl, rfl⟩ := value_cases' h
  cases s <;> simp [minus, Value]

theorem inFormat_minus {f : Format} {x : Flt} (h : InFormat f x) : InFormat f (minus x) := by
  cases x <;> exact h

theorem plus_rounds {f : Format} (hf : Ok f) (x y : Flt) (v w : Int) (hx : Value x v) (hy : Value y w) :
    (v + w ≠ 0 → Rounds f (v + w) 1 (plus f x y)) ∧
    (v + w = 0 → plus f x y = .fin (Negative x && Negative y) 0) := by
  obtain ⟨s, a, rfl, rfl⟩ := value_cases' hx
  obtain ⟨t, b, rfl, rfl⟩ := value_cases' hy
  cases s <;> cases t <;>
    simp only [plus, Negative, if_true, if_false, Bool.false_eq_true, Bool.true_eq_false, Bool.and_self, Bool.and_false,
      Bool.and_true]
  · refine ⟨fun h => roundTo_rounds hf _ _ _ (by omega) (by omega) _ ?_, fun h => ?_⟩
    · rw [eq_comm, decide_eq_false_iff_not]; omega
    · have : a + b = 0 := by omega
      rw [this, roundTo_zero f _ _ (by omega)]
  · refine ⟨fun h => ?_, fun h => by rw [if_pos (by omega)]⟩
    rw [if_neg (by omega)]
    by_cases c : b < a
    · rw [if_pos c]
      exact roundTo_rounds hf _ _ _ (by omega) (by omega) _ (by rw [eq_comm, decide_eq_false_iff_not]; omega)
    · rw [if_neg c]
      exact roundTo_rounds hf _ _ _ (by omega) (by omega) _ (by rw [eq_comm, decide_eq_true_iff]; omega)
  · refine ⟨fun h => ?_, fun h => by rw [if_pos (by omega)]⟩
    rw [if_neg (by omega)]
    by_cases c : b < a
    · rw [if_pos c]
      exact roundTo_rounds hf _ _ _ (by omega) (by omega) _ (by rw [eq_comm, decide_eq_true_iff]; omega)
    · rw [if_neg c]
      exact roundTo_rounds hf _ _ _ (by omega) (by omega) _ (by rw [eq_comm, decide_eq_false_iff_not]; omega)
  · refine ⟨fun h => roundTo_rounds hf _ _ _ (by omega) (by omega) _ ?_, fun h => ?_⟩
    · rw [eq_comm, decide_eq_true_iff]; omega
    · have : a + b = 0 := by omega
      rw [this, roundTo_zero f _ _ (by omega)]

theorem negative_minus (x : Flt) (h : x ≠ .nan) : Negative (minus x) = !Negative x := by
  cases x with
  | nan => exact absurd rfl h
  | inf => rfl
  | fin => rfl

theorem signed_mul (s t : Bool) (a b : Nat) :
    (if s then -(a : Int) else a) * (if t then -(b : Int) else b) = if (s != t) then -((a * b : Nat) : Int) else ((a * b : Nat) : Int) := by
  cases s <;> cases t <;> simp

theorem signed_lt (s : Bool) (n : Nat) (h : 0 < n) : s = decide ((if s then -(n : Int) else n) < 0) := by
  cases s
  · simp
  · simp; omega

theorem signed_natAbs (s : Bool) (n : Nat) : (if s then -(n : Int) else n).natAbs = n := by
  cases s <;> simp

theorem signed_zero (s : Bool) (n : Nat) : (if s then -(n : Int) else n) = 0 ↔ n = 0 := by
  cases s <;> simp
end Flt

/-- C137, sums: `x.Add(y)` of finite numbers is the exact sum, correctly rounded; an exact sum of zero is +0,
except that of two negative zeros. -/
theorem C137_add {f : Format} (hf : Ok f) (x y : Flt) (v w : Int) (hx : Value x v) (hy : Value y w) :
    (v + w ≠ 0 → Rounds f (v + w) 1 (x.add f y)) ∧
    (v + w = 0 → x.add f y = .fin (Negative x && Negative y) 0) := plus_rounds hf x y v w hx hy

/-- C137, differences. -/
theorem C137_sub {f : Format} (hf : Ok f) (x y : Flt) (v w : Int) (hx : Value x v) (hy : Value y w) :
    (v - w ≠ 0 → Rounds f (v - w) 1 (x.sub f y)) ∧
    (v - w = 0 → x.sub f y = .fin (Negative x && !Negative y) 0) := by
  have h := plus_rounds hf x (minus y) v (-w) hx (value_minus hy)
  rw [negative_minus y (by rintro rfl; exact hy)] at h
  exact h

/-- C137, products: the exact product is v·w units of units, that is v·w / 2^1074 units. -/
theorem C137_mul {f : Format} (hf : Ok f) (x y : Flt) (v w : Int) (hx : Value x v) (hy : Value y w) :
    (v * w ≠ 0 → Rounds f (v * w) one (x.mul f y)) ∧
    (v * w = 0 → x.mul f y = .fin (Negative x != Negative y) 0) := by
  obtain ⟨s, a, rfl, rfl⟩ := value_cases' hx
  obtain ⟨t, b, rfl, rfl⟩ := value_cases' hy
  rw [signed_mul]
  generalize ha : (s != t) = u
  refine ⟨fun h => ?_, fun h => ?_⟩
  · have h0 : 0 < a * b := Nat.pos_of_ne_zero fun c => h (by rw [c]; simp)
    show Rounds f _ one (roundTo f (s != t) (a * b) one)
    rw [ha]
    exact roundTo_rounds hf _ _ _ Flt.one_pos (signed_natAbs u _) _ (signed_lt u _ h0)
  · rw [signed_zero] at h
    show roundTo f (s != t) (a * b) one = .fin (s != t) 0
    rw [h, roundTo_zero f _ _ Flt.one_pos]

/-- C137, quotients: the exact quotient v/w is v·2^1074 / w units; division by zero gives NaN or an infinity,
never a panic. -/
theorem C137_div {f : Format} (hf : Ok f) (x y : Flt) (v w : Int) (hx : Value x v) (hy : Value y w) :
    (w ≠ 0 → v ≠ 0 → Rounds f (v * one * w.sign) w.natAbs (x.div f y)) ∧
    (w ≠ 0 → v = 0 → x.div f y = .fin (Negative x != Negative y) 0) ∧
    (w = 0 → v ≠ 0 → x.div f y = .inf (Negative x != Negative y)) ∧
    (w = 0 → v = 0 → x.div f y = .nan) := by
  obtain ⟨s, a, rfl, rfl⟩ := value_cases' hx
  obtain ⟨t, b, rfl, rfl⟩ := value_cases' hy
  have hd : Flt.div f (.fin s a) (.fin t b) =
    if b = 0 then (if a = 0 then .nan else .inf (s != t)) else roundTo f (s != t) (a * one) b := rfl
  simp only [ne_eq, signed_zero, hd, Negative, signed_natAbs]
  refine ⟨fun hb ha => ?_, fun hb ha => ?_, fun hb ha => ?_, fun hb ha => ?_⟩
  · rw [if_neg hb]
    have e : (if s then -(a : Int) else a) * (one : Int) * (if t then -(b : Int) else b).sign =
        if (s != t) then -((a * one : Nat) : Int) else ((a * one : Nat) : Int) := by
      have h1 : (if t then -(b : Int) else (b : Int)).sign = if t then -1 else 1 := by
        cases t
        · exact Int.sign_eq_one_of_pos (by simp; omega)
        · exact Int.sign_eq_neg_one_of_neg (by simp; omega)
      rw [h1]; cases s <;> cases t <;> simp
    rw [e]
    have h0 : 0 < a * one := Nat.mul_pos (by omega) Flt.one_pos
    exact roundTo_rounds hf _ _ _ (by omega) (signed_natAbs _ _) _ (signed_lt _ _ h0)
  · rw [if_neg hb, ha, Nat.zero_mul, roundTo_zero f _ _ (by omega)]
  · rw [if_pos hb, if_neg ha]
  · rw [if_pos hb, if_pos ha]

/-- C137: `Rounds` determines its result. -/
theorem C137_rounds_unique {f : Format} (p : Int) (q : Nat) (r r' : Flt) (h : Rounds f p q r) (h' : Rounds f p q r') :
    r = r' := by
  rcases h with ⟨a, rfl⟩ | ⟨a, n, rfl, hn⟩ <;> rcases h' with ⟨b, rfl⟩ | ⟨b, m, rfl, hm⟩
  · rfl
  · exact absurd a b
  · exact absurd b a
  · rw [nearestEven_unique hn hm]

/-- C137, special operands: exactly when a result is NaN, and the infinite results of infinite operands. -/
theorem C137_special (f : Format) (x y : Flt) :
    (x.add f y = .nan ↔ x = .nan ∨ y = .nan ∨ ∃ s, x = .inf s ∧ y = .inf (!s)) ∧
    (x.sub f y = .nan ↔ x = .nan ∨ y = .nan ∨ ∃ s, x = .inf s ∧ y = .inf s) ∧
    (x.mul f y = .nan ↔ x = .nan ∨ y = .nan ∨ (∃ s, x = .inf s ∧ IsZero y) ∨ ∃ s, y = .inf s ∧ IsZero x) ∧
    (x.div f y = .nan ↔ x = .nan ∨ y = .nan ∨ (∃ s t, x = .inf s ∧ y = .inf t) ∨ IsZero x ∧ IsZero y) ∧
    (∀ s, x = .inf s → x.add f y = .nan ∨ x.add f y = .inf s) ∧
    (∀ s, y = .inf s → x.add f y = .nan ∨ x.add f y = .inf s) ∧
    (∀ s, x = .inf s → x.sub f y = .nan ∨ x.sub f y = .inf s) ∧
    (∀ s, y = .inf s → x.sub f y = .nan ∨ x.sub f y = .inf (!s)) ∧
    ((∃ s, x = .inf s ∨ y = .inf s) → x.mul f y = .nan ∨ x.mul f y = .inf (Negative x != Negative y)) ∧
    (∀ s, x = .inf s → x.div f y = .nan ∨ x.div f y = .inf (Negative x != Negative y)) ∧
    (∀ s, y = .inf s → x.div f y = .nan ∨ x.div f y = .fin (Negative x != Negative y) 0) := by
  have hz : ∀ s n, IsZero (.fin s n) ↔ n = 0 := fun s n => by
    show (0 : Int) = _ ↔ _; rw [eq_comm, signed_zero]
  cases x with
  | nan => simp [add, sub, mul, div, plus, times, over]
  | inf s =>
    cases y with
    | nan => simp [add, sub, mul, div, plus, times, over, minus]
    | inf t => cases s <;> cases t <;> simp [add, sub, mul, div, plus, times, over, minus, IsZero, Value, Negative]
    | fin t b =>
      have h0 : ¬ IsZero (.inf s) := id
      by_cases hb : b = 0 <;> simp [add, sub, mul, div, plus, times, over, minus, Negative, hz, hb, h0]
  | fin s a =>
    cases y with
    | nan => simp [add, sub, mul, div, plus, times, over, minus]
    | inf t =>
      have h0 : ¬ IsZero (.inf t) := id
      by_cases hb : a = 0 <;> simp [add, sub, mul, div, plus, times, over, minus, Negative, hz, hb, h0]
    | fin t b =>
      have h1 := hz s a
      have h2 := hz t b
      have hp : ∀ t, plus f (.fin s a) (.fin t b) ≠ .nan := by
        intro t
        simp only [plus]
        by_cases c1 : s = t
        · rw [if_pos c1]; exact roundTo_ne_nan _ _ _ _
        · rw [if_neg c1]
          by_cases c2 : a = b
          · rw [if_pos c2]; exact fun h => by cases h
          · rw [if_neg c2]
            by_cases c3 : b < a
            · rw [if_pos c3]; exact roundTo_ne_nan _ _ _ _
            · rw [if_neg c3]; exact roundTo_ne_nan _ _ _ _
      have hm : times f (.fin s a) (.fin t b) ≠ .nan := roundTo_ne_nan _ _ _ _
      refine ⟨by simp [add, hp], by simp [sub, minus, hp], by simp [mul, hm], ?_, by simp, by simp, by simp, by simp, by simp,
        by simp, by simp⟩
      simp only [div, over, h1, h2]
      by_cases c1 : b = 0
      · by_cases c2 : a = 0 <;> simp [c1, c2]
      · simp [c1, roundTo_ne_nan]

example : add f64 (.inf false) (.inf true) = .nan ∧ mul f32 (.inf true) (.fin false 0) = .nan ∧
    sub f64 (.inf false) (.inf true) = .inf false ∧ div f64 (.fin true 5) (.inf false) = .fin true 0 := ⟨rfl, rfl, rfl, rfl⟩

/-! ### Consequences -/

namespace Flt
theorem rounds_rep {f : Format} (hf : Ok f) (n : Int) (q : Nat) (hq : 0 < q) (h : Rep f n.natAbs) (r : Flt)
    (hr : Rounds f (n * q) q r) : Value r n := by
  have hn : (n * (q : Int)).natAbs = n.natAbs * q := by rw [Int.natAbs_mul]; rfl
  have e := roundTo_rep hf (decide (n * (q : Int) < 0)) n.natAbs q hq h
  have h2 := roundTo_rounds hf (n * q) _ q hq hn _ rfl
  rw [e] at h2
  rw [C137_rounds_unique _ _ _ _ hr h2]
  have hd : decide (n * (q : Int) < 0) = decide (n < 0) := by
    have : n * (q : Int) < 0 ↔ n < 0 := by
      constructor
      · intro h; by_contra c; have := Int.mul_nonneg (Int.not_lt.1 c) (Int.natCast_nonneg q); omega
      · intro h; exact Int.mul_neg_of_neg_of_pos h (by omega)
    simp only [this]
  rw [hd]
  show n = _
  by_cases c : n < 0
  · rw [decide_eq_true c, if_pos rfl]; omega
  · rw [decide_eq_false c, if_neg (by decide)]; omega

theorem value_zero_fin (s : Bool) : Value (.fin s 0) 0 := by cases s <;> rfl

theorem roundTo_inFormat {f : Format} (hf : Ok f) (s : Bool) (p q : Nat) (hq : 0 < q) : InFormat f (roundTo f s p q) := by
  unfold roundTo
  by_cases h : maxMag f < roundRat f p q
  · rw [if_pos h]; trivial
  · rw [if_neg h]; exact (roundRat_nearest hf p q hq (by omega)).1

theorem plus_inFormat {f : Format} (hf : Ok f) (x y : Flt) : InFormat f (plus f x y) := by
  cases x with
  | nan => trivial
  | inf s =>
    cases y with
    | nan => trivial
    | inf t => by_cases c : s = t <;> simp [plus, c, InFormat]
    | fin t b => trivial
  | fin s a =>
    cases y with
    | nan => trivial
    | inf t => trivial
    | fin t b =>
      simp only [plus]
      by_cases c1 : s = t
      · rw [if_pos c1]; exact roundTo_inFormat hf _ _ _ (by omega)
      · rw [if_neg c1]
        by_cases c2 : a = b
        · rw [if_pos c2]; exact rep_zero hf
        · rw [if_neg c2]
          by_cases c3 : b < a
          · rw [if_pos c3]; exact roundTo_inFormat hf _ _ _ (by omega)
          · rw [if_neg c3]; exact roundTo_inFormat hf _ _ _ (by omega)
end Flt

/-- C137: results are numbers of the format. -/
theorem C137_closed {f : Format} (hf : Ok f) (x y : Flt) :
    InFormat f (x.add f y) ∧ InFormat f (x.sub f y) ∧ InFormat f (x.mul f y) ∧ InFormat f (x.div f y) := by
  refine ⟨plus_inFormat hf _ _, plus_inFormat hf _ _, ?_, ?_⟩
  · cases x with
    | nan => trivial
    | inf s =>
      cases y with
      | nan => trivial
      | inf t => trivial
      | fin t b => by_cases c : b = 0 <;> simp [mul, times, c, InFormat]
    | fin s a =>
      cases y with
      | nan => trivial
      | inf t => by_cases c : a = 0 <;> simp [mul, times, c, InFormat]
      | fin t b => exact roundTo_inFormat hf _ _ _ Flt.one_pos
  · cases x with
    | nan => trivial
    | inf s =>
      cases y with
      | nan => trivial
      | inf t => trivial
      | fin t b => trivial
    | fin s a =>
      cases y with
      | nan => trivial
      | inf t => exact rep_zero hf
      | fin t b =>
        simp only [div, over]
        by_cases c : b = 0
        · rw [if_pos c]
          by_cases c' : a = 0
          · rw [if_pos c']; trivial
          · rw [if_neg c']; trivial
        · rw [if_neg c]; exact roundTo_inFormat hf _ _ _ (by omega)

/-- C137, exactness: if the exact result is a number of the format, then it is the result.  `z` is the exact product if
z·2^1074 = v·w in units, the exact quotient if z·w = v·2^1074. -/
theorem C137_exact {f : Format} (hf : Ok f) (x y : Flt) (v w : Int) (hx : Value x v) (hy : Value y w) :
    (Rep f (v + w).natAbs → Value (x.add f y) (v + w)) ∧
    (Rep f (v - w).natAbs → Value (x.sub f y) (v - w)) ∧
    (∀ z : Int, z * one = v * w → Rep f z.natAbs → Value (x.mul f y) z) ∧
    (∀ z : Int, w ≠ 0 → z * w = v * one → Rep f z.natAbs → Value (x.div f y) z) := by
  have hone := Flt.one_pos
  refine ⟨fun h => ?_, fun h => ?_, fun z hz h => ?_, fun z hw hz h => ?_⟩
  · by_cases c : v + w = 0
    · rw [(C137_add hf x y v w hx hy).2 c, c]; exact value_zero_fin _
    · exact rounds_rep hf _ 1 (by omega) h _ (by simpa using (C137_add hf x y v w hx hy).1 c)
  · by_cases c : v - w = 0
    · rw [(C137_sub hf x y v w hx hy).2 c, c]; exact value_zero_fin _
    · exact rounds_rep hf _ 1 (by omega) h _ (by simpa using (C137_sub hf x y v w hx hy).1 c)
  · by_cases c : v * w = 0
    · rw [(C137_mul hf x y v w hx hy).2 c]
      have : z = 0 := by
        rw [c] at hz
        rcases Int.mul_eq_zero.1 hz with h | h
        · exact h
        · omega
      rw [this]; exact value_zero_fin _
    · exact rounds_rep hf _ one Flt.one_pos h _ (by rw [hz]; exact (C137_mul hf x y v w hx hy).1 c)
  · by_cases c : v = 0
    · rw [(C137_div hf x y v w hx hy).2.1 hw c]
      have : z = 0 := by
        rw [c, Int.zero_mul] at hz
        rcases Int.mul_eq_zero.1 hz with h | h
        · exact h
        · exact absurd h hw
      rw [this]; exact value_zero_fin _
    · refine rounds_rep hf _ w.natAbs (by omega) h _ ?_
      have e : z * (w.natAbs : Int) = v * one * w.sign := by
        rw [← hz, Int.mul_assoc, Int.mul_sign_self]
      rw [e]; exact (C137_div hf x y v w hx hy).1 hw c

/-- C137, integers: sums, differences, products and exact quotients of integers are exact if the result is at most
2^24 (F32) or 2^53 (F64) in magnitude. -/
theorem C137_integers {f : Format} (hf : TextInts f) (x y : Flt) (i j : Int) (hx : Value x (i * one)) (hy : Value y (j * one)) :
    ((i + j).natAbs ≤ 2 ^ f.prec → Value (x.add f y) ((i + j) * one)) ∧
    ((i - j).natAbs ≤ 2 ^ f.prec → Value (x.sub f y) ((i - j) * one)) ∧
    ((i * j).natAbs ≤ 2 ^ f.prec → Value (x.mul f y) (i * j * one)) ∧
    (∀ k, j ≠ 0 → i = k * j → k.natAbs ≤ 2 ^ f.prec → Value (x.div f y) (k * one)) := by
  obtain ⟨h1, h2, h3, h4⟩ := C137_exact hf.ok x y _ _ hx hy
  have key : ∀ k : Int, k.natAbs ≤ 2 ^ f.prec → Rep f (k * one).natAbs := fun k hk => by
    rw [Int.natAbs_mul]; exact rep_upto hf _ hk
  refine ⟨fun h => ?_, fun h => ?_, fun h => ?_, fun k hj hi h => ?_⟩
  · rw [← Int.add_mul] at h1; exact h1 (key _ h)
  · rw [← Int.sub_mul] at h2; exact h2 (key _ h)
  · exact h3 _ (by ring) (key _ h)
  · refine h4 _ (fun c => ?_) (by rw [hi]; ring) (key _ h)
    rcases Int.mul_eq_zero.1 c with c | c
    · exact hj c
    · have := Flt.one_pos; omega

/-- C137, algebra: Add and Mul are commutative for all values; x + (-0), x - 0, x·1 and x/1 are x;
x - x is +0 and x/x is 1 for finite x (x ≠ 0); the sign can be taken out of a product and a quotient; x - y is x + (-y). -/
theorem C137_algebra {f : Format} (hf : TextInts f) (x y : Flt) (hx : InFormat f x) :
    x.add f y = y.add f x ∧ x.mul f y = y.mul f x ∧
    x.add f (.fin true 0) = x ∧ x.sub f (.fin false 0) = x ∧ x.mul f (.fin false one) = x ∧ x.div f (.fin false one) = x ∧
    (∀ s n, x = .fin s n → x.sub f x = .fin false 0) ∧
    (∀ s n, x = .fin s n → n ≠ 0 → x.div f x = .fin false one) ∧
    (minus x).mul f y = minus (x.mul f y) ∧ (minus x).div f y = minus (x.div f y) ∧ x.div f (minus y) = minus (x.div f y) ∧
    x.sub f y = x.add f (minus y) ∧ minus (minus x) = x := by
  have hr1 : Rep f one := by simpa using rep_upto hf 1 Nat.one_le_two_pow
  have hone := Flt.one_pos
  have hm : ∀ s p q, minus (roundTo f s p q) = roundTo f (!s) p q := by
    intro s p q; unfold roundTo
    by_cases c : maxMag f < roundRat f p q
    · rw [if_pos c, if_pos c]; rfl
    · rw [if_neg c, if_neg c]; rfl
  have hx1 : ∀ s n, x = .fin s n → roundTo f s n 1 = .fin s n := fun s n e => by
    have := roundTo_rep hf.ok s n 1 (by omega) (by rw [e] at hx; exact hx)
    rwa [Nat.mul_one] at this
  refine ⟨?_, ?_, ?_, ?_, ?_, ?_, ?_, ?_, ?_, ?_, ?_, rfl, ?_⟩
  · cases x with
    | nan => cases y <;> rfl
    | inf s =>
      cases y with
      | nan => rfl
      | inf t => cases s <;> cases t <;> rfl
      | fin t b => rfl
    | fin s a =>
      cases y with
      | nan => rfl
      | inf t => rfl
      | fin t b =>
        simp only [add, plus]
        by_cases c1 : s = t
        · rw [if_pos c1, if_pos c1.symm, c1, Nat.add_comm]
        · rw [if_neg c1, if_neg (Ne.symm c1)]
          by_cases c2 : a = b
          · rw [if_pos c2, if_pos c2.symm]
          · rw [if_neg c2, if_neg (Ne.symm c2)]
            by_cases c3 : b < a
            · rw [if_pos c3, if_neg (by omega)]
            · rw [if_neg c3, if_pos (by omega)]
  · have hc : ∀ s t : Bool, (s != t) = (t != s) := by decide
    cases x with
    | nan => cases y <;> rfl
    | inf s =>
      cases y with
      | nan => rfl
      | inf t => simp only [mul, times, hc s t]
      | fin t b => simp only [mul, times, hc s t]
    | fin s a =>
      cases y with
      | nan => rfl
      | inf t => simp only [mul, times, hc s t]
      | fin t b => simp only [mul, times, hc s t, Nat.mul_comm]
  · cases x with
    | nan => rfl
    | inf s => rfl
    | fin s a =>
      have h := hx1 s a rfl
      simp only [add, plus]
      by_cases c1 : s = true
      · rw [if_pos c1]; exact h
      · rw [if_neg c1]
        by_cases c2 : a = 0
        · rw [if_pos c2, c2]; cases s
          · rfl
          · exact absurd rfl c1
        · rw [if_neg c2, if_pos (by omega)]; exact h
  · cases x with
    | nan => rfl
    | inf s => rfl
    | fin s a =>
      have h := hx1 s a rfl
      simp only [sub, minus, plus, Bool.not_false]
      by_cases c1 : s = true
      · rw [if_pos c1]; exact h
      · rw [if_neg c1]
        by_cases c2 : a = 0
        · rw [if_pos c2, c2]; cases s
          · rfl
          · exact absurd rfl c1
        · rw [if_neg c2, if_pos (by omega)]; exact h
  · cases x with
    | nan => rfl
    | inf s => simp [mul, times, show one ≠ 0 by omega]
    | fin s a =>
      show roundTo f (s != false) (a * one) one = _
      rw [roundTo_rep hf.ok _ a one hone hx]; simp
  · cases x with
    | nan => rfl
    | inf s => simp [div, over]
    | fin s a =>
      show (if one = 0 then _ else roundTo f (s != false) (a * one) one) = _
      rw [if_neg (by omega), roundTo_rep hf.ok _ a one hone hx]; simp
  · rintro s n rfl
    cases s <;> simp [sub, minus, plus]
  · rintro s n rfl hn
    show (if n = 0 then _ else roundTo f (s != s) (n * one) n) = _
    rw [if_neg hn, Nat.mul_comm, roundTo_rep hf.ok _ one n (by omega) hr1]; simp
  · cases x with
    | nan => rfl
    | inf s =>
      cases y with
      | nan => rfl
      | inf t => cases s <;> cases t <;> rfl
      | fin t b => by_cases c : b = 0 <;> simp [mul, times, minus, c]
    | fin s a =>
      cases y with
      | nan => rfl
      | inf t => by_cases c : a = 0 <;> simp [mul, times, minus, c]
      | fin t b =>
        show roundTo f ((!s) != t) (a * b) one = minus (roundTo f (s != t) (a * b) one)
        rw [hm]; cases s <;> cases t <;> rfl
  · cases x with
    | nan => rfl
    | inf s =>
      cases y with
      | nan => rfl
      | inf t => rfl
      | fin t b => simp [div, over, minus]
    | fin s a =>
      cases y with
      | nan => rfl
      | inf t => simp [div, over, minus]
      | fin t b =>
        by_cases c : b = 0
        · by_cases c' : a = 0 <;> simp [div, over, minus, c, c']
        · show (if b = 0 then _ else roundTo f ((!s) != t) (a * one) b) = minus (if b = 0 then _ else roundTo f (s != t) (a * one) b)
          rw [if_neg c, if_neg c, hm]; cases s <;> cases t <;> rfl
  · cases x with
    | nan => rfl
    | inf s =>
      cases y with
      | nan => rfl
      | inf t => rfl
      | fin t b => simp [div, over, minus]
    | fin s a =>
      cases y with
      | nan => rfl
      | inf t => simp [div, over, minus]
      | fin t b =>
        by_cases c : b = 0
        · by_cases c' : a = 0 <;> simp [div, over, minus, c, c']
        · show (if b = 0 then _ else roundTo f (s != !t) (a * one) b) = minus (if b = 0 then _ else roundTo f (s != t) (a * one) b)
          rw [if_neg c, if_neg c, hm]; cases s <;> cases t <;> rfl
  · cases x <;> simp [minus]

/-- C137: Add is not associative: 2^53 + 1 + 1 depends on the order. -/
theorem C137_not_associative :
    add f64 (add f64 (.fin false (2 ^ 53)) (.fin false 1)) (.fin false 1) ≠
      add f64 (.fin false (2 ^ 53)) (add f64 (.fin false 1) (.fin false 1)) := by decide +kernel
/-! ### Subtraction of near numbers -/

namespace Flt
theorem rep_dvd {f : Format} {n : Nat} (h : Rep f n) : 2 ^ f.emin ∣ n := by
  obtain ⟨m, e, rfl, -, h1, -⟩ := h
  exact Nat.dvd_trans (Nat.pow_dvd_pow 2 h1) (Nat.dvd_mul_left _ _)

theorem rep_least {f : Format} (hf : Ok f) : Rep f (2 ^ f.emin) :=
  ⟨1, f.emin, by simp, Nat.one_lt_two_pow (by have := hf.prec; omega), Nat.le_refl _, hf.exp⟩

/-- Numbers of the format that differ by at most either of them differ by a number of the format. -/
theorem rep_diff {f : Format} {a b : Nat} (ha : Rep f a) (hb : Rep f b) (hle : a ≤ b) (h : b ≤ 2 * a) : Rep f (b - a) := by
  obtain ⟨m, e, rfl, hm, h1, h2⟩ := ha
  obtain ⟨m', e', rfl, hm', h1', h2'⟩ := hb
  by_cases c : e ≤ e'
  · have e1 : m' * 2 ^ e' = m' * 2 ^ (e' - e) * 2 ^ e := by
      rw [Nat.mul_assoc, ← Nat.pow_add]; congr 2; omega
    refine ⟨m' * 2 ^ (e' - e) - m, e, by rw [Nat.sub_mul, ← e1], ?_, h1, h2⟩
    rw [e1] at h
    have : m' * 2 ^ (e' - e) ≤ 2 * m := by
      refine Nat.le_of_mul_le_mul_right ?_ (Nat.pow_pos (n := e) (show 0 < 2 by decide))
      rw [Nat.mul_assoc 2]; exact h
    omega
  · have e1 : m * 2 ^ e = m * 2 ^ (e - e') * 2 ^ e' := by
      rw [Nat.mul_assoc, ← Nat.pow_add]; congr 2; omega
    refine ⟨m' - m * 2 ^ (e - e'), e', by rw [Nat.sub_mul, ← e1], ?_, h1', h2'⟩
    omega

/-- A nonzero multiple of the least positive number is not rounded to zero. -/
theorem rounds_ne_zero {f : Format} (hf : Ok f) (p : Int) (r : Flt) (hp : p ≠ 0) (hd : 2 ^ f.emin ∣ p.natAbs)
    (h : Rounds f p 1 r) : ¬ IsZero r := by
  rcases h with ⟨-, rfl⟩ | ⟨-, n, rfl, hn⟩
  · exact id
  · intro hz
    have hz : n = 0 := (signed_zero _ _).1 (Eq.symm hz)
    subst hz
    have h0 : 0 < 2 ^ f.emin := Nat.pow_pos (by decide)
    have h1 := hn.2.1 _ (rep_least hf) h0
    have h2 := Nat.le_of_dvd (by omega) hd
    omega
end Flt

/-- C137: `x.Sub(y)` of finite numbers is a zero exactly if x and y are equal numbers (no underflow to zero), and so is
`x.Add(y)` exactly if y is -x. -/
theorem C137_sub_zero {f : Format} (hf : Ok f) (x y : Flt) (v w : Int) (hx : Value x v) (hy : Value y w)
    (fx : InFormat f x) (fy : InFormat f y) :
    (IsZero (x.sub f y) ↔ v = w) ∧ (IsZero (x.add f y) ↔ v = -w) := by
  have key : ∀ {x : Flt} {v : Int}, Value x v → InFormat f x → (2 ^ f.emin : Int) ∣ v := by
    intro x v h hi
    obtain ⟨s, n, rfl, rfl⟩ := value_cases' h
    have h1 : ((2 ^ f.emin : Nat) : Int) ∣ (n : Int) := Int.natCast_dvd_natCast.2 (rep_dvd hi)
    rw [Int.natCast_pow] at h1
    cases s
    · exact h1
    · exact (Int.dvd_neg).2 h1
  have hv := key hx fx
  have hw := key hy fy
  have cast : ∀ z : Int, (2 ^ f.emin : Int) ∣ z → 2 ^ f.emin ∣ z.natAbs := fun z h => by
    have h1 : ((2 ^ f.emin : Nat) : Int) ∣ z := by rw [Int.natCast_pow]; exact h
    exact Int.natCast_dvd.1 h1
  constructor
  · constructor
    · intro h
      by_contra c
      exact rounds_ne_zero hf _ _ (by omega) (cast _ (Int.dvd_sub hv hw)) ((C137_sub hf x y v w hx hy).1 (by omega)) h
    · intro h
      rw [(C137_sub hf x y v w hx hy).2 (by omega)]; exact value_zero_fin _
  · constructor
    · intro h
      by_contra c
      exact rounds_ne_zero hf _ _ (by omega) (cast _ (Int.dvd_add hv hw)) ((C137_add hf x y v w hx hy).1 (by omega)) h
    · intro h
      rw [(C137_add hf x y v w hx hy).2 (by omega)]; exact value_zero_fin _

/-- C137 (Sterbenz): the difference of two numbers of equal sign, neither more than twice the other, is exact. -/
theorem C137_sterbenz {f : Format} (hf : Ok f) (x y : Flt) (v w : Int) (hx : Value x v) (hy : Value y w)
    (fx : InFormat f x) (fy : InFormat f y) (hs : 0 ≤ v ∧ 0 ≤ w ∨ v ≤ 0 ∧ w ≤ 0) (h1 : v.natAbs ≤ 2 * w.natAbs)
    (h2 : w.natAbs ≤ 2 * v.natAbs) : Value (x.sub f y) (v - w) := by
  have key : ∀ {x : Flt} {v : Int}, Value x v → InFormat f x → Rep f v.natAbs := by
    intro x v h hi
    obtain ⟨s, n, rfl, rfl⟩ := value_cases' h
    rw [signed_natAbs]; exact hi
  have hv := key hx fx
  have hw := key hy fy
  refine (C137_exact hf x y v w hx hy).2.1 ?_
  by_cases c : v.natAbs ≤ w.natAbs
  · have e : (v - w).natAbs = w.natAbs - v.natAbs := by omega
    rw [e]; exact rep_diff hv hw c h2
  · have e : (v - w).natAbs = v.natAbs - w.natAbs := by omega
    rw [e]; exact rep_diff hw hv (by omega) h1

/-! ### Monotonicity -/

namespace Flt
/-- A number, with infinities just outside of the range of the format. -/
def key (f : Format) : Flt → Int
  | .nan => 0
  | .inf s => if s then -((maxMag f + 1 : Nat) : Int) else ((maxMag f + 1 : Nat) : Int)
  | .fin s n => if s then -(n : Int) else n

/-- Rounding that ends at `maxMag f + 1`. -/
def capped (f : Format) (p q : Nat) : Nat := min (maxMag f + 1) (roundRat f p q)

theorem key_roundTo (f : Format) (s : Bool) (p q : Nat) :
    key f (roundTo f s p q) = if s then -((capped f p q : Nat) : Int) else ((capped f p q : Nat) : Int) := by
  unfold roundTo capped
  by_cases c : maxMag f < roundRat f p q
  · rw [if_pos c, Nat.min_eq_left (by omega)]; rfl
  · rw [if_neg c, Nat.min_eq_right (by omega)]; rfl

theorem less_iff_key {f : Format} {x y : Flt} (hx : InFormat f x) (hy : InFormat f y) (nx : x ≠ .nan) (ny : y ≠ .nan) :
    FltLess x y ↔ key f x < key f y := by
  cases x with
  | nan => exact absurd rfl nx
  | inf s =>
    cases y with
    | nan => exact absurd rfl ny
    | inf t => cases s <;> cases t <;> simp [FltLess, key] <;> omega
    | fin t b =>
      have := rep_le_max b hy
      cases s <;> cases t <;> simp [FltLess, key] <;> omega
  | fin s a =>
    have ha := rep_le_max a hx
    cases y with
    | nan => exact absurd rfl ny
    | inf t => cases s <;> cases t <;> simp [FltLess, key] <;> omega
    | fin t b =>
      constructor
      · rintro ⟨v, w, hv, hw, h⟩
        have hv : v = key f (.fin s a) := hv
        have hw : w = key f (.fin t b) := hw
        rw [← hv, ← hw]; exact h
      · intro h; exact ⟨_, _, rfl, rfl, h⟩

/-- Rounding is monotone. -/
theorem capped_mono {f : Format} (hf : Ok f) (p q p' q' : Nat) (hq : 0 < q) (hq' : 0 < q') (h : p * q' ≤ p' * q) :
    capped f p q ≤ capped f p' q' := by
  unfold capped
  by_cases c : maxMag f < roundRat f p' q'
  · rw [Nat.min_eq_left (a := maxMag f + 1) (b := roundRat f p' q') (by omega)]; omega
  · have c2 : ¬ maxMag f < roundRat f p q := by
      rw [roundRat_overflow hf p q hq]
      rw [roundRat_overflow hf p' q' hq'] at c
      intro d
      apply c
      unfold TooLarge at d ⊢
      generalize (2 * 2 ^ f.prec - 1) * 2 ^ f.emax = T at *
      refine Nat.le_of_mul_le_mul_right ?_ hq
      have := Nat.mul_le_mul_right q' d
      calc T * q' * q = T * q * q' := by ring
        _ ≤ 2 * p * q' := this
        _ = 2 * (p * q') := by ring
        _ ≤ 2 * (p' * q) := Nat.mul_le_mul_left 2 h
        _ = 2 * p' * q := by ring
    rw [Nat.min_eq_right (by omega), Nat.min_eq_right (by omega)]
    have n1 := roundRat_nearest hf p q hq (by omega)
    have n2 := roundRat_nearest hf p' q' hq' (by omega)
    by_contra hlt
    have hlt : roundRat f p' q' < roundRat f p q := by omega
    have i1 := n1.2.2.1 _ n2.1 hlt
    have i2 := n2.2.1 _ n1.1 hlt
    have e : p * q' = p' * q := by
      generalize roundRat f p q = r at *
      generalize roundRat f p' q' = r' at *
      have j1 := Nat.mul_le_mul_right q' i1
      have j2 := Nat.mul_le_mul_right q i2
      have e3 : (r + r') * q * q' = (r' + r) * q' * q := by ring
      have e4 : 2 * p * q' = 2 * (p * q') := by ring
      have e5 : 2 * p' * q = 2 * (p' * q) := by ring
      omega
    have := roundRat_expand f p q q' hq'
    have h2 := roundRat_expand f p' q' q hq
    rw [e, Nat.mul_comm q q'] at this
    omega

/-- Rounding of a signed fraction. -/
def rnd (f : Format) (p : Int) (q : Nat) : Int :=
  if p < 0 then -((capped f p.natAbs q : Nat) : Int) else ((capped f p.natAbs q : Nat) : Int)

theorem rnd_mono {f : Format} (hf : Ok f) (p p' : Int) (q q' : Nat) (hq : 0 < q) (hq' : 0 < q') (h : p * q' ≤ p' * q) :
    rnd f p q ≤ rnd f p' q' := by
  unfold rnd
  have hQ : (0 : Int) < q := by omega
  have hQ' : (0 : Int) < q' := by omega
  have z : capped f 0 q = 0 := by unfold capped; rw [roundRat_zero f q hq]; omega
  by_cases c : p < 0
  · rw [if_pos c]
    by_cases c' : p' < 0
    · rw [if_pos c']
      have : capped f p'.natAbs q' ≤ capped f p.natAbs q := by
        refine capped_mono hf _ _ _ _ hq' hq ?_
        have h1 : ((p'.natAbs * q : Nat) : Int) = -(p' * q) := by
          rw [Int.natCast_mul, Int.ofNat_natAbs_of_nonpos (by omega), Int.neg_mul]
        have h2 : ((p.natAbs * q' : Nat) : Int) = -(p * q') := by
          rw [Int.natCast_mul, Int.ofNat_natAbs_of_nonpos (by omega), Int.neg_mul]
        omega
      omega
    · rw [if_neg c']; omega
  · have c' : ¬ p' < 0 := by
      intro d
      have h1 := Int.mul_neg_of_neg_of_pos d hQ
      have h2 := Int.mul_nonneg (Int.not_lt.1 c) (Int.le_of_lt hQ')
      omega
    rw [if_neg c, if_neg c']
    have : capped f p.natAbs q ≤ capped f p'.natAbs q' := by
      refine capped_mono hf _ _ _ _ hq hq' ?_
      have h1 : ((p'.natAbs * q : Nat) : Int) = p' * q := by
        rw [Int.natCast_mul, Int.natAbs_of_nonneg (by omega)]
      have h2 : ((p.natAbs * q' : Nat) : Int) = p * q' := by
        rw [Int.natCast_mul, Int.natAbs_of_nonneg (by omega)]
      omega
    omega

theorem key_rounds {f : Format} (hf : Ok f) (p : Int) (q : Nat) (r : Flt) (hq : 0 < q) (h : Rounds f p q r) : key f r = rnd f p q := by
  rw [C137_rounds_unique _ _ _ _ h (roundTo_rounds hf p _ q hq rfl _ rfl), key_roundTo]
  unfold rnd
  by_cases c : p < 0
  · rw [decide_eq_true c, if_pos rfl, if_pos c]
  · rw [decide_eq_false c, if_neg (by decide), if_neg c]

theorem rnd_zero (f : Format) (q : Nat) (hq : 0 < q) : rnd f 0 q = 0 := by
  unfold rnd capped; simp [roundRat_zero f q hq]

theorem key_zero (f : Format) (s : Bool) : key f (.fin s 0) = 0 := by cases s <;> rfl

theorem key_plus {f : Format} (hf : Ok f) {x y : Flt} {v w : Int} (hx : Value x v) (hy : Value y w) :
    key f (plus f x y) = rnd f (v + w) 1 := by
  have h := plus_rounds hf x y v w hx hy
  by_cases c : v + w = 0
  · rw [h.2 c, c, rnd_zero f 1 (by omega), key_zero]
  · exact key_rounds hf _ _ _ (by omega) (h.1 c)

theorem key_mul {f : Format} (hf : Ok f) {x y : Flt} {v w : Int} (hx : Value x v) (hy : Value y w) :
    key f (mul f x y) = rnd f (v * w) one := by
  have h := C137_mul hf x y v w hx hy
  by_cases c : v * w = 0
  · rw [h.2 c, c, rnd_zero f one Flt.one_pos, key_zero]
  · exact key_rounds hf _ _ _ Flt.one_pos (h.1 c)

theorem key_div {f : Format} (hf : Ok f) {x y : Flt} {v w : Int} (hx : Value x v) (hy : Value y w) (hw : w ≠ 0) :
    key f (div f x y) = rnd f (v * one * w.sign) w.natAbs := by
  have h := C137_div hf x y v w hx hy
  by_cases c : v = 0
  · rw [h.2.1 hw c, c, Int.zero_mul, Int.zero_mul, rnd_zero f _ (by omega), key_zero]
  · exact key_rounds hf _ _ _ (by omega) (h.1 hw c)

theorem key_le (f : Format) (x : Flt) (h : InFormat f x) : -((maxMag f + 1 : Nat) : Int) ≤ key f x ∧ key f x ≤ ((maxMag f + 1 : Nat) : Int) := by
  cases x with
  | nan => simp only [key]; omega
  | inf s =>
    cases s
    · show -((maxMag f + 1 : Nat) : Int) ≤ ((maxMag f + 1 : Nat) : Int) ∧ ((maxMag f + 1 : Nat) : Int) ≤ _; omega
    · show -((maxMag f + 1 : Nat) : Int) ≤ -((maxMag f + 1 : Nat) : Int) ∧ -((maxMag f + 1 : Nat) : Int) ≤ _; omega
  | fin s n =>
    have := rep_le_max n h
    cases s
    · show _ ≤ (n : Int) ∧ (n : Int) ≤ _; omega
    · show _ ≤ -(n : Int) ∧ -(n : Int) ≤ _; omega

theorem plus_mono {f : Format} (hf : Ok f) {x y z : Flt} (hx : InFormat f x) (hy : InFormat f y)
    (nx : x ≠ .nan) (ny : y ≠ .nan) (h : key f x ≤ key f y) (n1 : plus f x z ≠ .nan) (n2 : plus f y z ≠ .nan) :
    key f (plus f x z) ≤ key f (plus f y z) := by
  have b1 := key_le f _ (plus_inFormat hf x z)
  have b2 := key_le f _ (plus_inFormat hf y z)
  have big : key f (.inf false) = ((maxMag f + 1 : Nat) : Int) := rfl
  have small : key f (.inf true) = -((maxMag f + 1 : Nat) : Int) := rfl
  cases z with
  | nan => cases x <;> exact absurd rfl n1
  | inf u =>
    have e : ∀ {x : Flt}, x ≠ .nan → plus f x (.inf u) ≠ .nan → plus f x (.inf u) = .inf u := by
      intro x nx n
      rw [show plus f x (.inf u) = add f x (.inf u) from rfl] at n ⊢
      exact ((C137_special f x (.inf u)).2.2.2.2.2.1 u rfl).resolve_left n
    rw [e nx n1, e ny n2]
  | fin u c =>
    cases x with
    | nan => exact absurd rfl nx
    | inf s =>
      cases s
      · -- x = +∞, hence y = +∞
        cases y with
        | nan => exact absurd rfl ny
        | inf t =>
          cases t
          · exact Int.le_refl _
          · rw [big, small] at h; omega
        | fin t b =>
          have hb := rep_le_max b hy
          have := key_le f _ hy
          rw [big] at h
          exfalso
          cases t <;> simp only [key] at h <;> simp at h <;> omega
      · rw [show plus f (.inf true) (.fin u c) = .inf true from rfl, small]; exact b2.1
    | fin s a =>
      cases y with
      | nan => exact absurd rfl ny
      | inf t =>
        cases t
        · rw [show plus f (.inf false) (.fin u c) = .inf false from rfl, big]; exact b1.2
        · exfalso
          have ha := rep_le_max a hx
          rw [small] at h
          cases s <;> simp only [key] at h <;> simp at h <;> omega
      | fin t b =>
        have kv : ∀ s n, Value (.fin s n) (key f (.fin s n)) := fun _ _ => rfl
        rw [key_plus hf (kv s a) (kv u c), key_plus hf (kv t b) (kv u c)]
        exact rnd_mono hf _ _ _ _ (by omega) (by omega) (by omega)
end Flt

/-- C137, monotonicity: if x is not above y then x + z is not above y + z, and x - z not above y - z
(for finite, infinite and zero values, whenever the results are not NaN). -/
theorem C137_monotone {f : Format} (hf : Ok f) (x y z : Flt) (hx : InFormat f x) (hy : InFormat f y)
    (nx : x ≠ .nan) (ny : y ≠ .nan) (h : ¬ FltLess y x) :
    (x.add f z ≠ .nan → y.add f z ≠ .nan → ¬ FltLess (y.add f z) (x.add f z)) ∧
    (x.sub f z ≠ .nan → y.sub f z ≠ .nan → ¬ FltLess (y.sub f z) (x.sub f z)) := by
  rw [less_iff_key hy hx ny nx] at h
  refine ⟨fun n1 n2 => ?_, fun n1 n2 => ?_⟩
  · show ¬ FltLess (plus f y z) (plus f x z)
    rw [less_iff_key (plus_inFormat hf _ _) (plus_inFormat hf _ _) n2 n1]
    have := plus_mono hf (z := z) hx hy nx ny (by omega) n1 n2
    omega
  · show ¬ FltLess (plus f y (minus z)) (plus f x (minus z))
    rw [less_iff_key (plus_inFormat hf _ _) (plus_inFormat hf _ _) n2 n1]
    have := plus_mono hf (z := minus z) hx hy nx ny (by omega) n1 n2
    omega

/-- C137, monotonicity of Mul and Div: for finite numbers, multiplication by a number that is not negative and division by a
positive one keep the order. -/
theorem C137_monotone_mul {f : Format} (hf : Ok f) (x y z : Flt) (v w u : Int) (hx : Value x v) (hy : Value y w)
    (hz : Value z u) (h : v ≤ w) :
    (0 ≤ u → ¬ FltLess (y.mul f z) (x.mul f z)) ∧ (0 < u → ¬ FltLess (y.div f z) (x.div f z)) := by
  have hm := fun a b => (C137_closed hf a b).2.2
  have nn : ∀ a b (c d : Int), Value a c → Value b d → mul f a b ≠ .nan := by
    intro a b c d ha hb
    obtain ⟨s, n, rfl, -⟩ := value_cases' ha
    obtain ⟨t, m, rfl, -⟩ := value_cases' hb
    exact roundTo_ne_nan _ _ _ _
  have nd : ∀ a b (c d : Int), Value a c → Value b d → d ≠ 0 → div f a b ≠ .nan := by
    intro a b c d ha hb hd
    obtain ⟨s, n, rfl, -⟩ := value_cases' ha
    obtain ⟨t, m, rfl, rfl⟩ := value_cases' hb
    rw [ne_eq, signed_zero] at hd
    show (if m = 0 then _ else roundTo _ _ _ _) ≠ _
    rw [if_neg hd]; exact roundTo_ne_nan _ _ _ _
  refine ⟨fun hu => ?_, fun hu => ?_⟩
  · rw [less_iff_key (hm _ _).1 (hm _ _).1 (nn _ _ _ _ hy hz) (nn _ _ _ _ hx hz), key_mul hf hx hz, key_mul hf hy hz]
    have := rnd_mono hf (v * u) (w * u) one one Flt.one_pos Flt.one_pos
      (Int.mul_le_mul_of_nonneg_right (Int.mul_le_mul_of_nonneg_right h hu) (by omega))
    omega
  · have hu0 : u ≠ 0 := by omega
    rw [less_iff_key (hm _ _).2 (hm _ _).2 (nd _ _ _ _ hy hz hu0) (nd _ _ _ _ hx hz hu0), key_div hf hx hz hu0, key_div hf hy hz hu0]
    have h1 : u.sign = 1 := Int.sign_eq_one_of_pos hu
    rw [h1, Int.mul_one, Int.mul_one]
    have := rnd_mono hf (v * one) (w * one) u.natAbs u.natAbs (by omega) (by omega)
      (Int.mul_le_mul_of_nonneg_right (Int.mul_le_mul_of_nonneg_right h (by omega)) (by omega))
    omega

/-- C137, assignment operators: `x.AddAssign(y)` leaves `x.Add(y)` in the variable, and so on; other variables keep their
values; there is no panic but that of a nil pointer. -/
theorem C137_assign (f : Format) (vars : List Flt) (p : Nat) (hp : p < vars.length) (y : Flt) :
    ∃ a s m d, addAssign (Operators.float f) vars (some p) y = .ok a ∧ subAssign (Operators.float f) vars (some p) y = .ok s ∧
      mulAssign (Operators.float f) vars (some p) y = .ok m ∧ divAssign (Operators.float f) vars (some p) y = .ok d ∧
      a[p]? = some (vars[p].add f y) ∧ s[p]? = some (vars[p].sub f y) ∧ m[p]? = some (vars[p].mul f y) ∧
      d[p]? = some (vars[p].div f y) ∧
      ∀ q, q ≠ p → a[q]? = vars[q]? ∧ s[q]? = vars[q]? ∧ m[q]? = vars[q]? ∧ d[q]? = vars[q]? := by
  have h := fun op asg ho => (C112_assign (Operators.float f) op asg ho vars p hp y).1
  obtain ⟨a, a1, -, a2, a3⟩ := h _ _ (List.mem_cons_self ..) _ rfl
  obtain ⟨s, s1, -, s2, s3⟩ := h _ _ (List.mem_cons_of_mem _ (List.mem_cons_self ..)) _ rfl
  obtain ⟨m, m1, -, m2, m3⟩ := h _ _ (List.mem_cons_of_mem _ (List.mem_cons_of_mem _ (List.mem_cons_self ..))) _ rfl
  obtain ⟨d, d1, -, d2, d3⟩ :=
    h _ _ (List.mem_cons_of_mem _ (List.mem_cons_of_mem _ (List.mem_cons_of_mem _ (List.mem_cons_self ..)))) _ rfl
  exact ⟨a, s, m, d, a1, s1, m1, d1, a2, s2, m2, d2, fun q hq => ⟨a3 q hq, s3 q hq, m3 q hq, d3 q hq⟩⟩

example : addAssign (Operators.float f64) [.fin false 5, .fin true 2] (some 1) (.fin false 3) =
    .ok [.fin false 5, .fin false 1] := by decide +kernel

/-- C137, complex numbers with finite parts: real and imaginary part of a sum and of a difference are correctly rounded, and a
difference has two zero parts exactly if the numbers are equal. -/
theorem C137_complex {f : Format} (hf : Ok f) (x y : Flt × Flt) (v v' w w' : Int) (hx : Value x.1 v) (hx' : Value x.2 v')
    (hy : Value y.1 w) (hy' : Value y.2 w') (fx : InFormat f x.1) (fx' : InFormat f x.2) (fy : InFormat f y.1)
    (fy' : InFormat f y.2) :
    (v + w ≠ 0 → Rounds f (v + w) 1 (complexAdd f x y).1) ∧ (v' + w' ≠ 0 → Rounds f (v' + w') 1 (complexAdd f x y).2) ∧
    (v - w ≠ 0 → Rounds f (v - w) 1 (complexSub f x y).1) ∧ (v' - w' ≠ 0 → Rounds f (v' - w') 1 (complexSub f x y).2) ∧
    (IsZero (complexSub f x y).1 ∧ IsZero (complexSub f x y).2 ↔ v = w ∧ v' = w') :=
  ⟨(C137_add hf _ _ _ _ hx hy).1, (C137_add hf _ _ _ _ hx' hy').1, (C137_sub hf _ _ _ _ hx hy).1,
    (C137_sub hf _ _ _ _ hx' hy').1,
    and_congr (C137_sub_zero hf _ _ _ _ hx hy fx fy).1 (C137_sub_zero hf _ _ _ _ hx' hy' fx' fy').1⟩

/-! ### Concrete cases: 1/3 in F32, an overflow, an underflow, a tie, 0.1 + 0.2 in F64 -/

example : div f32 (.fin false (1 * one)) (.fin false (3 * one)) = .fin false (11184811 * 2 ^ 1049) := by decide +kernel
example : add f32 (.fin false (maxMag f32)) (.fin false (maxMag f32)) = .inf false ∧
    mul f64 (.fin true 1) (.fin false 1) = .fin true 0 ∧
    add f64 (.fin false (2 ^ 53)) (.fin false 1) = .fin false (2 ^ 53) ∧
    add f64 (.fin false (2 ^ 53)) (.fin false 3) = .fin false (2 ^ 53 + 4) := by decide +kernel
example : add f64 (.fin false (7205759403792794 * 2 ^ 1018)) (.fin false (7205759403792794 * 2 ^ 1019)) =
    .fin false (5404319552844596 * 2 ^ 1020) := by decide +kernel
example : sub f64 (.fin false 3) (.fin false 2) = .fin false 1 ∧ sub f64 (.fin false 2) (.fin false 2) = .fin false 0 ∧
    sub f64 (.fin true 0) (.fin false 0) = .fin true 0 := by decide +kernel
example : Value (.fin false 3) 3 ∧ InFormat f64 (.fin false 3) ∧ TextInts f32 ∧ TextInts f64 :=
  ⟨rfl, ⟨3, 0, rfl, by decide, by decide, by decide⟩, f32_text, f64_text⟩
example : ¬ FltLess (.fin false 3) (.fin false 2) ∧ FltLess (.fin false 2) (.inf false) :=
  ⟨fun ⟨_, _, h1, h2, h⟩ => by simp only [Value] at h1 h2; simp at h1 h2; omega, rfl⟩
end Gost
