import Verif.Model.Complex
import Verif.Props.FloatArith
/-
Property C145: products and quotients of complex numbers.
-/
namespace Gost
open Spec Flt

attribute [local irreducible] Flt.one Flt.maxMag

namespace Spec
/-- r is the number p/q (in units), correctly rounded to the format: one of the zeros if p is 0. -/
def Rounded (f : Format) (p : Int) (q : Nat) (r : Flt) : Prop := (p ≠ 0 → Rounds f p q r) ∧ (p = 0 → IsZero r)

/-- y is x, converted to the format. -/
def Narrowed (f : Format) (x y : Flt) : Prop :=
  (x = .nan → y = .nan) ∧ (∀ s, x = .inf s → y = .inf s) ∧ ∀ v, Value x v → Rounded f v 1 y

/-- The real and the imaginary part of a complex number with finite parts, in units. -/
def CValue (z : Flt × Flt) (a b : Int) : Prop := Value z.1 a ∧ Value z.2 b

/-- Both parts are numbers of the format: float32 for Complex64, float64 for Complex128. -/
def CFormat (f : Format) (z : Flt × Flt) : Prop := InFormat f z.1 ∧ InFormat f z.2

/-- One of the parts is infinite. -/
def CInfinite (z : Flt × Flt) : Prop := ∃ s, z.1 = .inf s ∨ z.2 = .inf s

/-- Both parts are zeros. -/
def CZero (z : Flt × Flt) : Prop := IsZero z.1 ∧ IsZero z.2
end Spec

namespace Flt
theorem rounds_iff {f : Format} (hf : Ok f) (p : Int) (q : Nat) (hq : 0 < q) (r : Flt) :
    Rounds f p q r ↔ r = roundTo f (decide (p < 0)) p.natAbs q :=
  ⟨fun h => C137_rounds_unique _ _ _ _ h (roundTo_rounds hf p _ q hq rfl _ rfl),
   fun h => h ▸ roundTo_rounds hf p _ q hq rfl _ rfl⟩

theorem rounded_scale {f : Format} (hf : Ok f) (p : Int) (q k : Nat) (hq : 0 < q) (hk : 0 < k) (r : Flt) :
    Rounded f (p * k) (q * k) r ↔ Rounded f p q r := by
  have hz : p * (k : Int) = 0 ↔ p = 0 := by
    rw [Int.mul_eq_zero]; constructor
    · rintro (h | h)
      · exact h
      · omega
    · exact Or.inl
  have hs : decide (p * (k : Int) < 0) = decide (p < 0) := by
    apply decide_eq_decide.2
    constructor
    · intro h
      by_contra c
      have := Int.mul_nonneg (a := p) (b := k) (by omega) (by omega)
      omega
    · intro h; exact Int.mul_neg_of_neg_of_pos h (by omega)
  unfold Rounded
  rw [ne_eq, hz, rounds_iff hf _ _ (Nat.mul_pos hq hk), rounds_iff hf _ _ hq, hs, Int.natAbs_mul]
  unfold roundTo
  rw [show (k : Int).natAbs = k from rfl, roundRat_expand _ _ _ _ hk]

theorem rounded_ne_nan {f : Format} {p : Int} {q : Nat} {r : Flt} (h : Rounded f p q r) : r ≠ .nan := by
  by_cases c : p = 0
  · have := h.2 c; rintro rfl; exact this
  · rcases h.1 c with ⟨-, rfl⟩ | ⟨-, n, rfl, -⟩ <;> exact fun h => by cases h

theorem rounded_exact {f : Format} (hf : Ok f) (n : Int) (q : Nat) (hq : 0 < q) (h : Rep f n.natAbs) (r : Flt)
    (hr : Rounded f (n * q) q r) : Value r n := by
  by_cases c : n = 0
  · subst c; exact hr.2 (by simp)
  · refine rounds_rep hf n q hq h r (hr.1 fun c' => ?_)
    rcases Int.mul_eq_zero.1 c' with h | h <;> omega

theorem plus_rounded {f : Format} (hf : Ok f) {x y : Flt} {v w : Int} (hx : Value x v) (hy : Value y w) :
    Rounded f (v + w) 1 (plus f x y) :=
  ⟨(plus_rounds hf x y v w hx hy).1, fun h => by rw [(plus_rounds hf x y v w hx hy).2 h]; exact value_zero_fin _⟩

theorem sub_rounded {f : Format} (hf : Ok f) {x y : Flt} {v w : Int} (hx : Value x v) (hy : Value y w) :
    Rounded f (v - w) 1 (plus f x (minus y)) := by
  rw [Int.sub_eq_add_neg]; exact plus_rounded hf hx (value_minus hy)

theorem times_rounded {f : Format} (hf : Ok f) {x y : Flt} {v w : Int} (hx : Value x v) (hy : Value y w) :
    Rounded f (v * w) one (times f x y) :=
  ⟨(C137_mul hf x y v w hx hy).1, fun h => by
    rw [show times f x y = mul f x y from rfl, (C137_mul hf x y v w hx hy).2 h]; exact value_zero_fin _⟩

theorem over_rounded {f : Format} (hf : Ok f) {x y : Flt} {v w : Int} (hx : Value x v) (hy : Value y w) (hw : w ≠ 0) :
    Rounded f (v * w.sign * one) w.natAbs (over f x y) := by
  have h := C137_div hf x y v w hx hy
  have e : v * w.sign * one = v * one * w.sign := by ring
  rw [e]
  refine ⟨fun c => ?_, fun c => ?_⟩
  · exact h.1 hw (fun c' => c (by rw [c']; simp))
  · have : v = 0 := by
      rcases Int.mul_eq_zero.1 c with c | c
      · rcases Int.mul_eq_zero.1 c with c | c
        · exact c
        · have := Flt.one_pos; omega
      · exact absurd (Int.sign_eq_zero_iff_zero.1 c) hw
    rw [show over f x y = div f x y from rfl, h.2.1 hw this]; exact value_zero_fin _

theorem convert_roundTo (f : Format) (s : Bool) (n : Nat) : convert f (.fin s n) = roundTo f s n 1 := by
  have : roundRat f n 1 = roundMag f n := by simp [roundRat, roundMag]
  rw [roundTo, this, convert_fin]

theorem convert_narrowed {f : Format} (hf : Ok f) (x : Flt) : Narrowed f x (convert f x) := by
  refine ⟨by rintro rfl; rfl, by rintro s rfl; rfl, fun v hv => ?_⟩
  obtain ⟨s, n, rfl, rfl⟩ := value_cases' hv
  rw [convert_roundTo]
  refine ⟨fun h => ?_, fun h => ?_⟩
  · rw [ne_eq, signed_zero] at h
    exact roundTo_rounds hf _ _ _ (by omega) (signed_natAbs _ _) _ (signed_lt _ _ (by omega))
  · rw [signed_zero] at h; rw [h, roundTo_zero f s 1 (by omega)]; exact value_zero_fin _

theorem narrowed_ne_nan {f : Format} {x y : Flt} (h : Narrowed f x y) (hx : x ≠ .nan) : y ≠ .nan := by
  cases x with
  | nan => exact absurd rfl hx
  | inf s => rw [h.2.1 s rfl]; exact fun h => by cases h
  | fin s n => exact rounded_ne_nan (h.2.2 _ rfl)

theorem convert_exact {f : Format} (hf : Ok f) {x : Flt} {v : Int} (hx : Value x v) (h : Rep f v.natAbs) :
    Value (convert f x) v :=
  rounded_exact hf v 1 (by omega) h _ (by simpa using (convert_narrowed hf x).2.2 v hx)

theorem rep_mono {n : Nat} (h : Rep f32 n) : Rep f64 n := by
  obtain ⟨m, e, rfl, h1, h2, h3⟩ := h
  refine ⟨m, e, rfl, Nat.lt_trans h1 (by decide), by simp [f64], Nat.le_trans h3 (by decide)⟩

theorem rep_max {f : Format} (hf : Ok f) : Rep f (maxMag f) :=
  ⟨2 ^ f.prec - 1, f.emax, by unfold maxMag; rfl, Nat.sub_lt (Nat.pow_pos (by decide)) (by decide), hf.exp, Nat.le_refl _⟩

/-- The product of two numbers of float32 is a number of float64. -/
theorem product_exact {a b : Nat} (ha : Rep f32 a) (hb : Rep f32 b) : ∃ n, a * b = n * one ∧ Rep f64 n := by
  obtain ⟨m, e, rfl, h1, h2, h3⟩ := ha
  obtain ⟨m', e', rfl, h1', h2', h3'⟩ := hb
  have e925 : f32.emin = 925 := rfl
  have e1178 : f32.emax = 1178 := rfl
  have p24 : f32.prec = 24 := rfl
  rw [e925] at h2 h2'; rw [e1178] at h3 h3'; rw [p24] at h1 h1'
  refine ⟨m * m' * 2 ^ (e + e' - 1074), ?_, m * m', _, rfl, ?_, Nat.zero_le _, ?_⟩
  · rw [one_def _ rfl, Nat.mul_assoc (m * m'), ← Nat.pow_add, Nat.sub_add_cancel (by omega), Nat.pow_add]; ring
  · have : m * m' < 2 ^ 24 * 2 ^ 24 := Nat.mul_lt_mul'' h1 h1'
    refine Nat.lt_trans this ?_; decide
  · show _ ≤ 2045; omega

theorem value_rep {f : Format} {x : Flt} {v : Int} (h : Value x v) (hf : InFormat f x) : Rep f v.natAbs := by
  obtain ⟨s, n, rfl, rfl⟩ := value_cases' h
  rw [signed_natAbs]; exact hf

theorem product_value {x y : Flt} {v w : Int} (hx : Value x v) (hy : Value y w) (fx : InFormat f32 x) (fy : InFormat f32 y) :
    ∃ p : Int, v * w = p * one ∧ Value (times f64 x y) p := by
  obtain ⟨n, e, hn⟩ := product_exact (value_rep hx fx) (value_rep hy fy)
  have : ∃ p : Int, v * w = p * one ∧ p.natAbs = n := by
    have e' : (v * w).natAbs = n * one := by rw [Int.natAbs_mul]; exact e
    rcases Int.natAbs_eq (v * w) with h | h
    · exact ⟨n, by rw [h, e']; push_cast; rfl, rfl⟩
    · exact ⟨-n, by rw [h, e']; push_cast; ring, by simp⟩
  obtain ⟨p, hp, hpn⟩ := this
  refine ⟨p, hp, rounded_exact f64_ok p one Flt.one_pos (by rw [hpn]; exact hn) _ ?_⟩
  rw [← hp]; exact times_rounded f64_ok hx hy
end Flt

/-! ### Products -/

/-- C145, Complex128.Mul: each part is the rounded difference or sum of the rounded products of the parts.  It is NaN exactly if
two products are too large and cancel. -/
theorem C145_mul128 (x y : Flt × Flt) (a b c d : Int) (hx : CValue x a b) (hy : CValue y c d) :
    ∃ ac bd ad bc : Flt, Rounded f64 (a * c) one ac ∧ Rounded f64 (b * d) one bd ∧ Rounded f64 (a * d) one ad ∧
      Rounded f64 (b * c) one bc ∧
      (∀ p q, Value ac p → Value bd q → Rounded f64 (p - q) 1 (complexMul64 x y).1) ∧
      (∀ p q, Value ad p → Value bc q → Rounded f64 (p + q) 1 (complexMul64 x y).2) ∧
      ((complexMul64 x y).1 = .nan ↔ ∃ s, ac = .inf s ∧ bd = .inf s) ∧
      ((complexMul64 x y).2 = .nan ↔ ∃ s, ad = .inf s ∧ bc = .inf (!s)) := by
  have h1 := times_rounded f64_ok hx.1 hy.1
  have h2 := times_rounded f64_ok hx.2 hy.2
  have h3 := times_rounded f64_ok hx.1 hy.2
  have h4 := times_rounded f64_ok hx.2 hy.1
  refine ⟨_, _, _, _, h1, h2, h3, h4, fun p q hp hq => sub_rounded f64_ok hp hq, fun p q hp hq => plus_rounded f64_ok hp hq,
    ?_, ?_⟩
  · have := (C137_special f64 (times f64 x.1 y.1) (times f64 x.2 y.2)).2.1
    exact ⟨fun h => ((this.1 h).resolve_left (rounded_ne_nan h1)).resolve_left (rounded_ne_nan h2),
      fun h => this.2 (Or.inr (Or.inr h))⟩
  · have := (C137_special f64 (times f64 x.1 y.2) (times f64 x.2 y.1)).1
    exact ⟨fun h => ((this.1 h).resolve_left (rounded_ne_nan h3)).resolve_left (rounded_ne_nan h4),
      fun h => this.2 (Or.inr (Or.inr h))⟩

example : CValue (.fin false 3, .fin true 2) 3 (-2) ∧
    complexMul64 (.fin false (3 * one), .fin true (2 * one)) (.fin false one, .fin false (4 * one)) =
      (.fin false (11 * one), .fin false (10 * one)) := ⟨⟨rfl, rfl⟩, by decide +kernel⟩

/-- C145, Complex64.Mul: each part is the exact part of the product, rounded to float64 and then to float32; it is never
NaN. -/
theorem C145_mul64 (x y : Flt × Flt) (a b c d : Int) (hx : CValue x a b) (hy : CValue y c d) (fx : CFormat f32 x)
    (fy : CFormat f32 y) :
    ∃ re im : Flt, Rounded f64 (a * c - b * d) one re ∧ Narrowed f32 re (complexMul32 x y).1 ∧
      Rounded f64 (a * d + b * c) one im ∧ Narrowed f32 im (complexMul32 x y).2 ∧
      (complexMul32 x y).1 ≠ .nan ∧ (complexMul32 x y).2 ≠ .nan := by
  obtain ⟨p, e1, h1⟩ := product_value hx.1 hy.1 fx.1 fy.1
  obtain ⟨q, e2, h2⟩ := product_value hx.2 hy.2 fx.2 fy.2
  obtain ⟨r, e3, h3⟩ := product_value hx.1 hy.2 fx.1 fy.2
  obtain ⟨s, e4, h4⟩ := product_value hx.2 hy.1 fx.2 fy.1
  have g1 : Rounded f64 (a * c - b * d) one (complexTimes x y).1 := by
    have := (rounded_scale f64_ok (p - q) 1 one (by omega) Flt.one_pos _).2 (sub_rounded f64_ok h1 h2)
    rw [e1, e2, ← Int.sub_mul]; rwa [Nat.one_mul] at this
  have g2 : Rounded f64 (a * d + b * c) one (complexTimes x y).2 := by
    have := (rounded_scale f64_ok (r + s) 1 one (by omega) Flt.one_pos _).2 (plus_rounded f64_ok h3 h4)
    rw [e3, e4, ← Int.add_mul]; rwa [Nat.one_mul] at this
  exact ⟨_, _, g1, convert_narrowed f32_ok _, g2, convert_narrowed f32_ok _,
    narrowed_ne_nan (convert_narrowed f32_ok _) (rounded_ne_nan g1),
    narrowed_ne_nan (convert_narrowed f32_ok _) (rounded_ne_nan g2)⟩

example : complexMul32 (.fin false (maxMag f32), .fin false (maxMag f32)) (.fin false (maxMag f32), .fin false (maxMag f32)) =
    (.fin false 0, .inf false) := by decide +kernel

/-- C145: Complex128.Mul of finite numbers may be NaN, in both parts or in one, although the exact product is a number:
(m + mi)² = 2m²i. -/
theorem C145_mul128_nan_fails : ∃ x : Flt × Flt, (∃ a b, CValue x a b) ∧ CFormat f64 x ∧ (complexMul64 x x).1 = .nan :=
  ⟨(.fin false (maxMag f64), .fin false (maxMag f64)), ⟨_, _, rfl, rfl⟩, ⟨rep_max f64_ok, rep_max f64_ok⟩, by decide +kernel⟩

/-- C145, exact products: if the four products of the parts, their difference and their sum are numbers of float64, the
product in Complex128 is exact; in Complex64 it suffices that the parts of the exact product are numbers of float32. -/
theorem C145_mul_exact (x y : Flt × Flt) (a b c d : Int) (hx : CValue x a b) (hy : CValue y c d) :
    (∀ ac bd ad bc : Int, a * c = ac * one → b * d = bd * one → a * d = ad * one → b * c = bc * one →
      Rep f64 ac.natAbs → Rep f64 bd.natAbs → Rep f64 ad.natAbs → Rep f64 bc.natAbs →
      Rep f64 (ac - bd).natAbs → Rep f64 (ad + bc).natAbs → CValue (complexMul64 x y) (ac - bd) (ad + bc)) ∧
    (CFormat f32 x → CFormat f32 y → ∀ re im : Int, a * c - b * d = re * one → a * d + b * c = im * one →
      Rep f32 re.natAbs → Rep f32 im.natAbs → CValue (complexMul32 x y) re im) := by
  have hone := Flt.one_pos
  refine ⟨fun ac bd ad bc e1 e2 e3 e4 r1 r2 r3 r4 r5 r6 => ?_, fun fx fy re im e1 e2 r1 r2 => ?_⟩
  · have k : ∀ {u v : Flt} {i j p : Int}, Value u i → Value v j → i * j = p * one → Rep f64 p.natAbs → Value (times f64 u v) p :=
      fun hu hv e r => rounded_exact f64_ok _ one hone r _ (e ▸ times_rounded f64_ok hu hv)
    exact ⟨rounded_exact f64_ok _ 1 (by omega) r5 _
        (by have := sub_rounded f64_ok (k hx.1 hy.1 e1 r1) (k hx.2 hy.2 e2 r2); rw [Int.natCast_one, Int.mul_one]; exact this),
      rounded_exact f64_ok _ 1 (by omega) r6 _
        (by have := plus_rounded f64_ok (k hx.1 hy.2 e3 r3) (k hx.2 hy.1 e4 r4); rw [Int.natCast_one, Int.mul_one]; exact this)⟩
  · obtain ⟨r, i, h1, h2, h3, h4, -, -⟩ := C145_mul64 x y a b c d hx hy fx fy
    rw [e1] at h1; rw [e2] at h3
    have v1 := rounded_exact f64_ok _ one hone (rep_mono r1) _ h1
    have v2 := rounded_exact f64_ok _ one hone (rep_mono r2) _ h3
    exact ⟨rounded_exact f32_ok _ 1 (by omega) r1 _ (by simpa using h2.2.2 _ v1),
      rounded_exact f32_ok _ 1 (by omega) r2 _ (by simpa using h4.2.2 _ v2)⟩

/-- C145, numbers i + jI with integer parts: the product is exact in Complex128 if the products of the parts and the parts of the
result are at most 2^53 in magnitude, in Complex64 if the parts of the result are at most 2^24. -/
theorem C145_mul_integers (x y : Flt × Flt) (i j k l : Int) (hx : CValue x (i * one) (j * one))
    (hy : CValue y (k * one) (l * one)) :
    ((i * k).natAbs ≤ 2 ^ 53 → (j * l).natAbs ≤ 2 ^ 53 → (i * l).natAbs ≤ 2 ^ 53 → (j * k).natAbs ≤ 2 ^ 53 →
      (i * k - j * l).natAbs ≤ 2 ^ 53 → (i * l + j * k).natAbs ≤ 2 ^ 53 →
      CValue (complexMul64 x y) ((i * k - j * l) * one) ((i * l + j * k) * one)) ∧
    (CFormat f32 x → CFormat f32 y → (i * k - j * l).natAbs ≤ 2 ^ 24 → (i * l + j * k).natAbs ≤ 2 ^ 24 →
      CValue (complexMul32 x y) ((i * k - j * l) * one) ((i * l + j * k) * one)) := by
  obtain ⟨h1, h2⟩ := C145_mul_exact x y _ _ _ _ hx hy
  have r64 : ∀ n : Int, n.natAbs ≤ 2 ^ 53 → Rep f64 (n * one).natAbs := fun n h => by
    rw [Int.natAbs_mul]; exact rep_upto f64_text _ h
  have r32 : ∀ n : Int, n.natAbs ≤ 2 ^ 24 → Rep f32 (n * one).natAbs := fun n h => by
    rw [Int.natAbs_mul]; exact rep_upto f32_text _ h
  refine ⟨fun g1 g2 g3 g4 g5 g6 => ?_, fun fx fy g1 g2 => ?_⟩
  · have := h1 (i * k * one) (j * l * one) (i * l * one) (j * k * one) (by ring) (by ring) (by ring) (by ring)
      (r64 _ g1) (r64 _ g2) (r64 _ g3) (r64 _ g4) (by rw [← Int.sub_mul]; exact r64 _ g5) (by rw [← Int.add_mul]; exact r64 _ g6)
    rwa [← Int.sub_mul, ← Int.add_mul] at this
  · exact h2 fx fy _ _ (by ring) (by ring) (r32 _ g1) (r32 _ g2)

example : CValue (.fin false (3 * one), .fin true (2 * one)) (3 * one) (-2 * one) ∧
    complexMul32 (.fin false (3 * one), .fin true (2 * one)) (.fin false one, .fin false (4 * one)) =
      (.fin false (11 * one), .fin false (10 * one)) :=
  ⟨⟨by show (3 * one : Int) = ((3 * one : Nat) : Int); push_cast; rfl,
    by show (-2 * one : Int) = -((2 * one : Nat) : Int); push_cast; ring⟩, by decide +kernel⟩

namespace Flt
theorem times_comm (f : Format) (x y : Flt) : times f x y = times f y x := by
  cases x <;> cases y <;> simp only [times] <;> try rfl
  · rename_i s t; cases s <;> cases t <;> rfl
  · rename_i s t b; cases s <;> cases t <;> rfl
  · rename_i s a t; cases s <;> cases t <;> rfl
  · rename_i s a t b; rw [Nat.mul_comm]; cases s <;> cases t <;> rfl

theorem times_minus (f : Format) (x y : Flt) : times f x (minus y) = minus (times f x y) := by
  have hm : ∀ s p q, minus (roundTo f s p q) = roundTo f (!s) p q := by
    intro s p q; unfold roundTo
    by_cases c : maxMag f < roundRat f p q
    · rw [if_pos c, if_pos c]; rfl
    · rw [if_neg c, if_neg c]; rfl
  cases x <;> cases y <;> simp only [times, minus] <;> try rfl
  · rename_i s t; cases s <;> cases t <;> rfl
  · rename_i s t b; by_cases h : b = 0
    · simp [h]
    · simp only [h, if_false]; cases s <;> cases t <;> rfl
  · rename_i s a t; by_cases h : a = 0
    · simp [h]
    · simp only [h, if_false]; cases s <;> cases t <;> rfl
  · rename_i s a t b; 
    show roundTo f (s != !t) (a * b) one = minus (roundTo f (s != t) (a * b) one)
    rw [hm]; cases s <;> cases t <;> rfl

theorem plus_comm (f : Format) (x y : Flt) : plus f x y = plus f y x := by
  cases x <;> cases y <;> simp only [plus] <;> try rfl
  · rename_i s t; cases s <;> cases t <;> rfl
  · rename_i s a t b
    by_cases c : a = b
    · subst c; cases s <;> cases t <;> simp
    · have c' : ¬ b = a := fun e => c e.symm
      by_cases l : b < a
      · have l' : ¬ a < b := by omega
        cases s <;> cases t <;> simp [c, c', l, l', Nat.add_comm]
      · have l' : a < b := by omega
        cases s <;> cases t <;> simp [c, c', l, l', Nat.add_comm]
end Flt

/-- C145, algebra of products: Mul is commutative, for all values; a product with 1 is the number, a product with I turns it by a
right angle (for finite numbers, up to the signs of zeros), a product of two real numbers is the product of the real numbers. -/
theorem C145_mul_algebra (x y : Flt × Flt) :
    complexMul64 x y = complexMul64 y x ∧ complexMul32 x y = complexMul32 y x ∧
    ∀ a b, CValue x a b →
      (CFormat f64 x → CValue (complexMul64 x (.fin false one, .fin false 0)) a b ∧
        CValue (complexMul64 x (.fin false 0, .fin false one)) (-b) a) ∧
      (CFormat f32 x → CValue (complexMul32 x (.fin false one, .fin false 0)) a b ∧
        CValue (complexMul32 x (.fin false 0, .fin false one)) (-b) a) := by
  have hc : complexTimes x y = complexTimes y x := by
    unfold complexTimes
    rw [times_comm _ x.1 y.1, times_comm _ x.2 y.2, times_comm _ x.1 y.2, times_comm _ x.2 y.1, plus_comm _ (times f64 y.2 x.1)]
  refine ⟨hc, by unfold complexMul32; rw [hc], fun a b hx => ?_⟩
  have z : Value (.fin false 0) 0 := rfl
  have u : Value (.fin false one) one := rfl
  have r0 : ∀ {f : Format}, Ok f → Rep f (0 : Int).natAbs := fun hf => rep_zero hf
  have rneg : ∀ {f : Format} {v : Int}, Rep f v.natAbs → Rep f (-v).natAbs := fun h => by rwa [Int.natAbs_neg]
  refine ⟨fun fx => ?_, fun fx => ?_⟩
  · have ra := value_rep hx.1 fx.1
    have rb := value_rep hx.2 fx.2
    refine ⟨?_, ?_⟩
    · have := (C145_mul_exact x (.fin false one, .fin false 0) a b one 0 hx ⟨u, z⟩).1 a 0 0 b rfl (by simp) (by simp) rfl ra
        (r0 f64_ok) (r0 f64_ok) rb (by simpa using ra) (by simpa using rb)
      simpa using this
    · have := (C145_mul_exact x (.fin false 0, .fin false one) a b 0 one hx ⟨z, u⟩).1 0 b a 0 (by simp) rfl rfl (by simp)
        (r0 f64_ok) rb ra (r0 f64_ok) (by simpa using rneg rb) (by simpa using ra)
      simpa using this
  · have ra := value_rep hx.1 fx.1
    have rb := value_rep hx.2 fx.2
    have h1 : InFormat f32 (.fin false one) := by
      show Rep f32 one; simpa using rep_upto f32_text 1 Nat.one_le_two_pow
    have h0 : InFormat f32 (.fin false 0) := rep_zero f32_ok
    exact ⟨(C145_mul_exact x (.fin false one, .fin false 0) a b one 0 hx ⟨u, z⟩).2 fx ⟨h1, h0⟩ a b (by ring) (by ring) ra rb,
      (C145_mul_exact x (.fin false 0, .fin false one) a b 0 one hx ⟨z, u⟩).2 fx ⟨h0, h1⟩ (-b) a (by ring) (by ring) (rneg rb) ra⟩

example : complexMul64 (.fin false 7, .fin true 5) (.fin false 0, .fin false one) = (.fin false 5, .fin false 7) := by
  decide +kernel

/-- C145: for infinite numbers a product with 1 is not the number, not even an infinite number. -/
theorem C145_mul_infinite_fails :
    complexMul64 (.inf false, .fin false 0) (.fin false one, .fin false 0) = (.inf false, .nan) ∧
    complexMul64 (.inf false, .inf false) (.fin false one, .fin false 0) = (.nan, .nan) ∧
    complexMul32 (.inf false, .inf false) (.fin false one, .fin false 0) = (.nan, .nan) := by decide +kernel

/-- C145, the product of a number with its conjugate: in Complex64 the imaginary part is zero; in Complex128 it is zero
unless the product of the parts is too large, it is NaN then. -/
theorem C145_conjugate (x : Flt × Flt) (a b : Int) (hx : CValue x a b) :
    (CFormat f32 x → IsZero (complexMul32 x (x.1, minus x.2)).2) ∧
    (∃ ab, Rounded f64 (a * b) one ab ∧
      ((∃ v, Value ab v) → IsZero (complexMul64 x (x.1, minus x.2)).2) ∧
      ((∃ s, ab = .inf s) → (complexMul64 x (x.1, minus x.2)).2 = .nan)) := by
  have hm : times f64 x.1 (minus x.2) = minus (times f64 x.1 x.2) := times_minus ..
  have e : complexMul64 x (x.1, minus x.2) = (plus f64 (times f64 x.1 x.1) (minus (times f64 x.2 (minus x.2))),
      plus f64 (minus (times f64 x.1 x.2)) (times f64 x.1 x.2)) := by
    show (_, plus f64 (times f64 x.1 (minus x.2)) (times f64 x.2 x.1)) = _
    rw [hm, times_comm f64 x.2 x.1]
  have key : ∀ v, Value (times f64 x.1 x.2) v → IsZero (complexMul64 x (x.1, minus x.2)).2 := by
    intro v hv
    rw [e]
    exact (plus_rounded f64_ok (value_minus hv) hv).2 (by omega)
  refine ⟨fun fx => ?_, _, times_rounded f64_ok hx.1 hx.2, fun ⟨v, hv⟩ => key v hv, ?_⟩
  · obtain ⟨p, -, hp⟩ := product_value hx.1 hx.2 fx.1 fx.2
    exact ((convert_narrowed f32_ok _).2.2 0 (key p hp)).2 rfl
  · rintro ⟨s, hs⟩
    rw [e, hs]; cases s <;> rfl

/-! ### Quotients -/

namespace Flt
theorem roundRat_le {f : Format} (hf : Ok f) {p q n : Nat} (hq : 0 < q) (h : p ≤ n * q) (hn : Rep f n) : roundRat f p q ≤ n := by
  have := capped_mono hf p q n 1 hq (by omega) (by simpa using h)
  have e := roundRat_rep hf n 1 (by omega) hn
  rw [Nat.mul_one] at e
  have := rep_le_max n hn
  unfold capped at *
  omega

theorem le_roundRat {f : Format} (hf : Ok f) {p q n : Nat} (hq : 0 < q) (h : n * q ≤ p) (hn : Rep f n) : n ≤ roundRat f p q := by
  have := capped_mono hf n 1 p q (by omega) hq (by simpa using h)
  have e := roundRat_rep hf n 1 (by omega) hn
  rw [Nat.mul_one] at e
  have := rep_le_max n hn
  unfold capped at *
  omega

theorem roundTo_le {f : Format} (hf : Ok f) {s : Bool} {p q n : Nat} (hq : 0 < q) (h : p ≤ n * q) (hn : Rep f n) :
    ∃ k, roundTo f s p q = .fin s k ∧ k ≤ n := by
  have := roundRat_le hf hq h hn
  have := rep_le_max n hn
  exact ⟨roundRat f p q, by unfold roundTo; rw [if_neg (by omega)], by omega⟩

theorem rep_one64 : Rep f64 one := by simpa using rep_upto f64_text 1 Nat.one_le_two_pow

/-- The ratio and the denominator of Smith's algorithm: `c` is the part of the divisor that is not smaller. -/
theorem smith_den (s t : Bool) (c d : Nat) (hc : Rep f64 c) (hd : Rep f64 d) (h : d ≤ c) (h0 : 0 < c) :
    ∃ ρ, over f64 (.fin t d) (.fin s c) = .fin (t != s) ρ ∧ ρ ≤ one ∧
      (plus f64 (.fin s c) (times f64 (.fin (t != s) ρ) (.fin t d)) = .inf s ∨
        ∃ δ, plus f64 (.fin s c) (times f64 (.fin (t != s) ρ) (.fin t d)) = .fin s δ ∧ c ≤ δ ∧
        ∀ n, Rep f64 n → c + d ≤ n → δ ≤ n) ∧
      ∀ n, Rep f64 n → c + d ≤ n → plus f64 (.fin s c) (times f64 (.fin (t != s) ρ) (.fin t d)) ≠ .inf s := by
  obtain ⟨ρ, e1, h1⟩ := roundTo_le (s := t != s) f64_ok h0 (by rw [Nat.mul_comm]; exact Nat.mul_le_mul_left one h) rep_one64
    (p := d * one)
  obtain ⟨τ, e2, h2⟩ := roundTo_le (s := s) f64_ok Flt.one_pos (p := ρ * d)
    (by rw [Nat.mul_comm d]; exact Nat.mul_le_mul_right d h1) hd
  have e3 : plus f64 (.fin s c) (times f64 (.fin (t != s) ρ) (.fin t d)) = roundTo f64 s (c + τ) 1 := by
    have : times f64 (.fin (t != s) ρ) (.fin t d) = .fin s τ := by
      show roundTo f64 ((t != s) != t) (ρ * d) one = _
      rw [← e2]; cases s <;> cases t <;> rfl
    rw [this]; show (if s = s then _ else _) = _; rw [if_pos rfl]
  refine ⟨ρ, ?_, h1, ?_, ?_⟩
  · show (if c = 0 then _ else roundTo f64 (t != s) (d * one) c) = _
    rw [if_neg (by omega), e1]
  · rw [e3]
    unfold roundTo
    by_cases g : maxMag f64 < roundRat f64 (c + τ) 1
    · rw [if_pos g]; exact Or.inl rfl
    · rw [if_neg g]
      exact Or.inr ⟨_, rfl, le_roundRat f64_ok (by omega) (by omega) hc, fun n hn hle =>
        roundRat_le f64_ok (by omega) (by omega) hn⟩
  · intro n hn hle
    rw [e3]
    obtain ⟨k, hk, -⟩ := roundTo_le (s := s) f64_ok (p := c + τ) (q := 1) (by omega) (by omega) hn
    rw [hk]; exact fun h => by cases h

theorem atLeast_fin (s t : Bool) (c d : Nat) : atLeast (absolute (.fin s c)) (absolute (.fin t d)) = decide (d ≤ c) := by
  simp [absolute, atLeast]

theorem plus_zero {f : Format} (hf : Ok f) {x : Flt} {v : Int} (hx : Value x v) (fx : InFormat f x) (s : Bool) :
    Value (plus f x (.fin s 0)) v ∧ Value (plus f (.fin s 0) x) v := by
  have h : Value (plus f x (.fin s 0)) v := by
    have := (C137_exact hf x (.fin s 0) v 0 hx (value_zero_fin s)).1 (by simpa using value_rep hx fx)
    simpa [add] using this
  exact ⟨h, by rwa [plus_comm]⟩

theorem plus_zero_eq {f : Format} (hf : Ok f) (s t : Bool) (c : Nat) (h : Rep f c) (h0 : 0 < c) :
    plus f (.fin s c) (.fin t 0) = .fin s c := by
  have e := roundTo_rep hf s c 1 (by omega) h
  rw [Nat.mul_one] at e
  simp only [plus, Nat.add_zero, Nat.sub_zero]
  by_cases g : s = t
  · rw [if_pos g, e]
  · rw [if_neg g, if_neg (by omega), if_pos h0, e]

theorem times_zero (f : Format) {x : Flt} {v : Int} (hx : Value x v) (s : Bool) :
    (∃ t, times f x (.fin s 0) = .fin t 0) ∧ ∃ t, times f (.fin s 0) x = .fin t 0 := by
  have h : ∃ t, times f x (.fin s 0) = .fin t 0 := by
    obtain ⟨t, n, rfl, -⟩ := value_cases' hx
    exact ⟨_, by show roundTo f (t != s) (n * 0) one = _; rw [Nat.mul_zero, roundTo_zero f _ _ Flt.one_pos]⟩
  exact ⟨h, by rwa [times_comm]⟩

theorem over_zero (f : Format) (t s : Bool) (c : Nat) (h : 0 < c) : over f (.fin t 0) (.fin s c) = .fin (t != s) 0 := by
  show (if c = 0 then _ else roundTo f (t != s) (0 * one) c) = _
  rw [if_neg (by omega), Nat.zero_mul, roundTo_zero f _ _ h]

theorem isNaN_iff (x : Flt) : isNaN x = false ↔ x ≠ .nan := by cases x <;> simp [isNaN]

theorem complexOver_number (n m : Flt × Flt) (h1 : (smith n m).1 ≠ .nan) (h2 : (smith n m).2 ≠ .nan) :
    complexOver n m = smith n m := by
  unfold complexOver
  simp only [(isNaN_iff _).2 h1, (isNaN_iff _).2 h2, Bool.or_self, Bool.false_eq_true, if_false]

theorem isZero_cases {x : Flt} (h : IsZero x) : ∃ s, x = .fin s 0 := by
  obtain ⟨s, n, rfl, e⟩ := value_cases' h
  rw [eq_comm, signed_zero] at e
  exact ⟨s, by rw [e]⟩

theorem over_real (n m : Flt × Flt) (a b c : Int) (hn : CValue n a b) (fn : CFormat f64 n) (hm : Value m.1 c) (h0 : IsZero m.2)
    (fm : InFormat f64 m.1) (hc : c ≠ 0) :
    Rounded f64 (a * c.sign * one) c.natAbs (complexOver n m).1 ∧ Rounded f64 (b * c.sign * one) c.natAbs (complexOver n m).2 := by
  obtain ⟨x, y⟩ := n
  obtain ⟨u, w⟩ := m
  obtain ⟨hx, hy⟩ := hn
  simp only at hx hy hm h0 fm
  obtain ⟨fx, fy⟩ := fn
  simp only at fx fy
  obtain ⟨t, rfl⟩ := isZero_cases h0
  obtain ⟨s, k, rfl, hk⟩ := value_cases' hm
  have hk0 : 0 < k := by
    rcases Nat.eq_zero_or_pos k with h | h
    · rw [hk, ne_eq, signed_zero] at hc; exact absurd h hc
    · exact h
  have hsm : ∃ p q, smith (x, y) (.fin s k, .fin t 0) = (over f64 p (.fin s k), over f64 q (.fin s k)) ∧ Value p a ∧ Value q b := by
    unfold smith
    simp only [atLeast_fin, Nat.zero_le, decide_true, if_true]
    rw [over_zero f64 t s k hk0]
    obtain ⟨t1, e1⟩ := (times_zero f64 (value_zero_fin t) (t != s)).2
    obtain ⟨t2, e2⟩ := (times_zero f64 hy (t != s)).1
    obtain ⟨t3, e3⟩ := (times_zero f64 hx (t != s)).1
    rw [e1, e2, e3, plus_zero_eq f64_ok s t1 k fm hk0]
    exact ⟨_, _, rfl, (plus_zero f64_ok hx fx _).1, (plus_zero f64_ok hy fy _).1⟩
  obtain ⟨p, q, e, hp, hq⟩ := hsm
  have g1 := over_rounded f64_ok hp hm hc
  have g2 := over_rounded f64_ok hq hm hc
  have := complexOver_number (x, y) (.fin s k, .fin t 0) (by rw [e]; exact rounded_ne_nan g1) (by rw [e]; exact rounded_ne_nan g2)
  rw [this, e]; exact ⟨g1, g2⟩

theorem over_imaginary (n m : Flt × Flt) (a b d : Int) (hn : CValue n a b) (fn : CFormat f64 n) (hm : Value m.2 d) (h0 : IsZero m.1)
    (fm : InFormat f64 m.2) (hd : d ≠ 0) :
    Rounded f64 (b * d.sign * one) d.natAbs (complexOver n m).1 ∧ Rounded f64 (-a * d.sign * one) d.natAbs (complexOver n m).2 := by
  obtain ⟨x, y⟩ := n
  obtain ⟨u, w⟩ := m
  obtain ⟨hx, hy⟩ := hn
  simp only at hx hy hm h0 fm
  obtain ⟨fx, fy⟩ := fn
  simp only at fx fy
  obtain ⟨t, rfl⟩ := isZero_cases h0
  obtain ⟨s, k, rfl, hk⟩ := value_cases' hm
  have hk0 : 0 < k := by
    rcases Nat.eq_zero_or_pos k with h | h
    · rw [hk, ne_eq, signed_zero] at hd; exact absurd h hd
    · exact h
  have hsm : ∃ p q, smith (x, y) (.fin t 0, .fin s k) = (over f64 p (.fin s k), over f64 q (.fin s k)) ∧ Value p b ∧
      Value q (-a) := by
    unfold smith
    rw [atLeast_fin, decide_eq_false (by omega), if_neg (by decide)]
    simp only
    rw [over_zero f64 t s k hk0]
    obtain ⟨t1, e1⟩ := (times_zero f64 (value_zero_fin t) (t != s)).2
    obtain ⟨t2, e2⟩ := (times_zero f64 hy (t != s)).1
    obtain ⟨t3, e3⟩ := (times_zero f64 hx (t != s)).1
    rw [e1, e2, e3, plus_zero_eq f64_ok s t1 k fm hk0]
    exact ⟨_, _, rfl, (plus_zero f64_ok hy fy _).2, (plus_zero f64_ok (value_minus hx) (inFormat_minus fx) _).2⟩
  obtain ⟨p, q, e, hp, hq⟩ := hsm
  have g1 := over_rounded f64_ok hp hm hd
  have g2 := over_rounded f64_ok hq hm hd
  have := complexOver_number (x, y) (.fin t 0, .fin s k) (by rw [e]; exact rounded_ne_nan g1) (by rw [e]; exact rounded_ne_nan g2)
  rw [this, e]; exact ⟨g1, g2⟩
theorem cformat_mono {z : Flt × Flt} (h : CFormat f32 z) : CFormat f64 z := by
  have : ∀ {x : Flt}, InFormat f32 x → InFormat f64 x := by
    intro x hx
    cases x with
    | fin s n => exact rep_mono hx
    | _ => trivial
  exact ⟨this h.1, this h.2⟩
end Flt

/-- C145, division by a real number c ≠ 0: in Complex128 the parts are the correctly rounded quotients, in Complex64 these are
rounded to float32. -/
theorem C145_div_real (x y : Flt × Flt) (a b c : Int) (hx : CValue x a b) (hy : CValue y c 0) (hc : c ≠ 0) :
    (CFormat f64 x → CFormat f64 y → Rounded f64 (a * c.sign * one) c.natAbs (complexDiv64 x y).1 ∧
      Rounded f64 (b * c.sign * one) c.natAbs (complexDiv64 x y).2) ∧
    (CFormat f32 x → CFormat f32 y → ∃ re im, Rounded f64 (a * c.sign * one) c.natAbs re ∧
      Narrowed f32 re (complexDiv32 x y).1 ∧ Rounded f64 (b * c.sign * one) c.natAbs im ∧
      Narrowed f32 im (complexDiv32 x y).2) := by
  refine ⟨fun fx fy => over_real x y a b c hx fx hy.1 hy.2 fy.1 hc, fun fx fy => ?_⟩
  obtain ⟨h1, h2⟩ := over_real x y a b c hx (cformat_mono fx) hy.1 hy.2 (cformat_mono fy).1 hc
  exact ⟨_, _, h1, convert_narrowed f32_ok _, h2, convert_narrowed f32_ok _⟩

/-- C145, division by an imaginary number dI ≠ 0: (a + bI)/(dI) = b/d - (a/d)I. -/
theorem C145_div_imaginary (x y : Flt × Flt) (a b d : Int) (hx : CValue x a b) (hy : CValue y 0 d) (hd : d ≠ 0) :
    (CFormat f64 x → CFormat f64 y → Rounded f64 (b * d.sign * one) d.natAbs (complexDiv64 x y).1 ∧
      Rounded f64 (-a * d.sign * one) d.natAbs (complexDiv64 x y).2) ∧
    (CFormat f32 x → CFormat f32 y → ∃ re im, Rounded f64 (b * d.sign * one) d.natAbs re ∧
      Narrowed f32 re (complexDiv32 x y).1 ∧ Rounded f64 (-a * d.sign * one) d.natAbs im ∧
      Narrowed f32 im (complexDiv32 x y).2) := by
  refine ⟨fun fx fy => over_imaginary x y a b d hx fx hy.2 hy.1 fy.2 hd, fun fx fy => ?_⟩
  obtain ⟨h1, h2⟩ := over_imaginary x y a b d hx (cformat_mono fx) hy.2 hy.1 (cformat_mono fy).2 hd
  exact ⟨_, _, h1, convert_narrowed f32_ok _, h2, convert_narrowed f32_ok _⟩

example : complexDiv64 (.fin false (6 * one), .fin false (4 * one)) (.fin true (2 * one), .fin false 0) =
      (.fin true (3 * one), .fin true (2 * one)) ∧
    complexDiv32 (.fin false (6 * one), .fin false (4 * one)) (.fin true 0, .fin false (2 * one)) =
      (.fin false (2 * one), .fin true (3 * one)) := by decide +kernel

/-- C145, division by zero does not panic: each part is NaN if that of the dividend is zero or NaN, and infinite otherwise, with
the sign of the part, inverted if the real part of the divisor is -0. -/
theorem C145_div_zero (x y : Flt × Flt) (hy : CZero y) :
    (∀ part : Flt × Flt → Flt, part = Prod.fst ∨ part = Prod.snd →
      ((IsZero (part x) ∨ part x = .nan) → part (complexDiv64 x y) = .nan ∧ part (complexDiv32 x y) = .nan) ∧
      (¬ (IsZero (part x) ∨ part x = .nan) → part (complexDiv64 x y) = .inf (Negative (part x) != Negative y.1) ∧
        part (complexDiv32 x y) = .inf (Negative (part x) != Negative y.1))) := by
  obtain ⟨u, w⟩ := y
  obtain ⟨s, hs⟩ := isZero_cases hy.1
  obtain ⟨t, ht⟩ := isZero_cases hy.2
  simp only at hs ht
  subst hs ht
  obtain ⟨a, b⟩ := x
  have hsm : smith (a, b) (.fin s 0, .fin t 0) = (.nan, .nan) := by
    have hr : over f64 (.fin t 0) (.fin s 0) = .nan := by simp [over]
    have pn : ∀ z, plus f64 z .nan = .nan := fun z => by cases z <;> rfl
    have on : ∀ z, over f64 z .nan = .nan := fun z => by cases z <;> rfl
    unfold smith
    simp only [atLeast_fin, Nat.le_refl, decide_true, if_true]
    rw [hr]
    simp [pn, on, times]
  have ht : ∀ z, (IsZero z ∨ z = .nan → times f64 (.inf s) z = .nan) ∧
      (¬ (IsZero z ∨ z = .nan) → times f64 (.inf s) z = .inf (Negative z != s)) := by
    intro z
    cases z with
    | nan => simp [times]
    | inf r => refine ⟨fun h => ?_, fun _ => by cases s <;> cases r <;> rfl⟩
               rcases h with h | h
               · exact h.elim
               · cases h
    | fin r n =>
      have : IsZero (.fin r n) ↔ n = 0 := by show (0 : Int) = _ ↔ _; rw [eq_comm, signed_zero]
      rw [this]
      by_cases c : n = 0
      · simp [times, c]
      · simp [times, c, Negative]; cases s <;> cases r <;> rfl
  have hq : complexOver (a, b) (.fin s 0, .fin t 0) = (times f64 (.inf s) a, times f64 (.inf s) b) := by
    unfold complexOver
    rw [hsm]
    simp only [isNaN, Bool.or_self, if_true, isZero, decide_true, Bool.and_self, Bool.true_and, infLike]
    by_cases g : (!isNaN a || !isNaN b) = true
    · have g' := g
      simp only [isNaN] at g'
      rw [if_pos g']
    · have ga : a = .nan := by cases a <;> simp [isNaN] at g ⊢
      have gb : b = .nan := by cases b <;> simp [isNaN] at g ⊢
      subst ga gb; simp [isInf, isFinite, times]
  intro part hp
  have e64 : part (complexDiv64 (a, b) (.fin s 0, .fin t 0)) = times f64 (.inf s) (part (a, b)) := by
    unfold complexDiv64; rw [hq]; rcases hp with rfl | rfl <;> rfl
  have e32 : part (complexDiv32 (a, b) (.fin s 0, .fin t 0)) = convert f32 (times f64 (.inf s) (part (a, b))) := by
    unfold complexDiv32 narrow; rw [hq]; rcases hp with rfl | rfl <;> rfl
  rw [e64, e32]
  refine ⟨fun h => ?_, fun h => ?_⟩
  · rw [(ht _).1 h]; exact ⟨rfl, rfl⟩
  · rw [(ht _).2 h]; exact ⟨rfl, rfl⟩

example : CZero (.fin true 0, .fin false 0) ∧ complexDiv64 (.fin false 3, .fin false 0) (.fin true 0, .fin false 0) = (.inf true, .nan) :=
  ⟨⟨value_zero_fin _, value_zero_fin _⟩, by decide +kernel⟩

namespace Flt
/-- The quotient of two numbers with the values N/D = P/Q (in units). -/
theorem quotient_rounded {x y : Flt} {N D P c : Int} {Q : Nat} (hx : Value x N) (hy : Value y D) (hc : c ≠ 0)
    (h1 : P = N * c) (h2 : (Q : Int) = D * c) (hq : 0 < Q) : Rounded f64 (P * one) Q (over f64 x y) := by
  have hD : D ≠ 0 := by rintro rfl; rw [Int.zero_mul] at h2; omega
  have hs : D.sign = c.sign := by
    have hp : 0 < D * c := by omega
    rcases Int.lt_or_gt_of_ne hD with g | g <;> rcases Int.lt_or_gt_of_ne hc with g' | g'
    · rw [Int.sign_eq_neg_one_of_neg g, Int.sign_eq_neg_one_of_neg g']
    · have := Int.mul_neg_of_neg_of_pos g g'; omega
    · have := Int.mul_neg_of_pos_of_neg g g'; omega
    · rw [Int.sign_eq_one_of_pos g, Int.sign_eq_one_of_pos g']
  have h := (rounded_scale f64_ok _ _ c.natAbs (by omega) (by omega) _).2 (over_rounded f64_ok hx hy hD)
  have e1 : N * D.sign * one * (c.natAbs : Int) = P * one := by
    rw [hs, h1]
    calc N * c.sign * one * (c.natAbs : Int) = N * (c.sign * (c.natAbs : Int)) * one := by ring
      _ = N * c * one := by rw [Int.sign_mul_natAbs]
  have e2 : D.natAbs * c.natAbs = Q := by rw [← Int.natAbs_mul, ← h2]; rfl
  rwa [e1, e2] at h
end Flt

/-- C145, quotients where Smith's method loses nothing: if the quotient r of the smaller part of the divisor by the larger one is a
number of float64, and so are the products with r and the two numerators and the denominator, then the parts of the quotient in
Complex128 are (ac + bd)/(c² + d²) and (bc - ad)/(c² + d²), correctly rounded. -/
theorem C145_div_exact (x y : Flt × Flt) (a b c d r : Int) (hx : CValue x a b) (hy : CValue y c d) (h0 : c ≠ 0 ∨ d ≠ 0)
    (hr : Rep f64 r.natAbs)
    (h : (d.natAbs ≤ c.natAbs ∧ r * c = d * one ∧ ∃ rd br ar : Int, r * d = rd * one ∧ b * r = br * one ∧ a * r = ar * one ∧
          Rep f64 rd.natAbs ∧ Rep f64 br.natAbs ∧ Rep f64 ar.natAbs ∧ Rep f64 (c + rd).natAbs ∧ Rep f64 (a + br).natAbs ∧
          Rep f64 (b - ar).natAbs) ∨
        (c.natAbs < d.natAbs ∧ r * d = c * one ∧ ∃ rc br ar : Int, r * c = rc * one ∧ b * r = br * one ∧ a * r = ar * one ∧
          Rep f64 rc.natAbs ∧ Rep f64 br.natAbs ∧ Rep f64 ar.natAbs ∧ Rep f64 (d + rc).natAbs ∧ Rep f64 (ar + b).natAbs ∧
          Rep f64 (br - a).natAbs)) :
    Rounded f64 ((a * c + b * d) * one) (c * c + d * d).natAbs (complexDiv64 x y).1 ∧
    Rounded f64 ((b * c - a * d) * one) (c * c + d * d).natAbs (complexDiv64 x y).2 := by
  obtain ⟨u, v⟩ := x
  obtain ⟨m, w⟩ := y
  obtain ⟨hu, hv⟩ := hx
  obtain ⟨hm, hw⟩ := hy
  simp only at hu hv hm hw
  have hone : (0 : Int) < one := by have := Flt.one_pos; omega
  have hsq : 0 < c * c + d * d := by
    have h1 : 0 ≤ c * c := mul_self_nonneg c
    have h2 : 0 ≤ d * d := mul_self_nonneg d
    rcases h0 with h | h
    · have : 0 < c * c := by rcases Int.lt_or_gt_of_ne h with g | g
                             · exact Int.mul_pos_of_neg_of_neg g g
                             · exact Int.mul_pos g g
      omega
    · have : 0 < d * d := by rcases Int.lt_or_gt_of_ne h with g | g
                             · exact Int.mul_pos_of_neg_of_neg g g
                             · exact Int.mul_pos g g
      omega
  have hQ : (((c * c + d * d).natAbs : Nat) : Int) = c * c + d * d := Int.natAbs_of_nonneg (by omega)
  have tv : ∀ {x y : Flt} {i j p : Int}, Value x i → Value y j → i * j = p * one → Rep f64 p.natAbs → Value (times f64 x y) p :=
    fun hu hv e g => rounded_exact f64_ok _ one Flt.one_pos g _ (e ▸ times_rounded f64_ok hu hv)
  have pv : ∀ {x y : Flt} {i j : Int}, Value x i → Value y j → Rep f64 (i + j).natAbs → Value (plus f64 x y) (i + j) :=
    fun {x y i j} hu hv g => (C137_exact f64_ok x y i j hu hv).1 g
  have sv : ∀ {x y : Flt} {i j : Int}, Value x i → Value y j → Rep f64 (i - j).natAbs → Value (plus f64 x (minus y)) (i - j) :=
    fun {x y i j} hu hv g => (C137_exact f64_ok x y i j hu hv).2.1 g
  have cancel : ∀ {p q : Int}, p * one = q * one → p = q := fun h => Int.eq_of_mul_eq_mul_right (by omega) h
  have hcmp : atLeast (absolute m) (absolute w) = decide (d.natAbs ≤ c.natAbs) := by
    obtain ⟨s, k, rfl, rfl⟩ := value_cases' hm
    obtain ⟨t, l, rfl, rfl⟩ := value_cases' hw
    rw [atLeast_fin, signed_natAbs, signed_natAbs]
  have hsm : Rounded f64 ((a * c + b * d) * one) (c * c + d * d).natAbs (smith (u, v) (m, w)).1 ∧
      Rounded f64 ((b * c - a * d) * one) (c * c + d * d).natAbs (smith (u, v) (m, w)).2 := by
    rcases h with ⟨hle, e, rd, br, ar, e1, e2, e3, r1, r2, r3, r4, r5, r6⟩ | ⟨hlt, e, rc, br, ar, e1, e2, e3, r1, r2, r3, r4, r5, r6⟩
    · have hc : c ≠ 0 := by rcases h0 with h | h
                            · exact h
                            · omega
      have hr := (C137_exact f64_ok w m d c hw hm).2.2.2 r hc e hr
      have hD := pv hm (tv hr hw e1 r1) r4
      unfold smith
      simp only [hcmp, hle, decide_true, if_true]
      refine ⟨quotient_rounded (pv hu (tv hv hr e2 r2) r5) hD hc ?_ ?_ (by omega),
        quotient_rounded (sv hv (tv hu hr e3 r3) r6) hD hc ?_ ?_ (by omega)⟩
      · refine cancel ?_
        calc (a * c + b * d) * one = a * c * one + b * (d * one) := by ring
          _ = a * c * one + b * r * c := by rw [← e]; ring
          _ = (a + br) * c * one := by rw [e2]; ring
      · rw [hQ]; refine cancel ?_
        calc (c * c + d * d) * one = c * c * one + d * (d * one) := by ring
          _ = c * c * one + r * d * c := by rw [← e]; ring
          _ = (c + rd) * c * one := by rw [e1]; ring
      · refine cancel ?_
        calc (b * c - a * d) * one = b * c * one - a * (d * one) := by ring
          _ = b * c * one - a * r * c := by rw [← e]; ring
          _ = (b - ar) * c * one := by rw [e3]; ring
      · rw [hQ]; refine cancel ?_
        calc (c * c + d * d) * one = c * c * one + d * (d * one) := by ring
          _ = c * c * one + r * d * c := by rw [← e]; ring
          _ = (c + rd) * c * one := by rw [e1]; ring
    · have hd : d ≠ 0 := by omega
      have hr := (C137_exact f64_ok m w c d hm hw).2.2.2 r hd e hr
      have hD := pv hw (tv hr hm e1 r1) r4
      unfold smith
      rw [hcmp, decide_eq_false (by omega), if_neg (by decide)]
      simp only
      refine ⟨quotient_rounded (pv (tv hu hr e3 r3) hv r5) hD hd ?_ ?_ (by omega),
        quotient_rounded (sv (tv hv hr e2 r2) hu r6) hD hd ?_ ?_ (by omega)⟩
      · refine cancel ?_
        calc (a * c + b * d) * one = a * (c * one) + b * d * one := by ring
          _ = a * r * d + b * d * one := by rw [← e]; ring
          _ = (ar + b) * d * one := by rw [e3]; ring
      · rw [hQ]; refine cancel ?_
        calc (c * c + d * d) * one = c * (c * one) + d * d * one := by ring
          _ = r * c * d + d * d * one := by rw [← e]; ring
          _ = (d + rc) * d * one := by rw [e1]; ring
      · refine cancel ?_
        calc (b * c - a * d) * one = b * (c * one) - a * d * one := by ring
          _ = b * r * d - a * d * one := by rw [← e]; ring
          _ = (br - a) * d * one := by rw [e2]; ring
      · rw [hQ]; refine cancel ?_
        calc (c * c + d * d) * one = c * (c * one) + d * d * one := by ring
          _ = r * c * d + d * d * one := by rw [← e]; ring
          _ = (d + rc) * d * one := by rw [e1]; ring
  have := complexOver_number (u, v) (m, w) (rounded_ne_nan hsm.1) (rounded_ne_nan hsm.2)
  unfold complexDiv64
  rw [this]; exact hsm

example : complexDiv64 (.fin false (3 * one), .fin false one) (.fin false one, .fin false one) =
      (.fin false (2 * one), .fin true one) ∧
    complexDiv64 (.fin false (10 * one), .fin false (5 * one)) (.fin false one, .fin false (2 * one)) =
      (.fin false (4 * one), .fin true (3 * one)) := by decide +kernel

/-- The hypotheses are met, for instance by (3 + I)/(1 + I). -/
example : ∃ r rd br ar : Int, r * one = one * one ∧ r * one = rd * one ∧ one * r = br * one ∧ 3 * one * r = ar * one ∧
    Rep f64 r.natAbs ∧ Rep f64 rd.natAbs ∧ Rep f64 br.natAbs ∧ Rep f64 ar.natAbs ∧ Rep f64 (one + rd).natAbs ∧
    Rep f64 (3 * one + br).natAbs ∧ Rep f64 (one - ar).natAbs := by
  have k : ∀ n : Int, n.natAbs ≤ 2 ^ 53 → Rep f64 (n * one).natAbs := fun n h => by
    rw [Int.natAbs_mul]; exact rep_upto f64_text _ h
  refine ⟨1 * one, 1 * one, 1 * one, 3 * one, by ring, by ring, by ring, by ring, k 1 (by decide), k 1 (by decide), k 1 (by decide),
    k 3 (by decide), ?_, ?_, ?_⟩
  · rw [show ((one : Int) + 1 * one) = 2 * one by ring]; exact k 2 (by decide)
  · rw [show ((3 * one : Int) + 1 * one) = 4 * one by ring]; exact k 4 (by decide)
  · rw [show ((one : Int) - 3 * one) = (-2) * one by ring]; exact k (-2) (by decide)

/-- C145, a number divided by itself: the real part is exactly 1, if the parts are at most 2^1022 (beyond, the quotient may be
NaN).  The full property, that z/z is 1, fails: see `C145_div_self_fails`. -/
theorem C145_div_self_partial (x : Flt × Flt) (a b : Int) (hx : CValue x a b) (fx : CFormat f64 x) (h0 : a ≠ 0 ∨ b ≠ 0)
    (ha : a.natAbs ≤ 2 ^ 1022 * one) (hb : b.natAbs ≤ 2 ^ 1022 * one) : (complexDiv64 x x).1 = .fin false one := by
  obtain ⟨u, v⟩ := x
  obtain ⟨s, k, rfl, rfl⟩ := value_cases' hx.1
  obtain ⟨t, l, rfl, rfl⟩ := value_cases' hx.2
  rw [ne_eq, signed_zero, ne_eq, signed_zero] at h0
  rw [signed_natAbs] at ha hb
  obtain ⟨hk, hl⟩ := fx
  have big : Rep f64 (2 ^ 1023 * one) :=
    ⟨2 ^ 52, 2045, by rw [one_def _ rfl, ← Nat.pow_add, ← Nat.pow_add], by decide, by decide, by decide⟩
  have e2 : 2 ^ 1023 * one = 2 * (2 ^ 1022 * one) := by rw [← Nat.mul_assoc, ← Nat.pow_succ']
  generalize 2 ^ 1022 * one = B at *
  generalize 2 ^ 1023 * one = C at *
  have self : ∀ z : Flt, ∀ q n, z = .fin q n → n ≠ 0 → InFormat f64 z → over f64 z z = .fin false one := fun z q n e hn hz =>
    (C137_algebra f64_text z z hz).2.2.2.2.2.2.2.1 q n e hn
  have hsm : (smith (.fin s k, .fin t l) (.fin s k, .fin t l)).1 = .fin false one ∧
      (smith (.fin s k, .fin t l) (.fin s k, .fin t l)).2 ≠ .nan := by
    unfold smith
    by_cases c : l ≤ k
    · rw [atLeast_fin, decide_eq_true c, if_pos rfl]
      simp only
      obtain ⟨ρ, e1, h1, h2, h3⟩ := smith_den s t k l hk hl c (by omega)
      rw [e1]
      rcases h2 with h2 | ⟨δ, h2, h4, h5⟩
      · exact absurd h2 (h3 _ big (by omega))
      · rw [times_comm f64 (.fin t l), h2]
        refine ⟨self _ s δ rfl (by omega) (by rw [← h2]; exact plus_inFormat f64_ok _ _), fun hn => ?_⟩
        have := (C137_special f64 (plus f64 (.fin t l) (minus (times f64 (.fin s k) (.fin (t != s) ρ)))) (.fin s δ)).2.2.2.1.1 hn
        rcases this with g | g | ⟨_, _, _, g⟩ | ⟨_, g⟩
        · have := (C137_special f64 (.fin t l) (times f64 (.fin s k) (.fin (t != s) ρ))).2.1.1 g
          rcases this with g | g | ⟨_, g, _⟩
          · cases g
          · exact roundTo_ne_nan _ _ _ _ g
          · cases g
        · cases g
        · cases g
        · have g : (0 : Int) = _ := g
          rw [eq_comm, signed_zero] at g; omega
    · rw [atLeast_fin, decide_eq_false c, if_neg (by decide)]
      simp only
      obtain ⟨ρ, e1, h1, h2, h3⟩ := smith_den t s l k hl hk (by omega) (by omega)
      rw [e1]
      rcases h2 with h2 | ⟨δ, h2, h4, h5⟩
      · exact absurd h2 (h3 _ big (by omega))
      · rw [plus_comm f64 (times f64 (.fin s k) _), times_comm f64 (.fin s k), h2]
        refine ⟨self _ t δ rfl (by omega) (by rw [← h2]; exact plus_inFormat f64_ok _ _), fun hn => ?_⟩
        have := (C137_special f64 (plus f64 (times f64 (.fin t l) (.fin (s != t) ρ)) (minus (.fin s k))) (.fin t δ)).2.2.2.1.1 hn
        rcases this with g | g | ⟨_, _, _, g⟩ | ⟨_, g⟩
        · have := (C137_special f64 (times f64 (.fin t l) (.fin (s != t) ρ)) (.fin s k)).2.1.1 g
          rcases this with g | g | ⟨_, _, g⟩
          · exact roundTo_ne_nan _ _ _ _ g
          · cases g
          · cases g
        · cases g
        · cases g
        · have g : (0 : Int) = _ := g
          rw [eq_comm, signed_zero] at g; omega
  unfold complexDiv64
  rw [complexOver_number _ _ (by rw [hsm.1]; exact fun h => by cases h) hsm.2]
  exact hsm.1

/-- C145: z/z is not 1 for every z ≠ 0: (49 + I)/(49 + I) has an imaginary part of about 2^-58.6; and for the largest
numbers the quotient is NaN. -/
theorem C145_div_self_fails :
    complexDiv64 (.fin false (49 * one), .fin false one) (.fin false (49 * one), .fin false one) =
      (.fin false one, .fin false (5879803676700198 * 2 ^ 963)) ∧
    complexDiv64 (.fin false (maxMag f64), .fin false (maxMag f64)) (.fin false (maxMag f64), .fin false (maxMag f64)) =
      (.nan, .fin false 0) := by decide +kernel

namespace Flt
theorem times_unit {x : Flt} {s : Bool} {k : Nat} (h : x = .fin s k) (hk : Rep f64 k) (t : Bool) :
    times f64 (.fin t one) x = .fin (t != s) k := by
  subst h
  show roundTo f64 (t != s) (one * k) one = _
  rw [Nat.mul_comm, roundTo_rep f64_ok _ _ _ Flt.one_pos hk]

/-- `inf2one` times a number: its value is that of the number, its negative, or zero. -/
theorem inf2one_times (a : Flt) (s : Bool) (k : Nat) (hk : Rep f64 k) :
    ∃ α : Int, (α = 0 ∨ α = 1 ∨ α = -1) ∧ (isInf a = true → α ≠ 0) ∧
      Value (times f64 (inf2one a) (.fin s k)) (α * (if s then -(k : Int) else k)) ∧
      InFormat f64 (times f64 (inf2one a) (.fin s k)) ∧ ∀ t l, Rep f64 l →
      Value (times f64 (inf2one a) (.fin t l)) (α * (if t then -(l : Int) else l)) ∧
      InFormat f64 (times f64 (inf2one a) (.fin t l)) := by
  have hf : ∀ t l, InFormat f64 (times f64 (inf2one a) (.fin t l)) := fun t l => (C137_closed f64_ok (inf2one a) (.fin t l)).2.2.1
  suffices ∃ α : Int, (α = 0 ∨ α = 1 ∨ α = -1) ∧ (isInf a = true → α ≠ 0) ∧ ∀ t l, Rep f64 l →
      Value (times f64 (inf2one a) (.fin t l)) (α * (if t then -(l : Int) else l)) by
    obtain ⟨α, h1, h2, h3⟩ := this
    exact ⟨α, h1, h2, h3 s k hk, hf _ _, fun t l hl => ⟨h3 t l hl, hf _ _⟩⟩
  have hz : ∀ q t l, Value (times f64 (.fin q 0) (.fin t l)) 0 := fun q t l => by
    obtain ⟨r, e⟩ := (times_zero f64 (x := .fin t l) rfl q).2
    rw [e]; exact value_zero_fin _
  cases a with
  | nan => exact ⟨0, Or.inl rfl, fun h => by simp [isInf] at h, fun t l _ => by rw [Int.zero_mul]; exact hz _ _ _⟩
  | fin q n => exact ⟨0, Or.inl rfl, fun h => by simp [isInf] at h, fun t l _ => by rw [Int.zero_mul]; exact hz _ _ _⟩
  | inf q =>
    cases q
    · refine ⟨1, Or.inr (Or.inl rfl), fun _ => by decide, fun t l hl => ?_⟩
      show Value (times f64 (.fin false one) _) _
      rw [times_unit rfl hl, Int.one_mul]; cases t <;> rfl
    · refine ⟨-1, Or.inr (Or.inr rfl), fun _ => by decide, fun t l hl => ?_⟩
      show Value (times f64 (.fin true one) _) _
      rw [times_unit rfl hl]; cases t <;> simp [Value]

theorem inf_times {x : Flt} (h : x ≠ .nan) (h0 : ¬ IsZero x) (s : Bool) : ∃ t, times f64 (.inf s) x = .inf t := by
  cases x with
  | nan => exact absurd rfl h
  | inf t => exact ⟨_, rfl⟩
  | fin t n =>
    have : n ≠ 0 := fun c => h0 (by subst c; exact value_zero_fin _)
    exact ⟨s != t, by show (if n = 0 then _ else _) = _; rw [if_neg this]⟩

/-- An infinite numerator over a denominator that is not infinite. -/
theorem over_infinite {x d : Flt} {s t : Bool} (hx : x = .nan ∨ x = .inf s) (hd : d = .inf t ∨ ∃ δ, d = .fin t δ)
    (h : over f64 x d ≠ .nan) : ∃ r, over f64 x d = .inf r := by
  rcases hx with rfl | rfl
  · exact absurd rfl h
  · rcases hd with rfl | ⟨δ, rfl⟩
    · exact absurd rfl h
    · exact ⟨_, rfl⟩
end Flt

/-- C145, an infinite number divided by a finite one (zero included) is infinite, whatever the other part of the dividend is. -/
theorem C145_div_infinite (x y : Flt × Flt) (c d : Int) (hx : CInfinite x) (hy : CValue y c d) (fy : CFormat f64 y) :
    CInfinite (complexDiv64 x y) ∧ CInfinite (complexDiv32 x y) := by
  suffices h : CInfinite (complexOver x y) by
    obtain ⟨s, h⟩ := h
    refine ⟨⟨s, h⟩, s, ?_⟩
    rcases h with h | h
    · left; show convert f32 _ = _; rw [h]; rfl
    · right; show convert f32 _ = _; rw [h]; rfl
  obtain ⟨a, b⟩ := x
  obtain ⟨m, w⟩ := y
  obtain ⟨s, k, rfl, rfl⟩ := value_cases' hy.1
  obtain ⟨t, l, rfl, rfl⟩ := value_cases' hy.2
  obtain ⟨hk, hl⟩ := fy
  obtain ⟨q, hx⟩ := hx
  simp only at hx hk hl
  by_cases h0 : k = 0 ∧ l = 0
  · obtain ⟨rfl, rfl⟩ := h0
    have hz := C145_div_zero (a, b) (.fin s 0, .fin t 0) ⟨value_zero_fin _, value_zero_fin _⟩
    rcases hx with rfl | rfl
    · exact ⟨_, Or.inl ((hz Prod.fst (Or.inl rfl)).2 (by rintro (h | h); exacts [h.elim, by cases h])).1⟩
    · exact ⟨_, Or.inr ((hz Prod.snd (Or.inr rfl)).2 (by rintro (h | h); exacts [h.elim, by cases h])).1⟩
  · by_cases hn : (isNaN (smith (a, b) (.fin s k, .fin t l)).1 || isNaN (smith (a, b) (.fin s k, .fin t l)).2) = true
    · have hnz : (isZero (.fin s k) && isZero (.fin t l)) = false := by
        simp only [isZero, Bool.and_eq_false_iff, decide_eq_false_iff_not]; omega
      have hi : (isInf a || isInf b) = true := by rcases hx with rfl | rfl <;> simp [isInf]
      have e : complexOver (a, b) (.fin s k, .fin t l) =
          (times f64 (.inf false) (plus f64 (times f64 (inf2one a) (.fin s k)) (times f64 (inf2one b) (.fin t l))),
           times f64 (.inf false) (plus f64 (times f64 (inf2one b) (.fin s k)) (minus (times f64 (inf2one a) (.fin t l))))) := by
        unfold complexOver
        simp only [hn, hnz, hi, isFinite, if_true, Bool.false_and, Bool.false_eq_true, if_false, Bool.and_self]
      rw [e]
      obtain ⟨α, ha, ha', v1, g1, w1⟩ := inf2one_times a s k hk
      obtain ⟨β, hb, hb', v2, g2, w2⟩ := inf2one_times b s k hk
      obtain ⟨v3, g3⟩ := w1 t l hl
      obtain ⟨v4, g4⟩ := w2 t l hl
      have z1 := (C137_sub_zero f64_ok _ _ _ _ v1 v4 g1 g4).2
      have z2 := (C137_sub_zero f64_ok _ _ _ _ v2 v3 g2 g3).1
      have n1 := rounded_ne_nan (plus_rounded f64_ok v1 v4)
      have n2 := rounded_ne_nan (sub_rounded f64_ok v2 v3)
      by_cases c1 : IsZero (plus f64 (times f64 (inf2one a) (.fin s k)) (times f64 (inf2one b) (.fin t l)))
      · by_cases c2 : IsZero (plus f64 (times f64 (inf2one b) (.fin s k)) (minus (times f64 (inf2one a) (.fin t l))))
        · exfalso
          have c1 := z1.1 c1
          have c2 := z2.1 c2
          have hk0 := signed_zero s k
          have hl0 := signed_zero t l
          generalize (if s then -(k : Int) else k) = c at *
          generalize (if t then -(l : Int) else l) = d at *
          have hab : α ≠ 0 ∨ β ≠ 0 := by
            rcases hx with rfl | rfl
            · exact Or.inl (ha' rfl)
            · exact Or.inr (hb' rfl)
          rcases ha with rfl | rfl | rfl <;> rcases hb with rfl | rfl | rfl <;> simp at hab c1 c2 <;> omega
        · obtain ⟨r, hr⟩ := inf_times n2 c2 false
          exact ⟨r, Or.inr hr⟩
      · obtain ⟨r, hr⟩ := inf_times n1 c1 false
        exact ⟨r, Or.inl hr⟩
    · simp only [Bool.or_eq_true, not_or, Bool.not_eq_true, isNaN_iff] at hn
      rw [complexOver_number _ _ hn.1 hn.2]
      have pl : ∀ q z, plus f64 (.inf q) z = .nan ∨ plus f64 (.inf q) z = .inf q := fun q z =>
        (C137_special f64 (.inf q) z).2.2.2.2.1 q rfl
      have pr : ∀ q z, plus f64 z (.inf q) = .nan ∨ plus f64 z (.inf q) = .inf q := fun q z =>
        (C137_special f64 z (.inf q)).2.2.2.2.2.1 q rfl
      by_cases cmp : l ≤ k
      · obtain ⟨ρ, e1, h1, h2, -⟩ := smith_den s t k l hk hl cmp (by omega)
        have hd : plus f64 (.fin s k) (times f64 (.fin (t != s) ρ) (.fin t l)) = .inf s ∨
            ∃ δ, plus f64 (.fin s k) (times f64 (.fin (t != s) ρ) (.fin t l)) = .fin s δ := by
          rcases h2 with h | ⟨δ, h, -⟩
          · exact Or.inl h
          · exact Or.inr ⟨δ, h⟩
        unfold smith at hn ⊢
        rw [atLeast_fin, decide_eq_true cmp, if_pos rfl] at hn ⊢
        simp only at hn ⊢
        rw [e1] at hn ⊢
        rcases hx with rfl | rfl
        · obtain ⟨r, h⟩ := over_infinite (pl _ _) hd hn.1
          exact ⟨r, Or.inl h⟩
        · obtain ⟨r, h⟩ := over_infinite (pl _ _) hd hn.2
          exact ⟨r, Or.inr h⟩
      · obtain ⟨ρ, e1, h1, h2, -⟩ := smith_den t s l k hl hk (by omega) (by omega)
        have hd : plus f64 (.fin t l) (times f64 (.fin (s != t) ρ) (.fin s k)) = .inf t ∨
            ∃ δ, plus f64 (.fin t l) (times f64 (.fin (s != t) ρ) (.fin s k)) = .fin t δ := by
          rcases h2 with h | ⟨δ, h, -⟩
          · exact Or.inl h
          · exact Or.inr ⟨δ, h⟩
        unfold smith at hn ⊢
        rw [atLeast_fin, decide_eq_false cmp, if_neg (by decide)] at hn ⊢
        simp only at hn ⊢
        rw [e1] at hn ⊢
        rcases hx with rfl | rfl
        · obtain ⟨r, h⟩ := over_infinite (pr _ _) hd hn.2
          exact ⟨r, Or.inr h⟩
        · obtain ⟨r, h⟩ := over_infinite (pr _ _) hd hn.1
          exact ⟨r, Or.inl h⟩

example : complexDiv64 (.inf false, .nan) (.fin false one, .fin true one) = (.inf false, .inf false) ∧
    complexDiv32 (.inf true, .inf true) (.fin false 0, .fin true one) = (.inf false, .inf true) := by decide +kernel

/-- C145, a finite number divided by an infinite one is zero, unless both parts of the divisor are infinite and the sum or
the difference of the parts of the dividend is too large: see `C145_div_by_infinite_fails`. -/
theorem C145_div_by_infinite_partial (x y : Flt × Flt) (a b : Int) (hx : CValue x a b) (fx : CFormat f64 x) (hy : CInfinite y)
    (h : (∃ s t, y = (.inf s, .inf t)) → Rep f64 (a + b).natAbs ∧ Rep f64 (a - b).natAbs) :
    CZero (complexDiv64 x y) ∧ CZero (complexDiv32 x y) := by
  suffices h : CZero (complexOver x y) by
    refine ⟨h, ?_, ?_⟩
    · exact ((convert_narrowed f32_ok _).2.2 0 h.1).2 rfl
    · exact ((convert_narrowed f32_ok _).2.2 0 h.2).2 rfl
  obtain ⟨u, v⟩ := x
  obtain ⟨m, w⟩ := y
  obtain ⟨hu, hv⟩ := hx
  obtain ⟨fu, fv⟩ := fx
  obtain ⟨q, hy⟩ := hy
  simp only at hu hv fu fv hy
  have finv : ∀ {z : Flt} {n : Int}, Value z n → ∃ s k, z = .fin s k := fun h => by
    obtain ⟨s, k, e, -⟩ := value_cases' h; exact ⟨s, k, e⟩
  have oz : ∀ {z : Flt} {n : Int} (s : Bool), Value z n → IsZero (over f64 z (.inf s)) := by
    intro z n s hz
    obtain ⟨t, k, rfl⟩ := finv hz
    exact value_zero_fin _
  have tz : ∀ {z : Flt} {n : Int}, Value z n → IsZero (times f64 (.fin false 0) z) := fun {z n} hz => by
    obtain ⟨t, e⟩ := (times_zero f64 hz false).2; rw [e]; exact value_zero_fin _
  have nz : ∀ {z : Flt}, IsZero z → z ≠ .nan := by rintro z h rfl; exact h
  -- one infinite part, the other one finite
  have one_inf : ∀ s t k, m = .inf s → w = .fin t k → CZero (complexOver (u, v) (m, w)) := by
    rintro s t k rfl rfl
    have hs : CZero (smith (u, v) (.inf s, .fin t k)) := by
      unfold smith
      have : atLeast (absolute (.inf s)) (absolute (.fin t k)) = true := rfl
      rw [this, if_pos rfl]
      simp only
      rw [show over f64 (.fin t k) (.inf s) = .fin (t != s) 0 from rfl]
      obtain ⟨t1, e1⟩ := (times_zero f64 (x := .fin t k) rfl (t != s)).2
      obtain ⟨t2, e2⟩ := (times_zero f64 hv (t != s)).1
      obtain ⟨t3, e3⟩ := (times_zero f64 hu (t != s)).1
      rw [e1, e2, e3, show plus f64 (.inf s) (.fin t1 0) = .inf s from rfl]
      exact ⟨oz s (plus_zero f64_ok hu fu _).1, oz s (plus_zero f64_ok hv fv _).1⟩
    rw [complexOver_number _ _ (nz hs.1) (nz hs.2)]; exact hs
  have other_inf : ∀ s t k, m = .fin t k → w = .inf s → CZero (complexOver (u, v) (m, w)) := by
    rintro s t k rfl rfl
    have hs : CZero (smith (u, v) (.fin t k, .inf s)) := by
      unfold smith
      have : atLeast (absolute (.fin t k)) (absolute (.inf s)) = false := rfl
      rw [this, if_neg (by decide)]
      simp only
      rw [show over f64 (.fin t k) (.inf s) = .fin (t != s) 0 from rfl]
      obtain ⟨t1, e1⟩ := (times_zero f64 (x := .fin t k) rfl (t != s)).2
      obtain ⟨t2, e2⟩ := (times_zero f64 hv (t != s)).1
      obtain ⟨t3, e3⟩ := (times_zero f64 hu (t != s)).1
      rw [e1, e2, e3, show plus f64 (.inf s) (.fin t1 0) = .inf s from rfl]
      exact ⟨oz s (plus_zero f64_ok hv fv _).2, oz s (plus_zero f64_ok (value_minus hu) (inFormat_minus fu) _).2⟩
    rw [complexOver_number _ _ (nz hs.1) (nz hs.2)]; exact hs
  -- the correction
  have corr : (isInf m || isInf w) = true → (isZero m && isZero w) = false → (isFinite m && isFinite w) = false →
      (smith (u, v) (m, w)).1 = .nan → complexOver (u, v) (m, w) =
      (times f64 (.fin false 0) (plus f64 (times f64 u (inf2one m)) (times f64 v (inf2one w))),
       times f64 (.fin false 0) (plus f64 (times f64 v (inf2one m)) (minus (times f64 u (inf2one w))))) := by
    intro h1 h2 h3 h4
    obtain ⟨s1, k1, rfl⟩ := finv hu
    obtain ⟨s2, k2, rfl⟩ := finv hv
    have hnan : isNaN (smith (.fin s1 k1, .fin s2 k2) (m, w)).1 = true := by rw [h4]; rfl
    unfold complexOver
    simp only [hnan, Bool.true_or, if_true, h1, h2, Bool.false_and, Bool.false_eq_true, if_false]
    simp only [isInf, isFinite, Bool.or_self, Bool.false_and, Bool.false_eq_true, if_false, Bool.and_self, if_true]
  have unit : ∀ {z : Flt} {n : Int} (s : Bool), Value z n → InFormat f64 z → Value (times f64 z (.fin s one)) (if s then -n else n) := by
    intro z n s hz fz
    obtain ⟨t, k, rfl, rfl⟩ := value_cases' hz
    rw [times_comm, times_unit rfl fz]
    cases s <;> cases t <;> simp [Value]
  have zero : ∀ {z : Flt} {n : Int} (s : Bool), Value z n → Value (times f64 z (.fin s 0)) 0 := by
    intro z n s hz
    obtain ⟨t, e⟩ := (times_zero f64 hz s).1; rw [e]; exact value_zero_fin _
  have sum : ∀ {z z' : Flt} {n n' : Int}, Value z n → Value z' n' → Rep f64 (n + n').natAbs →
      IsZero (times f64 (.fin false 0) (plus f64 z z')) := fun {z z' n n'} h h' hr =>
    tz ((C137_exact f64_ok z z' n n' h h').1 hr)
  have pn : ∀ z, plus f64 z .nan = .nan := fun z => by cases z <;> rfl
  have on : ∀ z, over f64 z .nan = .nan := fun z => by cases z <;> rfl
  have tn : ∀ z, times f64 z .nan = .nan := fun z => by cases z <;> rfl
  have nt : ∀ z, times f64 .nan z = .nan := fun z => rfl
  have nr : ∀ z, over f64 .nan z = .nan := fun z => rfl
  have rn : ∀ s, over f64 (.inf s) .nan = .nan := fun z => rfl
  have rr : ∀ s t, over f64 (.inf s) (.inf t) = .nan := fun _ _ => rfl
  have ra := value_rep hu fu
  have rb := value_rep hv fv
  cases m with
  | fin t k =>
    rcases hy with hy | hy
    · cases hy
    · exact other_inf q t k rfl hy
  | nan =>
    rcases hy with hy | hy
    · cases hy
    · subst hy
      rw [corr rfl rfl rfl (by simp [smith, absolute, atLeast, rn, nr, nt, rr, pn, on, tn])]
      refine ⟨sum (zero _ hu) (unit q hv fv) ?_, sum (zero _ hv) (value_minus (unit q hu fu)) ?_⟩
      · cases q <;> simpa using rb
      · cases q <;> simpa using ra
  | inf s =>
    cases w with
    | fin t k => exact one_inf s t k rfl rfl
    | nan =>
      rw [corr rfl rfl rfl (by simp [smith, absolute, atLeast, rn, nr, nt, rr, pn, on, tn])]
      refine ⟨sum (unit s hu fu) (zero _ hv) ?_, sum (unit s hv fv) (value_minus (zero _ hu)) ?_⟩
      · cases s <;> simpa using ra
      · cases s <;> simpa using rb
    | inf t =>
      obtain ⟨r1, r2⟩ := h ⟨s, t, rfl⟩
      rw [corr rfl rfl rfl (by simp [smith, absolute, atLeast, rn, nr, nt, rr, pn, on, tn])]
      refine ⟨sum (unit s hu fu) (unit t hv fv) ?_, sum (unit s hv fv) (value_minus (unit t hu fu)) ?_⟩
      · cases s <;> cases t <;> simp only [if_true, Bool.false_eq_true, if_false]
        · exact r1
        · exact r2
        · rw [show -a + b = -(a - b) by ring, Int.natAbs_neg]; exact r2
        · rw [show -a + -b = -(a + b) by ring, Int.natAbs_neg]; exact r1
      · cases s <;> cases t <;> simp only [if_true, Bool.false_eq_true, if_false]
        · rw [show b + -a = -(a - b) by ring, Int.natAbs_neg]; exact r2
        · rw [show b + - -a = a + b by ring]; exact r1
        · rw [show -b + -a = -(a + b) by ring, Int.natAbs_neg]; exact r1
        · rw [show -b + - -a = a - b by ring]; exact r2

example : complexDiv64 (.fin false one, .fin true one) (.inf false, .nan) = (.fin false 0, .fin true 0) := by decide +kernel

/-- C145: the quotient of a finite and an infinite number may be NaN. -/
theorem C145_div_by_infinite_fails :
    complexDiv64 (.fin false (maxMag f64), .fin false (maxMag f64)) (.inf false, .inf false) = (.nan, .fin false 0) := by
  decide +kernel

/-- C145: the parts of products and quotients are numbers of the format. -/
theorem C145_closed (x y : Flt × Flt) : CFormat f64 (complexMul64 x y) ∧ CFormat f64 (complexDiv64 x y) ∧
    CFormat f32 (complexMul32 x y) ∧ CFormat f32 (complexDiv32 x y) := by
  have hc : ∀ z, InFormat f32 (convert f32 z) := by
    intro z
    cases z with
    | nan => trivial
    | inf s => trivial
    | fin s n => rw [convert_roundTo]; exact roundTo_inFormat f32_ok _ _ _ (by omega)
  have ht : ∀ a b, InFormat f64 (times f64 a b) := fun a b => (C137_closed f64_ok a b).2.2.1
  have ho : ∀ a b, InFormat f64 (over f64 a b) := fun a b => (C137_closed f64_ok a b).2.2.2
  have hs : CFormat f64 (smith x y) := by
    unfold smith
    by_cases c : atLeast (absolute y.1) (absolute y.2) = true
    · rw [if_pos c]; exact ⟨ho _ _, ho _ _⟩
    · rw [if_neg c]; exact ⟨ho _ _, ho _ _⟩
  refine ⟨⟨plus_inFormat f64_ok _ _, plus_inFormat f64_ok _ _⟩, ?_, ⟨hc _, hc _⟩, hc _, hc _⟩
  obtain ⟨a, b⟩ := x
  obtain ⟨c, d⟩ := y
  unfold complexDiv64 complexOver
  simp only
  by_cases c1 : (isNaN (smith (a, b) (c, d)).1 || isNaN (smith (a, b) (c, d)).2) = true
  · rw [if_pos c1]
    by_cases c2 : (isZero c && isZero d && (!isNaN a || !isNaN b)) = true
    · rw [if_pos c2]; exact ⟨ht _ _, ht _ _⟩
    · rw [if_neg c2]
      by_cases c3 : ((isInf a || isInf b) && isFinite c && isFinite d) = true
      · rw [if_pos c3]; exact ⟨ht _ _, ht _ _⟩
      · rw [if_neg c3]
        by_cases c4 : ((isInf c || isInf d) && isFinite a && isFinite b) = true
        · rw [if_pos c4]; exact ⟨ht _ _, ht _ _⟩
        · rw [if_neg c4]; exact hs
  · rw [if_neg c1]; exact hs

/-- C145, assignment operators: `x.MulAssign(y)` leaves `x.Mul(y)` in the variable, and so on; other variables keep their
values; there is no panic but that of a nil pointer. -/
theorem C145_assign (vars : List (Flt × Flt)) (p : Nat) (hp : p < vars.length) (y : Flt × Flt) :
    ∀ (o : Operators (Flt × Flt)) (f : Format) (mul div : Flt × Flt → Flt × Flt → Flt × Flt),
      (o = .complex32 ∧ f = f32 ∧ mul = complexMul32 ∧ div = complexDiv32 ∨
        o = .complex64 ∧ f = f64 ∧ mul = complexMul64 ∧ div = complexDiv64) →
      ∃ a s m d, addAssign o vars (some p) y = .ok a ∧ subAssign o vars (some p) y = .ok s ∧
        mulAssign o vars (some p) y = .ok m ∧ divAssign o vars (some p) y = .ok d ∧
        a[p]? = some (complexAdd f vars[p] y) ∧ s[p]? = some (complexSub f vars[p] y) ∧ m[p]? = some (mul vars[p] y) ∧
        d[p]? = some (div vars[p] y) ∧
        ∀ q, q ≠ p → a[q]? = vars[q]? ∧ s[q]? = vars[q]? ∧ m[q]? = vars[q]? ∧ d[q]? = vars[q]? := by
  intro o f mul div ho
  have h := fun op asg ho => (C112_assign o op asg ho vars p hp y).1
  have h1 := h _ _ (List.mem_cons_self ..)
  have h2 := h _ _ (List.mem_cons_of_mem _ (List.mem_cons_self ..))
  have h3 := h _ _ (List.mem_cons_of_mem _ (List.mem_cons_of_mem _ (List.mem_cons_self ..)))
  have h4 := h _ _ (List.mem_cons_of_mem _ (List.mem_cons_of_mem _ (List.mem_cons_of_mem _ (List.mem_cons_self ..))))
  rcases ho with ⟨rfl, rfl, rfl, rfl⟩ | ⟨rfl, rfl, rfl, rfl⟩ <;>
    obtain ⟨a, a1, -, a2, a3⟩ := h1 _ rfl <;> obtain ⟨s, s1, -, s2, s3⟩ := h2 _ rfl <;>
    obtain ⟨m, m1, -, m2, m3⟩ := h3 _ rfl <;> obtain ⟨d, d1, -, d2, d3⟩ := h4 _ rfl <;>
    exact ⟨a, s, m, d, a1, s1, m1, d1, a2, s2, m2, d2, fun q hq => ⟨a3 q hq, s3 q hq, m3 q hq, d3 q hq⟩⟩

example : mulAssign .complex64 [(.fin false one, .fin false 0), (.fin false 0, .fin false one)] (some 1) (.fin false 0, .fin false one) =
    .ok [(.fin false one, .fin false 0), (.fin true one, .fin false 0)] := by decide +kernel
end Gost
