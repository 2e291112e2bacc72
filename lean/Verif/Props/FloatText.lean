import Verif.Lemmas.FloatText
import Verif.Props.Float
/-
Property C130: the texts of floating-point and complex numbers, and ParseF64.
-/
namespace Gost
open Spec Flt

attribute [local irreducible] Flt.one

namespace Flt

/-! ### A library that satisfies the contract exists -/

theorem exact_dec {f : Format} (hf : Ok f) (n : Nat) (h : Rep f n) : roundDec f (n * 5 ^ 1074) (-1074) = n := by
  obtain ⟨c, hc⟩ : ∃ c, c = 1074 := ⟨_, rfl⟩
  have e : decNum (n * 5 ^ 1074) (-1074) = n * decDen (-1074) := by
    unfold decNum decDen
    rw [show (-1074 : Int).toNat = 0 from rfl, show (-(-1074) : Int).toNat = 1074 from rfl, ← hc, one_def c hc,
      show 10 ^ c = 5 ^ c * 2 ^ c from Nat.mul_pow 5 2 c]
    ring
  rw [roundDec_eq, e]
  exact roundRat_rep hf n _ (decDen_pos _) h

/-- A shortest decimal of a number, if it has one at all. -/
theorem exists_shortest (f : Format) (n : Nat) (h : ∃ de : Nat × Int, roundDec f de.1 de.2 = n) :
    ∃ de : Nat × Int, roundDec f de.1 de.2 = n ∧
      ∀ d k, roundDec f d k = n → (Dec.formatNat de.1).length ≤ (Dec.formatNat d).length := by
  obtain ⟨de, hde⟩ := h
  generalize hl : (Dec.formatNat de.1).length = l
  induction l using Nat.strongRecOn generalizing de with
  | _ l ih =>
    by_cases hc : ∃ de' : Nat × Int, roundDec f de'.1 de'.2 = n ∧ (Dec.formatNat de'.1).length < l
    · obtain ⟨de', h1, h2⟩ := hc
      exact ih _ h2 de' h1 rfl
    · refine ⟨de, hde, fun d k h => ?_⟩
      apply Nat.le_of_not_lt
      intro hlt
      exact hc ⟨(d, k), h, by rw [hl] at hlt; exact hlt⟩

open Classical in
/-- A function that finds shortest decimals. -/
noncomputable def shortest {f : Format} (hf : Ok f) : Shortest f where
  digits n := if h : ∃ de : Nat × Int, roundDec f de.1 de.2 = n then (exists_shortest f n h).choose else (0, 0)
  rounds := by
    intro m e hm h1 h2 _
    have h : ∃ de : Nat × Int, roundDec f de.1 de.2 = m * 2 ^ e := ⟨(_, _), exact_dec hf _ ⟨m, e, rfl, hm, h1, h2⟩⟩
    rw [dif_pos h]
    exact (exists_shortest f _ h).choose_spec.1
  least := by
    intro m e d k hm h1 h2 _ hr
    have h : ∃ de : Nat × Int, roundDec f de.1 de.2 = m * 2 ^ e := ⟨(d, k), hr⟩
    rw [dif_pos h]
    exact (exists_shortest f _ h).choose_spec.2 d k hr

theorem Shortest.rounds' {f : Format} (lib : Shortest f) {n : Nat} (h : Rep f n) (h0 : n ≠ 0) :
    roundDec f (lib.digits n).1 (lib.digits n).2 = n := by
  obtain ⟨m, e, rfl, h1, h2, h3⟩ := h
  exact lib.rounds m e h1 h2 h3 (Nat.pos_of_ne_zero fun hc => h0 (by rw [hc, Nat.zero_mul]))

theorem Shortest.least' {f : Format} (lib : Shortest f) {n : Nat} (h : Rep f n) (h0 : n ≠ 0) (d : Nat) (k : Int)
    (hr : roundDec f d k = n) : (Dec.formatNat (lib.digits n).1).length ≤ (Dec.formatNat d).length := by
  obtain ⟨m, e, rfl, h1, h2, h3⟩ := h
  exact lib.least m e d k h1 h2 h3 (Nat.pos_of_ne_zero fun hc => h0 (by rw [hc, Nat.zero_mul])) hr

theorem rep_zero {f : Format} (hf : Ok f) : Rep f 0 := ⟨0, f.emin, by simp, Nat.pow_pos (by decide), Nat.le_refl _, hf.exp⟩

/-- The text of a finite number is the layout of a decimal that is rounded to it. -/
theorem formatFloat_fin {f : Format} (hf : Ok f) (lib : Shortest f) (s : Bool) (n : Nat) (h : Rep f n) :
    ∃ d e, formatFloat lib (fin s n) = (if s then [45] else []) ++ layout d e ∧ roundDec f d e = n := by
  by_cases h0 : n = 0
  · refine ⟨0, 0, ?_, ?_⟩
    · rw [formatFloat, if_pos h0]
      congr 1
      simp [layout, Dec.formatNat_zero]
    · rw [h0, roundDec_eq]
      have := roundRat_rep hf 0 (decDen 0) (decDen_pos 0) (rep_zero hf)
      rw [Nat.zero_mul] at this
      rw [show decNum 0 0 = 0 by unfold decNum; rw [Nat.zero_mul, Nat.zero_mul]]
      exact this
  · exact ⟨_, _, by rw [formatFloat, if_neg h0], lib.rounds' h h0⟩

theorem roundTrip {f : Format} (hf : Ok f) (lib : Shortest f) (other : GoStr → Option Flt) (x : Flt) (h : InFormat f x) :
    parseFloat f other (formatFloat lib x) = some x := by
  cases x with
  | nan => rfl
  | inf s => cases s <;> rfl
  | fin s n =>
    obtain ⟨d, e, h1, h2⟩ := formatFloat_fin hf lib s n h
    have hs : Sign (if s then [45] else []) s := by
      cases s
      · exact Or.inl ⟨rfl, rfl⟩
      · exact Or.inr (Or.inr ⟨rfl, rfl⟩)
    rw [h1, parseFloat_layout other d e hs (by rw [h2]; exact rep_le_max n h), h2]

theorem format_inj {f : Format} (hf : Ok f) (lib : Shortest f) {x y : Flt} (hx : InFormat f x) (hy : InFormat f y)
    (h : formatFloat lib x = formatFloat lib y) : x = y := by
  have h1 := roundTrip hf lib (fun _ => none) x hx
  rw [h, roundTrip hf lib (fun _ => none) y hy] at h1
  exact (Option.some.inj h1).symm

/-! ### Integers -/

/-- Canonical numerals of numbers without the final zeros. -/
theorem strip_zeros (m : Nat) (h : 0 < m) : ∃ d k, m = d * 10 ^ k ∧ d % 10 ≠ 0 := by
  induction m using Nat.strongRecOn with
  | _ m ih =>
    by_cases hm : m % 10 = 0
    · obtain ⟨d, k, h1, h2⟩ := ih (m / 10) (by omega) (by omega)
      exact ⟨d, k + 1, by rw [Nat.pow_succ, ← Nat.mul_assoc, ← h1]; omega, h2⟩
    · exact ⟨m, 0, by simp, hm⟩

theorem format_mul (d k : Nat) (h : 0 < d) : Dec.formatNat (d * 10 ^ k) = Dec.formatNat d ++ List.replicate k 48 := by
  induction k with
  | zero => simp
  | succ k ih =>
    have hp : 0 < d * 10 ^ k := Nat.mul_pos h (Nat.pow_pos (by decide))
    rw [Nat.pow_succ, ← Nat.mul_assoc, Dec.formatNat, if_neg (by omega), Nat.mul_div_cancel _ (by decide), ih,
      Nat.mul_mod_left, List.append_assoc]
    congr 1
    exact (List.replicate_succ' (n := k) (a := (48 : UInt8))).symm

theorem format_lower (d : Nat) (h : 0 < d) : 10 ^ ((Dec.formatNat d).length - 1) ≤ d := by
  induction d using Nat.strongRecOn with
  | _ d ih =>
    rw [Dec.formatNat]
    by_cases h10 : d < 10
    · rw [if_pos h10]; exact h
    · rw [if_neg h10, List.length_append, List.length_singleton, Nat.add_sub_cancel]
      have h1 := ih (d / 10) (by omega) (by omega)
      have h2 := List.length_pos_iff.2 (Dec.formatNat_ne_nil (d / 10))
      obtain ⟨l, hl⟩ : ∃ l, (Dec.formatNat (d / 10)).length = l + 1 := ⟨(Dec.formatNat (d / 10)).length - 1, by omega⟩
      rw [hl] at h1 ⊢
      rw [Nat.add_sub_cancel] at h1
      rw [Nat.pow_succ]; omega

theorem format_upper (d : Nat) : d < 10 ^ (Dec.formatNat d).length := by
  have := Dec.numeralValue_lt _ (Dec.formatNat_digits d)
  rwa [Dec.formatNat_value] at this

/-- A format that has the integers up to 2^prec and the number 7/8. -/
structure TextInts (f : Format) : Prop where
  ok : Ok f
  prec : 3 ≤ f.prec
  emin : f.emin ≤ 1071
  emax : 1075 ≤ f.emax

theorem f32_text : TextInts f32 := ⟨f32_ok, by decide, by decide, by decide⟩
theorem f64_text : TextInts f64 := ⟨f64_ok, by decide, by decide, by decide⟩

theorem rep_upto {f : Format} (hf : TextInts f) (m : Nat) (h : m ≤ 2 ^ f.prec) : Rep f (m * one) := by
  have h1 := hf.emin; have h2 := hf.emax; have h3 := hf.prec
  obtain ⟨c, hc⟩ : ∃ c, c = 1074 := ⟨_, rfl⟩
  by_cases hm : m < 2 ^ f.prec
  · exact ⟨m, c, by rw [one_def c hc], hm, by omega, by omega⟩
  · have : m = 2 ^ f.prec := by omega
    refine ⟨2 ^ (f.prec - 1), c + 1, ?_, Nat.pow_lt_pow_right (by decide) (by omega), by omega, by omega⟩
    rw [this, one_def c hc, ← Nat.pow_add, ← Nat.pow_add]
    congr 1; omega

/-- The numbers next to an integer keep every other decimal away. -/
theorem around_int {f : Format} (hf : TextInts f) (m d : Nat) (e : Int) (h0 : 0 < m) (hm : m < 2 ^ f.prec)
    (hr : roundDec f d e = m * one) :
    (2 * m - 1) * decDen e ≤ 2 * (d * 10 ^ e.toNat) ∧ 2 * (d * 10 ^ e.toNat) ≤ (2 * m + 1) * decDen e ∧
      (m = 1 → 15 * decDen e ≤ 16 * (d * 10 ^ e.toNat)) := by
  have hone : 0 < one := one_pos
  have hrep := rep_upto hf m (by omega)
  have hle : roundRat f (decNum d e) (decDen e) ≤ maxMag f := by
    rw [← roundDec_eq, hr]; exact rep_le_max _ hrep
  have hn := roundRat_nearest hf.ok _ _ (decDen_pos e) hle
  rw [← roundDec_eq, hr] at hn
  obtain ⟨-, hup, hdn, -⟩ := hn
  unfold decNum at hup hdn
  generalize decDen e = q at *
  generalize d * 10 ^ e.toNat = v at *
  refine ⟨?_, ?_, ?_⟩
  · have h := hdn ((m - 1) * one) (rep_upto hf _ (by omega)) (Nat.mul_lt_mul_of_pos_right (by omega) hone)
    obtain ⟨k, rfl⟩ : ∃ k, m = k + 1 := ⟨m - 1, by omega⟩
    rw [Nat.add_sub_cancel] at h
    rw [show 2 * (k + 1) - 1 = 2 * k + 1 by omega]
    refine Nat.le_of_mul_le_mul_right ?_ hone
    nlinarith
  · have h := hup ((m + 1) * one) (rep_upto hf _ (by omega)) (Nat.mul_lt_mul_of_pos_right (by omega) hone)
    refine Nat.le_of_mul_le_mul_right ?_ hone
    nlinarith
  · rintro rfl
    have h1 := hf.emin; have h2 := hf.emax; have h3 := hf.prec
    obtain ⟨c, hc⟩ : ∃ c, c = 1071 := ⟨_, rfl⟩
    have e8 : one = 8 * 2 ^ c := by
      rw [one_def (3 + c) (by omega), Nat.pow_add]
    have r7 : Rep f (7 * 2 ^ c) := ⟨7, c, rfl, Nat.lt_of_lt_of_le (by decide : 7 < 2 ^ 3) (Nat.pow_le_pow_right (by decide) h3), by omega, by omega⟩
    have hp : 0 < 2 ^ c := Nat.pow_pos (by decide)
    have h := hdn _ r7 (by rw [Nat.one_mul, e8]; exact Nat.mul_lt_mul_of_pos_right (by decide) hp)
    rw [e8] at h
    refine Nat.le_of_mul_le_mul_right ?_ hp
    generalize 2 ^ c = w at *
    nlinarith

theorem roundDec_int {f : Format} (hf : TextInts f) (m d k : Nat) (hm : m < 2 ^ f.prec) (h : m = d * 10 ^ k) :
    roundDec f d k = m * one := by
  rw [roundDec_eq]
  have e1 : decNum d k = m * one * decDen k := by
    unfold decNum decDen
    rw [show (-(k : Int)).toNat = 0 by omega, show ((k : Int)).toNat = k by omega, ← h]; simp
  rw [e1]
  exact roundRat_rep hf.ok _ _ (decDen_pos _) (rep_upto hf m (by omega))

/-- Integers are shown as integers. -/
theorem layout_int {f : Format} (hf : TextInts f) (lib : Shortest f) (m : Nat) (h0 : 0 < m) (hm : m < 2 ^ f.prec) :
    layout (lib.digits (m * one)).1 (lib.digits (m * one)).2 = Dec.formatNat m := by
  have hrep := rep_upto hf m (by omega)
  have hne : m * one ≠ 0 := Nat.ne_of_gt (Nat.mul_pos h0 one_pos)
  have hr := lib.rounds' hrep hne
  have hl := lib.least' hrep hne
  generalize (lib.digits (m * one)).1 = d at *
  generalize (lib.digits (m * one)).2 = e at *
  obtain ⟨a1, a2, a3⟩ := around_int hf m d e h0 hm hr
  by_cases he : 0 ≤ e
  · obtain ⟨k, rfl⟩ : ∃ k : Nat, e = k := ⟨e.toNat, by omega⟩
    have e1 : decDen k = 1 := by unfold decDen; rw [show (-(k : Int)).toNat = 0 by omega]; rfl
    rw [e1, show (k : Int).toNat = k by omega] at a1 a2
    have hv : m = d * 10 ^ k := by omega
    have hd : 0 < d := Nat.pos_of_ne_zero fun hc => by rw [hc] at hv; omega
    unfold layout
    simp only []
    rw [if_pos he, hv, format_mul d k hd, show (k : Int).natAbs = k by omega]
  · exfalso
    obtain ⟨d0, k0, h1, h2⟩ := strip_zeros m h0
    have hlen := hl d0 k0 (roundDec_int hf m d0 k0 hm h1)
    have hd0 : 0 < d0 := by omega
    have hlow := format_lower d0 hd0
    have hup := format_upper d
    have hpos := List.length_pos_iff.2 (Dec.formatNat_ne_nil d0)
    obtain ⟨l, hl0⟩ : ∃ l, (Dec.formatNat d0).length = l + 1 := ⟨(Dec.formatNat d0).length - 1, by omega⟩
    rw [hl0] at hlow hlen
    rw [Nat.add_sub_cancel] at hlow
    have hd : d < 10 ^ (l + 1) := Nat.lt_of_lt_of_le hup (Nat.pow_le_pow_right (by decide) hlen)
    obtain ⟨j, hj⟩ : ∃ j : Nat, e = -((j : Int) + 1) := ⟨(-e).toNat - 1, by omega⟩
    have eq : decDen e = 10 * 10 ^ j := by
      unfold decDen; rw [show (-e).toNat = j + 1 by omega, Nat.pow_succ, Nat.mul_comm]
    rw [eq, show e.toNat = 0 by omega, Nat.pow_zero, Nat.mul_one] at a1 a3
    have hj1 : 1 ≤ 10 ^ j := Nat.pow_pos (by decide)
    have hm0 : d0 ≤ m := by
      rw [h1]; exact Nat.le_mul_of_pos_right _ (Nat.pow_pos (by decide))
    have b1 : (2 * m - 1) * 10 ≤ 2 * d := by
      refine Nat.le_trans ?_ a1
      exact Nat.mul_le_mul_left _ (by omega)
    rw [Nat.pow_succ] at hd
    by_cases hl1 : l = 0
    · subst hl1
      by_cases hm1 : m = 1
      · have := a3 hm1
        have : 150 ≤ 16 * d := by omega
        omega
      · omega
    · have : d0 ≠ 10 ^ l := by
        intro hc
        obtain ⟨l', rfl⟩ : ∃ l', l = l' + 1 := ⟨l - 1, by omega⟩
        rw [hc, Nat.pow_succ] at h2
        omega
      omega

theorem format_int {f : Format} (hf : TextInts f) (lib : Shortest f) (s : Bool) (m : Nat) (hm : m < 2 ^ f.prec) :
    formatFloat lib (fin s (m * one)) = (if s then [45] else []) ++ Dec.formatNat m := by
  rw [formatFloat]
  congr 1
  by_cases h0 : m = 0
  · subst h0; rw [Nat.zero_mul, if_pos rfl, Dec.formatNat_zero]
  · rw [if_neg (Nat.ne_of_gt (Nat.mul_pos (by omega) one_pos)), layout_int hf lib m (by omega) hm]

/-! ### Complex numbers -/

theorem layout_chars (d : Nat) (e : Int) : ∀ b ∈ layout d e, b ≠ 43 ∧ b ≠ 45 := by
  have hds : ∀ b ∈ Dec.formatNat d, b ≠ 43 ∧ b ≠ 45 := fun b hb =>
    ⟨dig_ne (Dec.formatNat_digits d b hb) _ (by decide), dig_ne (Dec.formatNat_digits d b hb) _ (by decide)⟩
  have hz : ∀ n, ∀ b ∈ List.replicate n (48 : UInt8), b ≠ 43 ∧ b ≠ 45 := by
    intro n b hb; rw [List.eq_of_mem_replicate hb]; decide
  intro b hb
  unfold layout at hb
  simp only [] at hb
  by_cases h0 : 0 ≤ e
  · rw [if_pos h0, List.mem_append] at hb
    rcases hb with hb | hb
    · exact hds b hb
    · exact hz _ b hb
  · rw [if_neg h0] at hb
    by_cases h1 : e.natAbs < (Dec.formatNat d).length
    · rw [if_pos h1, List.mem_append, List.mem_cons] at hb
      rcases hb with hb | rfl | hb
      · exact hds b (List.mem_of_mem_take hb)
      · decide
      · exact hds b (List.mem_of_mem_drop hb)
    · rw [if_neg h1, List.mem_cons, List.mem_cons, List.mem_append] at hb
      rcases hb with rfl | rfl | hb | hb
      · decide
      · decide
      · exact hz _ b hb
      · exact hds b hb

theorem layout_ne_nil (d : Nat) (e : Int) : layout d e ≠ [] := by
  have := Dec.formatNat_ne_nil d
  unfold layout
  simp only []
  by_cases h0 : 0 ≤ e
  · rw [if_pos h0]; simp [this]
  · rw [if_neg h0]
    by_cases h1 : e.natAbs < (Dec.formatNat d).length
    · rw [if_pos h1]; simp
    · rw [if_neg h1]; simp

/-- Texts are not empty, have signs only in the first place, and only that of +Inf starts with a plus. -/
theorem format_shape {f : Format} (hf : Ok f) (lib : Shortest f) (x : Flt) (hx : InFormat f x) :
    ∃ b bs, formatFloat lib x = b :: bs ∧ (∀ c ∈ bs, c ≠ 43 ∧ c ≠ 45) ∧ (b = 43 → bs = [73, 110, 102]) ∧
      (b = 73 → False) := by
  cases x with
  | nan => exact ⟨78, [97, 78], rfl, by decide, by decide, by decide⟩
  | inf s =>
    cases s with
    | false => exact ⟨43, [73, 110, 102], rfl, by decide, fun _ => rfl, by decide⟩
    | true => exact ⟨45, [73, 110, 102], rfl, by decide, by decide, by decide⟩
  | fin s n =>
    obtain ⟨d, e, h1, -⟩ := formatFloat_fin hf lib s n hx
    have hc := layout_chars d e
    have hne := layout_ne_nil d e
    have htext := layout_text d e [] false (Or.inl ⟨rfl, rfl⟩)
    obtain ⟨d', e', ht, -, -⟩ := htext
    have hch := decimal_chars ht
    rw [List.nil_append] at hch
    cases hl : layout d e with
    | nil => exact absurd hl hne
    | cons b bs =>
      rw [hl] at hc hch h1
      have hb := hc b (List.mem_cons_self ..)
      have hd := hch b (List.mem_cons_self ..)
      cases s with
      | false =>
        refine ⟨b, bs, h1, fun c hc' => hc c (List.mem_cons_of_mem _ hc'), fun h => absurd h hb.1, ?_⟩
        rintro rfl
        revert hd; unfold DecChar; decide
      | true => exact ⟨45, b :: bs, h1, hc, fun h => absurd h (by decide), by decide⟩

/-- The imaginary part with its sign. -/
def signed (t : GoStr) : GoStr := if t.head? ≠ some 43 ∧ t.head? ≠ some 45 then 43 :: t else t

theorem signed_shape {f : Format} (hf : Ok f) (lib : Shortest f) (x : Flt) (hx : InFormat f x) :
    ∃ b bs, signed (formatFloat lib x) = b :: bs ∧ (b = 43 ∨ b = 45) ∧ (∀ c ∈ bs, c ≠ 43 ∧ c ≠ 45) := by
  obtain ⟨b, bs, h, h1, -, -⟩ := format_shape hf lib x hx
  unfold signed
  rw [h]
  by_cases hc : (b :: bs).head? ≠ some 43 ∧ (b :: bs).head? ≠ some 45
  · rw [if_pos hc]
    refine ⟨43, b :: bs, rfl, Or.inl rfl, fun c hm => ?_⟩
    rcases List.mem_cons.1 hm with rfl | hm
    · simpa using hc
    · exact h1 c hm
  · rw [if_neg hc]
    refine ⟨b, bs, rfl, ?_, h1⟩
    by_cases h43 : b = 43
    · exact Or.inl h43
    · refine Or.inr ?_
      by_contra h45
      exact hc (by simp [h43, h45])

theorem signed_inj {f : Format} (hf : Ok f) (lib : Shortest f) (x y : Flt) (hx : InFormat f x) (hy : InFormat f y)
    (h : signed (formatFloat lib x) = signed (formatFloat lib y)) : formatFloat lib x = formatFloat lib y := by
  obtain ⟨a, as, ha, -, h43a, hIa⟩ := format_shape hf lib x hx
  obtain ⟨b, bs, hb, -, h43b, hIb⟩ := format_shape hf lib y hy
  rw [ha, hb] at h ⊢
  unfold signed at h
  by_cases c1 : (a :: as).head? ≠ some 43 ∧ (a :: as).head? ≠ some 45
  · rw [if_pos c1] at h
    by_cases c2 : (b :: bs).head? ≠ some 43 ∧ (b :: bs).head? ≠ some 45
    · rw [if_pos c2] at h; exact (List.cons.inj h).2
    · rw [if_neg c2] at h
      obtain ⟨e1, e2⟩ := List.cons.inj h
      rw [h43b e1.symm] at e2
      exact (hIa (List.cons.inj e2).1).elim
  · rw [if_neg c1] at h
    by_cases c2 : (b :: bs).head? ≠ some 43 ∧ (b :: bs).head? ≠ some 45
    · rw [if_pos c2] at h
      obtain ⟨e1, e2⟩ := List.cons.inj h
      rw [h43a e1] at e2
      exact (hIb (List.cons.inj e2).1.symm).elim
    · rw [if_neg c2] at h; exact h

/-- A text is split before its last sign in one way only. -/
theorem last_sign {A B : GoStr} {a b : UInt8} {u v : GoStr} (hu : ∀ c ∈ u, c ≠ 43 ∧ c ≠ 45) (hv : ∀ c ∈ v, c ≠ 43 ∧ c ≠ 45)
    (ha : a = 43 ∨ a = 45) (hb : b = 43 ∨ b = 45) (h : A ++ a :: u = B ++ b :: v) : A = B ∧ a :: u = b :: v := by
  rw [List.append_eq_append_iff] at h
  rcases h with ⟨t, rfl, h2⟩ | ⟨t, rfl, h2⟩
  · cases t with
    | nil => exact ⟨by simp, h2⟩
    | cons c t =>
      have : b ∈ u := by rw [(List.cons.inj h2).2]; simp
      exact absurd (hu b this) (by rcases hb with rfl | rfl <;> simp)
  · cases t with
    | nil => exact ⟨by simp, h2.symm⟩
    | cons c t =>
      have : a ∈ v := by rw [(List.cons.inj h2).2]; simp
      exact absurd (hv a this) (by rcases ha with rfl | rfl <;> simp)

theorem complex_inj {f : Format} (hf : Ok f) (lib : Shortest f) (re im re' im' : Flt) (h1 : InFormat f re)
    (h2 : InFormat f im) (h1' : InFormat f re') (h2' : InFormat f im')
    (h : formatComplex lib re im = formatComplex lib re' im') : re = re' ∧ im = im' := by
  obtain ⟨a, u, ha, hs, hu⟩ := signed_shape hf lib im h2
  obtain ⟨b, v, hb, hs', hv⟩ := signed_shape hf lib im' h2'
  have h : 40 :: (formatFloat lib re ++ signed (formatFloat lib im) ++ [105, 41]) =
      40 :: (formatFloat lib re' ++ signed (formatFloat lib im') ++ [105, 41]) := h
  have h := List.append_cancel_right (List.cons.inj h).2
  rw [ha, hb] at h
  obtain ⟨e1, e2⟩ := last_sign hu hv hs hs' h
  rw [← ha, ← hb] at e2
  exact ⟨format_inj hf lib h1 h1' e1, format_inj hf lib h2 h2' (signed_inj hf lib im im' h2 h2' e2)⟩

end Flt

/-! ### C130 -/

/-- **C130**: ParseF64 of the text of an F64 gives back that F64 (also NaN, the infinities and both zeros), so that
different F64 have different texts. -/
theorem C130_roundtrip (lib : Shortest f64) (other : GoStr → Option Flt) (x : Flt) (hx : InFormat f64 x) :
    parseF64 other (toString64 lib x) = Res.mkOk x ∧
    (∀ y, InFormat f64 y → toString64 lib x = toString64 lib y → x = y) := by
  refine ⟨?_, fun y hy h => format_inj f64_ok lib hx hy h⟩
  unfold parseF64 toString64
  rw [roundTrip f64_ok lib other x hx]

-- the contract on FormatFloat can be met, and there are numbers of all kinds
noncomputable example : Shortest f64 := shortest f64_ok
example : InFormat f64 Flt.nan ∧ InFormat f64 (Flt.inf true) ∧ InFormat f64 (Flt.fin true 0) ∧
    InFormat f64 (Flt.fin false (3602879701896397 * 2 ^ 1019)) :=
  ⟨trivial, trivial, rep_zero f64_ok, ⟨3602879701896397, 1019, rfl, by decide, by decide, by decide⟩⟩

/-- **C130**: different F32 have different texts, and an F32 is the float32 nearest to its text. -/
theorem C130_text32 (lib : Shortest f32) (x : Flt) (hx : InFormat f32 x) :
    (∀ y, InFormat f32 y → toString32 lib x = toString32 lib y → x = y) ∧
    (∀ s n, x = Flt.fin s n → ∃ d e, DecimalText (toString32 lib x) s d e ∧
      NearestEven f32 (decNum d e) (decDen e) n) := by
  refine ⟨fun y hy h => format_inj f32_ok lib hx hy h, ?_⟩
  rintro s n rfl
  obtain ⟨d, e, h1, h2⟩ := formatFloat_fin f32_ok lib s n hx
  have hs : Sign (if s then [45] else []) s := by
    cases s
    · exact Or.inl ⟨rfl, rfl⟩
    · exact Or.inr (Or.inr ⟨rfl, rfl⟩)
  obtain ⟨d', e', t1, t2, t3⟩ := layout_text d e _ s hs
  refine ⟨d', e', by unfold toString32; rw [h1]; exact t1, ?_⟩
  have hle : roundRat f32 (decNum d e) (decDen e) ≤ maxMag f32 := by rw [← roundDec_eq, h2]; exact rep_le_max n hx
  rw [t2, t3]
  have := roundRat_nearest f32_ok _ _ (decDen_pos e) hle
  rwa [← roundDec_eq, h2] at this

noncomputable example : Shortest f32 := shortest f32_ok
example : InFormat f32 (Flt.fin false (13421773 * 2 ^ 1047)) := ⟨13421773, 1047, rfl, by decide, by decide, by decide⟩

/-- **C130**: integral numbers below 2^53 (F64) and 2^24 (F32) are written as integers. -/
theorem C130_integers :
    (∀ (lib : Shortest f64) (m : Nat), m < 2 ^ 53 →
      IsNumeral (toString64 lib (Flt.fin false (m * one))) m ∧
      ∃ t, toString64 lib (Flt.fin true (m * one)) = 45 :: t ∧ IsNumeral t m) ∧
    (∀ (lib : Shortest f32) (m : Nat), m < 2 ^ 24 →
      IsNumeral (toString32 lib (Flt.fin false (m * one))) m ∧
      ∃ t, toString32 lib (Flt.fin true (m * one)) = 45 :: t ∧ IsNumeral t m) := by
  constructor
  · intro lib m hm
    have h := fun s => format_int f64_text lib s m hm
    refine ⟨?_, Dec.formatNat m, h true, Dec.formatNat_isNumeral m⟩
    rw [show toString64 lib (Flt.fin false (m * one)) = Dec.formatNat m from h false]
    exact Dec.formatNat_isNumeral m
  · intro lib m hm
    have h := fun s => format_int f32_text lib s m hm
    refine ⟨?_, Dec.formatNat m, h true, Dec.formatNat_isNumeral m⟩
    rw [show toString32 lib (Flt.fin false (m * one)) = Dec.formatNat m from h false]
    exact Dec.formatNat_isNumeral m

-- ten million is written as 10000000
example (lib : Shortest f32) : toString32 lib (Flt.fin false (10000000 * one)) = [49, 48, 48, 48, 48, 48, 48, 48] := by
  have := format_int f32_text lib false 10000000 (by decide)
  rw [toString32, this]; decide +kernel

/-- **C130**: ParseF64 of any decimal text is the nearest F64, ties to even, or an error if the number is too large. -/
theorem C130_parse (other : GoStr → Option Flt) (s : GoStr) (neg : Bool) (d : Nat) (e : Int) (h : DecimalText s neg d e) :
    (TooLarge f64 (decNum d e) (decDen e) ∧ parseF64 other s = Res.mkErr (some ())) ∨
    (¬ TooLarge f64 (decNum d e) (decDen e) ∧
      ∃ r, NearestEven f64 (decNum d e) (decDen e) r ∧ parseF64 other s = Res.mkOk (Flt.fin neg r)) := by
  have hp := parseFloat_text (f := f64) other h
  have ho := roundRat_overflow f64_ok (decNum d e) (decDen e) (decDen_pos e)
  rw [← roundDec_eq] at ho
  unfold parseF64
  by_cases hc : TooLarge f64 (decNum d e) (decDen e)
  · rw [hp, if_pos (ho.2 hc)]
    exact Or.inl ⟨hc, rfl⟩
  · rw [hp, if_neg fun h => hc (ho.1 h)]
    refine Or.inr ⟨hc, roundDec f64 d e, ?_, rfl⟩
    exact (roundRat_iff f64_ok _ _ _ (decDen_pos e) hc).1 (roundDec_eq f64 d e).symm

-- "-12.50e1" is a decimal text of -1250·10^-1
example : DecimalText [45, 49, 50, 46, 53, 48, 101, 49] true 1250 (-1) :=
  ⟨[45], [49, 50], [46, 53, 48], [53, 48], [101, 49], 1, rfl, Or.inr (Or.inr ⟨rfl, rfl⟩), by unfold Digits; decide,
    by unfold Digits; decide, Or.inr rfl, by decide,
    Or.inr ⟨101, [], [49], false, 1, 0, rfl, Or.inl rfl, Or.inl ⟨rfl, rfl⟩, by unfold Digits; decide, by decide, by decide, by decide,
      Or.inl rfl, rfl⟩, by decide, by decide⟩
unseal Flt.one in
example : parseF64 (fun _ => none) [45, 49, 50, 46, 53, 48, 101, 49] = Res.mkOk (Flt.fin true (125 * one)) := by decide +kernel
unseal Flt.one in
example : parseF64 (fun _ => none) [48, 46, 49] = Res.mkOk (Flt.fin false (3602879701896397 * 2 ^ 1019)) := by decide +kernel
unseal Flt.one in
example : parseF64 (fun _ => none) [49, 101, 51, 48, 57] = Res.mkErr (some ()) := by decide +kernel

/-- **C130**: apart from the decimal texts ParseF64 accepts the words for infinity and NaN; all other texts without
underscores and hexadecimal prefix are errors. -/
theorem C130_parse_other (other : GoStr → Option Flt) (s : GoStr) :
    (∀ x, SpecialText s x → parseF64 other s = Res.mkOk x) ∧
    ((∀ x, ¬ SpecialText s x) → (∀ neg d e, ¬ DecimalText s neg d e) → unusual s = false →
      parseF64 other s = Res.mkErr (some ())) := by
  constructor
  · intro x hx
    unfold parseF64 parseFloat
    rw [(special_iff s x).2 hx]
  · intro h1 h2 h3
    have hs : special s = none := by
      cases hc : special s with
      | none => rfl
      | some x => exact absurd ((special_iff s x).1 hc) (h1 x)
    have hr : readFloat s = none := by
      cases hc : readFloat s with
      | none => rfl
      | some r =>
        obtain ⟨neg, d, e⟩ := r
        exact absurd (text_readFloat hc) (h2 neg d e)
    unfold parseF64 parseFloat
    rw [hs, h3, hr]
    rfl

-- "-INFinity" and "" 
example : SpecialText [45, 73, 78, 70, 105, 110, 105, 116, 121] (Flt.inf true) := (special_iff _ _).1 (by decide)
example : parseF64 (fun _ => none) [] = Res.mkErr (some ()) :=
  (C130_parse_other _ []).2
    (fun x h => by have := (special_iff _ _).2 h; simp [special] at this)
    (fun neg d e h => by have := readFloat_text h; simp [readFloat, mantissa] at this) (by decide)

/-- **C130**: different complex numbers have different texts. -/
theorem C130_complex :
    (∀ (lib : Shortest f32) (re im re' im' : Flt), InFormat f32 re → InFormat f32 im → InFormat f32 re' → InFormat f32 im' →
      complex64ToString lib re im = complex64ToString lib re' im' → re = re' ∧ im = im') ∧
    (∀ (lib : Shortest f64) (re im re' im' : Flt), InFormat f64 re → InFormat f64 im → InFormat f64 re' → InFormat f64 im' →
      complex128ToString lib re im = complex128ToString lib re' im' → re = re' ∧ im = im') :=
  ⟨fun lib re im re' im' h1 h2 h3 h4 h => complex_inj f32_ok lib re im re' im' h1 h2 h3 h4 h,
    fun lib re im re' im' h1 h2 h3 h4 h => complex_inj f64_ok lib re im re' im' h1 h2 h3 h4 h⟩

-- the text of 3-2i is (3-2i)
example (lib : Shortest f64) : complex128ToString lib (Flt.fin false (3 * one)) (Flt.fin true (2 * one)) =
    [40, 51, 45, 50, 105, 41] := by
  rw [complex128ToString, formatComplex, format_int f64_text lib false 3 (by decide), format_int f64_text lib true 2 (by decide)]
  decide +kernel

end Gost
