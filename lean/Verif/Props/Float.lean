import Verif.Lemmas.Float
/-
Properties C118 (Floor, Ceil, Round, Trunc, Frac, Abs), C119 (Sqrt), C120 (Powi and the other functions).
-/
namespace Gost
open Spec Flt

theorem Flt.one_def (c : Nat) (h : c = 1074) : one = 2 ^ c := by rw [h, one]
theorem Flt.one_pos : 0 < one := by rw [one_def _ rfl]; exact Nat.pow_pos (by decide)

attribute [local irreducible] Flt.one

/-! ### C118 -/
namespace Spec
/-- The value of a finite number, in units. -/
def Value : Flt → Int → Prop
  | .fin s n, v => v = if s then -(n : Int) else n
  | _, _ => False

/-- The numbers of a format. -/
def InFormat (f : Format) : Flt → Prop
  | .fin _ n => Rep f n
  | _ => True

/-- k is the largest integer ≤ v (v is in units). -/
def IsFloor (v k : Int) : Prop := k * one ≤ v ∧ v < (k + 1) * one
/-- k is the smallest integer ≥ v. -/
def IsCeil (v k : Int) : Prop := v ≤ k * one ∧ (k - 1) * one < v
/-- k is the integer nearest to v, the one away from zero if there are two. -/
def IsRound (v k : Int) : Prop :=
  if 0 ≤ v then k * one * 2 - one ≤ 2 * v ∧ 2 * v < k * one * 2 + one
  else k * one * 2 - one < 2 * v ∧ 2 * v ≤ k * one * 2 + one
/-- k is the integer next to v in the direction of zero. -/
def IsTrunc (v k : Int) : Prop := if 0 ≤ v then IsFloor v k else IsCeil v k
end Spec

namespace Flt
theorem one_even : ∃ c, one = 2 * c := by
  obtain ⟨d, hd⟩ : ∃ d, 1074 = d + 1 := ⟨1073, rfl⟩
  exact ⟨2 ^ d, by rw [one_def (d + 1) hd.symm, Nat.pow_succ']⟩

/-- A number of a format is an integer, or has fewer bits than one more than its fraction needs. -/
theorem rep_cases {f : Format} {n : Nat} (h : Rep f n) :
    (∃ k, n = k * one) ∨ ∃ m e k, n = m * 2 ^ e ∧ m < 2 ^ f.prec ∧ f.emin ≤ e ∧ e ≤ f.emax ∧ 1 ≤ k ∧ e + k = 1074 := by
  obtain ⟨m, e, rfl, hm, h1, h2⟩ := h
  by_cases he : 1074 ≤ e
  · left
    exact ⟨m * 2 ^ (e - 1074), by
      rw [one_def _ rfl, Nat.mul_assoc, ← Nat.pow_add, Nat.sub_add_cancel he]⟩
  · right
    exact ⟨m, e, 1074 - e, rfl, hm, h1, h2, by omega, by omega⟩

theorem rep_int {f : Format} (k : Nat) (hk : k < 2 ^ f.prec) (h1 : f.emin ≤ 1074) (h2 : 1074 ≤ f.emax) :
    Rep f (k * one) := ⟨k, 1074, congrArg (k * ·) (one_def _ rfl), hk, h1, h2⟩

theorem div_one {m e k : Nat} (h : e + k = 1074) : m * 2 ^ e / one = m / 2 ^ k := by
  have : one = 2 ^ k * 2 ^ e := by rw [← Nat.pow_add]; exact one_def _ (by omega)
  rw [this, Nat.mul_div_mul_right _ _ (Nat.pow_pos (by decide))]

theorem mod_one {m e k : Nat} (h : e + k = 1074) : m * 2 ^ e % one = m % 2 ^ k * 2 ^ e := by
  have : one = 2 ^ k * 2 ^ e := by rw [← Nat.pow_add]; exact one_def _ (by omega)
  rw [this, Nat.mul_mod_mul_right]

/-- An integer close to a number of the format is a number of the format. -/
theorem rep_near {f : Format} (hp : 2 ≤ f.prec) (h1 : f.emin ≤ 1074) (h2 : 1074 ≤ f.emax) {n : Nat} (h : Rep f n)
    (k : Nat) (hk : k = n / one ∨ (n % one ≠ 0 ∧ k = n / one + 1)) : Rep f (k * one) := by
  rcases rep_cases h with ⟨j, rfl⟩ | ⟨m, e, c, rfl, hm, he, -, hc, hec⟩
  · rw [Nat.mul_div_cancel _ one_pos, Nat.mul_mod_left] at hk
    have : k = j := by omega
    rw [this]; exact h
  · rw [div_one hec] at hk
    refine rep_int k ?_ h1 h2
    have b1 : m / 2 ^ c ≤ m / 2 := Nat.div_le_div_left (by
      calc 2 = 2 ^ 1 := rfl
        _ ≤ 2 ^ c := Nat.pow_le_pow_right (by decide) hc) (by decide)
    have b2 : 4 ≤ 2 ^ f.prec := by
      calc 4 = 2 ^ 2 := rfl
        _ ≤ 2 ^ f.prec := Nat.pow_le_pow_right (by decide) hp
    omega

theorem down_zero : down 0 = 0 := by simp [down]
theorem down_eq (n : Nat) : down n = n / one * one := rfl
theorem up_eq (n : Nat) : up n = n / one * one ∧ n % one = 0 ∨ up n = (n / one + 1) * one ∧ n % one ≠ 0 := by
  have hp := one_pos
  have hd := Nat.div_add_mod n one
  have hl := Nat.mod_lt n hp
  unfold up
  by_cases h : n % one = 0
  · left
    refine ⟨?_, h⟩
    congr 1
    rw [Nat.div_eq_iff hp, Nat.mul_comm]
    omega
  · right
    refine ⟨?_, h⟩
    congr 1
    rw [Nat.div_eq_iff hp, Nat.add_mul, Nat.mul_comm (n / one)]
    omega
theorem up_zero : up 0 = 0 := by
  rcases up_eq 0 with ⟨h, -⟩ | ⟨-, h⟩
  · simpa using h
  · simp at h
theorem half_eq (n : Nat) : half n = n / one * one ∧ 2 * (n % one) < one ∨
    half n = (n / one + 1) * one ∧ one ≤ 2 * (n % one) := by
  have hp := one_pos
  obtain ⟨c, he⟩ := one_even
  have hd := Nat.div_add_mod n one
  have hl := Nat.mod_lt n hp
  unfold half
  by_cases h : 2 * (n % one) < one
  · left
    refine ⟨?_, h⟩
    congr 1
    rw [Nat.div_eq_iff hp, Nat.mul_comm (n / one)]
    omega
  · right
    refine ⟨?_, by omega⟩
    congr 1
    rw [Nat.div_eq_iff hp, Nat.add_mul, Nat.mul_comm (n / one)]
    omega

/-- Both formats contain the integers near to their numbers. -/
structure HasInts (f : Format) : Prop where
  ok : Ok f
  prec : 2 ≤ f.prec
  lo : f.emin ≤ 1074
  hi : 1074 ≤ f.emax
theorem f32_ints : HasInts f32 := ⟨f32_ok, by decide, by decide, by decide⟩
theorem f64_ints : HasInts f64 := ⟨f64_ok, by decide, by decide, by decide⟩

theorem rep_down {f : Format} (hf : HasInts f) {n : Nat} (h : Rep f n) : Rep f (down n) :=
  rep_near hf.prec hf.lo hf.hi h _ (Or.inl rfl)
theorem rep_up {f : Format} (hf : HasInts f) {n : Nat} (h : Rep f n) : Rep f (up n) := by
  rcases up_eq n with ⟨e, -⟩ | ⟨e, h'⟩
  · rw [e]; exact rep_down hf h
  · rw [e]; exact rep_near hf.prec hf.lo hf.hi h _ (Or.inr ⟨h', rfl⟩)
theorem rep_half {f : Format} (hf : HasInts f) {n : Nat} (h : Rep f n) : Rep f (half n) := by
  rcases half_eq n with ⟨e, -⟩ | ⟨e, h'⟩
  · rw [e]; exact rep_down hf h
  · rw [e]; exact rep_near hf.prec hf.lo hf.hi h _ (Or.inr ⟨by have := one_pos; omega, rfl⟩)
theorem rep_frac {f : Format} {n : Nat} (h : Rep f n) : Rep f (n % one) := by
  rcases rep_cases h with ⟨j, rfl⟩ | ⟨m, e, c, rfl, hm, h1, h2, hc, hec⟩
  · obtain ⟨m, e, -, hm, h1, h2⟩ := h
    exact ⟨0, e, by simp, Nat.pow_pos (by decide), h1, h2⟩
  · rw [mod_one hec]
    exact ⟨_, e, rfl, Nat.lt_of_le_of_lt (Nat.mod_le _ _) hm, h1, h2⟩

/-- The F32 methods return what the function of package math returns, if that is a number of the format. -/
theorem via32_eq {g : Flt → Flt} {x : Flt} (h : InFormat f32 (g x)) : via32 g x = g x := by
  unfold via32
  cases hx : g x with
  | nan => rfl
  | inf s => rfl
  | fin s n => rw [hx] at h; exact convert_rep f32_ok s n h
end Flt

/-- What C118 says about one method: the special values, and the value for a finite number with value v. -/
def Spec.FltMethod (f : Format) (op : Flt → Flt) (ofNan ofInf ofNegInf ofZero ofNegZero : Flt)
    (P : Int → Int → Prop) : Prop :=
  op .nan = ofNan ∧ op (.inf false) = ofInf ∧ op (.inf true) = ofNegInf ∧
  op (.fin false 0) = ofZero ∧ op (.fin true 0) = ofNegZero ∧
  ∀ x v, InFormat f x → Value x v → ∃ w, Value (op x) w ∧ InFormat f (op x) ∧ P v w

section
variable {f : Format}

theorem int_parts (n : Nat) : (n : Int) = one * (n / one : Nat) + (n % one : Nat) ∧ (n % one : Nat) < (one : Int) := by
  have h := Nat.div_add_mod n one
  have h2 := Nat.mod_lt n Flt.one_pos
  refine ⟨?_, by exact_mod_cast h2⟩
  exact_mod_cast h.symm

theorem mathFloor_spec (hf : HasInts f) : FltMethod f mathFloor .nan (.inf false) (.inf true) (.fin false 0) (.fin true 0)
    (fun v w => ∃ k, w = k * one ∧ IsFloor v k) := by
  refine ⟨rfl, rfl, rfl, by simp [mathFloor, mapMag, down_zero], by simp [mathFloor, mapMag, up_zero], ?_⟩
  intro x v hx hv
  cases x with
  | nan => cases hv
  | inf => cases hv
  | fin s n =>
    obtain ⟨p1, p2⟩ := int_parts n
    have p3 : (0 : Int) ≤ (n % one : Nat) := by omega
    simp only [Value] at hv
    subst hv
    cases s with
    | false =>
      refine ⟨_, rfl, rep_down hf hx, (n / one : Nat), ?_, ?_⟩
      · simp [down]
      · unfold IsFloor
        simp only [Bool.false_eq_true, if_false]
        generalize ((n / one : Nat) : Int) = q at *
        generalize ((n % one : Nat) : Int) = r at *
        constructor <;> nlinarith
    | true =>
      refine ⟨_, rfl, rep_up hf hx, ?_⟩
      simp only [if_true]
      rcases up_eq n with ⟨e, h0⟩ | ⟨e, h0⟩
      · refine ⟨-(n / one : Nat), by rw [e]; push_cast; ring, ?_⟩
        have hz : ((n % one : Nat) : Int) = 0 := by omega
        rw [hz] at p1 p2
        unfold IsFloor
        generalize ((n / one : Nat) : Int) = q at *
        constructor <;> nlinarith
      · refine ⟨-((n / one : Nat) + 1), by rw [e]; push_cast; ring, ?_⟩
        have p4 : (0 : Int) < (n % one : Nat) := by omega
        unfold IsFloor
        generalize ((n / one : Nat) : Int) = q at *
        generalize ((n % one : Nat) : Int) = r at *
        constructor <;> nlinarith

theorem mathCeil_spec (hf : HasInts f) : FltMethod f mathCeil .nan (.inf false) (.inf true) (.fin false 0) (.fin true 0)
    (fun v w => ∃ k, w = k * one ∧ IsCeil v k) := by
  refine ⟨rfl, rfl, rfl, by simp [mathCeil, mapMag, up_zero], by simp [mathCeil, mapMag, down_zero], ?_⟩
  intro x v hx hv
  cases x with
  | nan => cases hv
  | inf => cases hv
  | fin s n =>
    obtain ⟨p1, p2⟩ := int_parts n
    have p3 : (0 : Int) ≤ (n % one : Nat) := by omega
    simp only [Value] at hv
    subst hv
    cases s with
    | true =>
      refine ⟨_, rfl, rep_down hf hx, -(n / one : Nat), ?_, ?_⟩
      · simp [down]
      · unfold IsCeil
        simp only [if_true]
        generalize ((n / one : Nat) : Int) = q at *
        generalize ((n % one : Nat) : Int) = r at *
        constructor <;> nlinarith
    | false =>
      refine ⟨_, rfl, rep_up hf hx, ?_⟩
      simp only [Bool.false_eq_true, if_false]
      rcases up_eq n with ⟨e, h0⟩ | ⟨e, h0⟩
      · refine ⟨(n / one : Nat), by rw [e]; push_cast; ring, ?_⟩
        have hz : ((n % one : Nat) : Int) = 0 := by omega
        rw [hz] at p1 p2
        unfold IsCeil
        generalize ((n / one : Nat) : Int) = q at *
        constructor <;> nlinarith
      · refine ⟨(n / one : Nat) + 1, by rw [e]; push_cast; ring, ?_⟩
        have p4 : (0 : Int) < (n % one : Nat) := by omega
        unfold IsCeil
        generalize ((n / one : Nat) : Int) = q at *
        generalize ((n % one : Nat) : Int) = r at *
        constructor <;> nlinarith

theorem mathRound_spec (hf : HasInts f) : FltMethod f mathRound .nan (.inf false) (.inf true) (.fin false 0) (.fin true 0)
    (fun v w => ∃ k, w = k * one ∧ IsRound v k) := by
  have hz : half 0 = 0 := by
    have := Flt.one_pos
    rcases half_eq 0 with ⟨h, -⟩ | ⟨-, h⟩
    · simpa using h
    · simp at h; omega
  refine ⟨rfl, rfl, rfl, by simp [mathRound, mapMag, hz], by simp [mathRound, mapMag, hz], ?_⟩
  intro x v hx hv
  cases x with
  | nan => cases hv
  | inf => cases hv
  | fin s n =>
    obtain ⟨p1, p2⟩ := int_parts n
    have p3 : (0 : Int) ≤ (n % one : Nat) := by omega
    have hp : (0 : Int) < one := by have := Flt.one_pos; omega
    simp only [Value] at hv
    subst hv
    rcases half_eq n with ⟨e, h0⟩ | ⟨e, h0⟩
    · have h0' : 2 * ((n % one : Nat) : Int) < one := by omega
      cases s with
      | false =>
        refine ⟨_, rfl, rep_half hf hx, (n / one : Nat), by dsimp only; rw [e]; push_cast; simp, ?_⟩
        unfold IsRound
        simp only [Bool.false_eq_true, if_false]
        rw [if_pos (by omega)]
        generalize ((n / one : Nat) : Int) = q at *
        generalize ((n % one : Nat) : Int) = r at *
        constructor <;> nlinarith
      | true =>
        refine ⟨_, rfl, rep_half hf hx, -(n / one : Nat), by dsimp only; rw [e]; push_cast; simp, ?_⟩
        unfold IsRound
        simp only [if_true]
        generalize ((n / one : Nat) : Int) = q at *
        generalize ((n % one : Nat) : Int) = r at *
        split <;> constructor <;> nlinarith
    · have h0' : (one : Int) ≤ 2 * ((n % one : Nat) : Int) := by omega
      cases s with
      | false =>
        refine ⟨_, rfl, rep_half hf hx, (n / one : Nat) + 1, by dsimp only; rw [e]; push_cast; simp, ?_⟩
        unfold IsRound
        simp only [Bool.false_eq_true, if_false]
        rw [if_pos (by omega)]
        generalize ((n / one : Nat) : Int) = q at *
        generalize ((n % one : Nat) : Int) = r at *
        constructor <;> nlinarith
      | true =>
        refine ⟨_, rfl, rep_half hf hx, -((n / one : Nat) + 1), by dsimp only; rw [e]; push_cast; simp; ring, ?_⟩
        have hn : ¬ (0 : Int) ≤ -(n : Int) := by
          have : n ≠ 0 := by rintro rfl; simp at h0; omega
          omega
        unfold IsRound
        simp only [if_true]
        rw [if_neg hn]
        generalize ((n / one : Nat) : Int) = q at *
        generalize ((n % one : Nat) : Int) = r at *
        constructor <;> nlinarith

/-- Integer part and fraction of a finite number. -/
theorem parts_spec (n : Nat) (s : Bool) :
    IsTrunc (if s then -(n : Int) else n) (if s then -((n / one : Nat) : Int) else (n / one : Nat)) ∧
    (if s then -(n : Int) else n) = (if s then -((n / one : Nat) : Int) else (n / one : Nat)) * one +
      (if s then -((n % one : Nat) : Int) else (n % one : Nat)) := by
  obtain ⟨p1, p2⟩ := int_parts n
  have p3 : (0 : Int) ≤ (n % one : Nat) := by omega
  have p4 : (0 : Int) ≤ (n / one : Nat) := Int.natCast_nonneg _
  have hp : (0 : Int) < one := by have := Flt.one_pos; omega
  cases s with
  | false =>
    simp only [Bool.false_eq_true, if_false]
    refine ⟨?_, by rw [p1]; ring⟩
    unfold IsTrunc IsFloor
    rw [if_pos (by omega)]
    generalize ((n / one : Nat) : Int) = q at *
    generalize ((n % one : Nat) : Int) = r at *
    constructor <;> nlinarith
  | true =>
    simp only [if_true]
    refine ⟨?_, by rw [p1]; ring⟩
    unfold IsTrunc IsFloor IsCeil
    by_cases h : (0 : Int) ≤ -(n : Int)
    · have hn : n = 0 := by omega
      subst hn
      simpa using Flt.one_pos
    · rw [if_neg h]
      generalize ((n / one : Nat) : Int) = q at *
      generalize ((n % one : Nat) : Int) = r at *
      constructor <;> nlinarith

theorem mathTrunc_spec (hf : HasInts f) : FltMethod f mathTrunc .nan (.inf false) (.inf true) (.fin false 0) (.fin true 0)
    (fun v w => ∃ k, w = k * one ∧ IsTrunc v k) := by
  refine ⟨rfl, rfl, rfl, by simp [mathTrunc, mapMag, down_zero], by simp [mathTrunc, mapMag, down_zero], ?_⟩
  intro x v hx hv
  cases x with
  | nan => cases hv
  | inf => cases hv
  | fin s n =>
    simp only [Value] at hv
    subst hv
    refine ⟨_, rfl, rep_down hf hx, _, ?_, (parts_spec n s).1⟩
    cases s <;> simp [down]

theorem mathAbs_spec : FltMethod f mathAbs .nan (.inf false) (.inf false) (.fin false 0) (.fin false 0)
    (fun v w => w = v.natAbs) := by
  refine ⟨rfl, rfl, rfl, rfl, rfl, ?_⟩
  intro x v hx hv
  cases x with
  | nan => cases hv
  | inf => cases hv
  | fin s n =>
    simp only [Value] at hv
    subst hv
    refine ⟨_, rfl, hx, ?_⟩
    cases s <;> simp

theorem mathModfFrac_spec : FltMethod f mathModfFrac .nan .nan .nan (.fin false 0) (.fin true 0)
    (fun v w => ∃ k, IsTrunc v k ∧ v = k * one + w) := by
  refine ⟨rfl, rfl, rfl, by simp [mathModfFrac], by simp [mathModfFrac], ?_⟩
  intro x v hx hv
  cases x with
  | nan => cases hv
  | inf => cases hv
  | fin s n =>
    simp only [Value] at hv
    subst hv
    exact ⟨_, rfl, rep_frac hx, _, (parts_spec n s).1, (parts_spec n s).2⟩

/-- A method of F32 whose results are numbers of the format: the conversion back changes nothing. -/
theorem method32 {op : Flt → Flt} {a b c d e : Flt} {P : Int → Int → Prop} (h : FltMethod f32 op a b c d e P)
    (ha : InFormat f32 a) (hb : InFormat f32 b) (hc : InFormat f32 c) (hd : InFormat f32 d) (he : InFormat f32 e) :
    FltMethod f32 (via32 op) a b c d e P := by
  obtain ⟨rfl, rfl, rfl, rfl, rfl, h6⟩ := h
  refine ⟨via32_eq ha, via32_eq hb, via32_eq hc, via32_eq hd, via32_eq he, ?_⟩
  intro x v hx hv
  obtain ⟨w, h1, h2, h3⟩ := h6 x v hx hv
  rw [via32_eq h2]
  exact ⟨w, h1, h2, h3⟩

theorem zero32 (s : Bool) : InFormat f32 (.fin s 0) := ⟨0, 925, by simp, by decide, by decide, by decide⟩
end

/-- C118: Floor is the largest integer not above the number, exactly, for every finite number, in F32 and F64; NaN,
infinities and zeros (with their sign) are returned unchanged. -/
theorem C118_floor :
    FltMethod f32 floor32 .nan (.inf false) (.inf true) (.fin false 0) (.fin true 0)
      (fun v w => ∃ k, w = k * one ∧ IsFloor v k) ∧
    FltMethod f64 floor64 .nan (.inf false) (.inf true) (.fin false 0) (.fin true 0)
      (fun v w => ∃ k, w = k * one ∧ IsFloor v k) :=
  ⟨method32 (mathFloor_spec f32_ints) trivial trivial trivial (zero32 _) (zero32 _), mathFloor_spec f64_ints⟩

/-- C118: Ceil is the smallest integer not below the number. -/
theorem C118_ceil :
    FltMethod f32 ceil32 .nan (.inf false) (.inf true) (.fin false 0) (.fin true 0)
      (fun v w => ∃ k, w = k * one ∧ IsCeil v k) ∧
    FltMethod f64 ceil64 .nan (.inf false) (.inf true) (.fin false 0) (.fin true 0)
      (fun v w => ∃ k, w = k * one ∧ IsCeil v k) :=
  ⟨method32 (mathCeil_spec f32_ints) trivial trivial trivial (zero32 _) (zero32 _), mathCeil_spec f64_ints⟩

/-- C118: Round is the nearest integer, half-way cases away from zero. -/
theorem C118_round :
    FltMethod f32 round32 .nan (.inf false) (.inf true) (.fin false 0) (.fin true 0)
      (fun v w => ∃ k, w = k * one ∧ IsRound v k) ∧
    FltMethod f64 round64 .nan (.inf false) (.inf true) (.fin false 0) (.fin true 0)
      (fun v w => ∃ k, w = k * one ∧ IsRound v k) :=
  ⟨method32 (mathRound_spec f32_ints) trivial trivial trivial (zero32 _) (zero32 _), mathRound_spec f64_ints⟩

/-- C118: Trunc is the integer part. -/
theorem C118_trunc :
    FltMethod f32 trunc32 .nan (.inf false) (.inf true) (.fin false 0) (.fin true 0)
      (fun v w => ∃ k, w = k * one ∧ IsTrunc v k) ∧
    FltMethod f64 trunc64 .nan (.inf false) (.inf true) (.fin false 0) (.fin true 0)
      (fun v w => ∃ k, w = k * one ∧ IsTrunc v k) :=
  ⟨method32 (mathTrunc_spec f32_ints) trivial trivial trivial (zero32 _) (zero32 _), mathTrunc_spec f64_ints⟩

/-- C118: Frac is the number minus its integer part, exactly; NaN for the infinities. -/
theorem C118_frac :
    FltMethod f32 frac32 .nan .nan .nan (.fin false 0) (.fin true 0)
      (fun v w => ∃ k, IsTrunc v k ∧ v = k * one + w) ∧
    FltMethod f64 frac64 .nan .nan .nan (.fin false 0) (.fin true 0)
      (fun v w => ∃ k, IsTrunc v k ∧ v = k * one + w) :=
  ⟨method32 mathModfFrac_spec trivial trivial trivial (zero32 _) (zero32 _), mathModfFrac_spec⟩

/-- C118: Abs is the absolute value. -/
theorem C118_abs :
    FltMethod f32 abs32 .nan (.inf false) (.inf false) (.fin false 0) (.fin false 0) (fun v w => w = v.natAbs) ∧
    FltMethod f64 abs64 .nan (.inf false) (.inf false) (.fin false 0) (.fin false 0) (fun v w => w = v.natAbs) :=
  ⟨method32 mathAbs_spec trivial trivial trivial (zero32 _) (zero32 _), mathAbs_spec⟩

-- Concrete cases: 2.5 and -2.5 are numbers of F32.
example : InFormat f32 (.fin false (5 * 2 ^ 1073)) ∧ InFormat f32 (.fin true (5 * 2 ^ 1073)) :=
  ⟨⟨5, 1073, rfl, by decide, by decide, by decide⟩, ⟨5, 1073, rfl, by decide, by decide, by decide⟩⟩
example : floor32 (.fin false (5 * 2 ^ 1073)) = .fin false (2 * one) ∧ floor32 (.fin true (5 * 2 ^ 1073)) = .fin true (3 * one) ∧
    ceil32 (.fin false (5 * 2 ^ 1073)) = .fin false (3 * one) ∧ ceil64 (.fin true (5 * 2 ^ 1073)) = .fin true (2 * one) ∧
    round32 (.fin true (5 * 2 ^ 1073)) = .fin true (3 * one) ∧ trunc32 (.fin true (5 * 2 ^ 1073)) = .fin true (2 * one) ∧
    frac32 (.fin true (5 * 2 ^ 1073)) = .fin true (2 ^ 1073) ∧ abs64 (.fin true (5 * 2 ^ 1073)) = .fin false (5 * 2 ^ 1073) := by
  decide +kernel

/-! ### C119 Sqrt -/
namespace Flt

theorem rep_lt_pow {f : Format} {n : Nat} (h : Rep f n) (b : Nat) (hb : f.prec + f.emax = b) : n < 2 ^ b := by
  subst hb
  obtain ⟨m, e, rfl, hm, -, he⟩ := h
  rw [Nat.pow_add]
  exact Nat.lt_of_lt_of_le (Nat.mul_lt_mul_of_pos_right hm (Nat.pow_pos (by decide)))
    (Nat.mul_le_mul_left _ (Nat.pow_le_pow_right (by decide) he))

theorem rep_pow {f : Format} (hf : Ok f) (c : Nat) (h1 : f.emin ≤ c) (h2 : c ≤ f.emax) : Rep f (2 ^ c) :=
  ⟨1, c, by simp, Nat.one_lt_pow (by have := hf.prec; omega) (by decide), h1, h2⟩

theorem sqrt_upper {f : Format} (hf : Ok f) (n b c : Nat) (hn : n < 2 ^ b) (hc : b + 1074 ≤ 2 * c)
    (h1 : f.emin ≤ c) (h2 : c ≤ f.emax) : sqrtMag f n ≤ 2 ^ c := by
  refine (sqrtMag_bounds hf n _ (rep_pow hf c h1 h2)).2 ?_
  have e : n * one < 2 ^ (b + 1074) := by
    rw [Nat.pow_add, ← one_def _ rfl]; exact Nat.mul_lt_mul_of_pos_right hn Flt.one_pos
  refine Nat.lt_of_lt_of_le e ?_
  rw [← Nat.pow_add]
  exact Nat.pow_le_pow_right (by decide) (by omega)

theorem sqrt_lower {f : Format} (hf : Ok f) (n b c : Nat) (hn : 2 ^ b ≤ n) (hc : 2 * c ≤ b + 1074)
    (h1 : f.emin ≤ c) (h2 : c ≤ f.emax) : 2 ^ c ≤ sqrtMag f n := by
  refine (sqrtMag_bounds hf n _ (rep_pow hf c h1 h2)).1 ?_
  have e : 2 ^ (b + 1074) ≤ n * one := by
    rw [Nat.pow_add, ← one_def _ rfl]; exact Nat.mul_le_mul_right _ hn
  refine Nat.le_trans ?_ e
  rw [← Nat.pow_add]
  exact Nat.pow_le_pow_right (by decide) (by omega)

theorem pow_le_max {f : Format} (hf : Ok f) (c : Nat) (h : c ≤ f.prec - 1 + f.emax) : 2 ^ c ≤ maxMag f := by
  unfold maxMag
  refine Nat.le_trans (Nat.pow_le_pow_right (by decide) h) ?_
  rw [Nat.pow_add]
  refine Nat.mul_le_mul_right _ ?_
  have := pow_succ_pred hf.prec
  have : 0 < 2 ^ (f.prec - 1) := Nat.pow_pos (by decide)
  omega

theorem rep32_64 {n : Nat} (h : Rep f32 n) : Rep f64 n := by
  obtain ⟨m, e, rfl, hm, h1, h2⟩ := h
  have h2 : e ≤ 1178 := h2
  refine ⟨m, e, rfl, Nat.lt_trans hm (by decide), Nat.zero_le _, ?_⟩
  show e ≤ 2045
  omega

/-- Rounding the float64 root of a float32 to float32 gives the float32 nearest to the root. -/
theorem sqrt_double (n : Nat) (h : Rep f32 n) (h0 : n ≠ 0) :
    roundMag f32 (sqrtMag f64 n) ≤ maxMag f32 ∧ NearestSqrt f32 (n * one) (roundMag f32 (sqrtMag f64 n)) := by
  have hlt : n < 2 ^ 1202 := rep_lt_pow h 1202 rfl
  obtain ⟨x, j0, hn, hx, hj1, hj2⟩ := h
  have hx : x < 2 ^ 24 := hx
  have hj1 : 925 ≤ j0 := hj1
  have hx0 : 0 < x := by
    rcases Nat.eq_zero_or_pos x with rfl | h
    · simp at hn; exact absurd hn h0
    · exact h
  have hge : 2 ^ 925 ≤ n := by
    rw [hn]
    exact Nat.le_trans (Nat.pow_le_pow_right (by decide) hj1) (Nat.le_mul_of_pos_left _ hx0)
  have hhi : sqrtMag f64 n ≤ 2 ^ 1138 := sqrt_upper f64_ok n 1202 1138 hlt (by omega) (Nat.zero_le _) (by decide)
  have hlo : 2 ^ 999 ≤ sqrtMag f64 n := sqrt_lower f64_ok n 925 999 hge (by omega) (Nat.zero_le _) (by decide)
  have hnear : NearestSqrt f64 (n * one) (sqrtMag f64 n) :=
    sqrtMag_nearest f64_ok n (Nat.le_trans hhi (pow_le_max f64_ok 1138 (by decide)))
  have ht : n * one = x * 2 ^ (j0 + 1074) := by rw [hn, Nat.pow_add, ← one_def _ rfl, Nat.mul_assoc]
  clear hn hge hlt
  generalize sqrtMag f64 n = a at *
  generalize n * one = t at *
  have ha0 : a ≠ 0 := by
    have : 0 < 2 ^ 999 := Nat.pow_pos (by decide)
    omega
  have hl1 : 999 ≤ a.log2 := (Nat.le_log2 ha0).2 hlo
  have hl2 : a.log2 < 1139 := (Nat.log2_lt ha0).2 (Nat.lt_of_le_of_lt hhi (Nat.pow_lt_pow_right (by decide) (by decide)))
  have hE : ulpExp f32 a = a.log2 + 1 - 24 := by
    show max 925 (a.log2 + 1 - 24) = _
    omega
  obtain ⟨hq1, hq2⟩ := quo_bounds f32_ok a
  have hq2 := hq2 (by rw [hE]; show 925 < _; omega)
  have hq1 : a / 2 ^ ulpExp f32 a < 2 ^ 24 := hq1
  have hq2 : 2 ^ 23 ≤ a / 2 ^ ulpExp f32 a := hq2
  have hcase := roundMag_cases f32 a
  have hsp := fun r => spacing f32_ok a r
  have hrq := fun k => rep_quo f32_ok a k
  have hdl : a / 2 ^ ulpExp f32 a * 2 ^ ulpExp f32 a ≤ a := Nat.div_mul_le_self _ _
  have hdh : a < (a / 2 ^ ulpExp f32 a + 1) * 2 ^ ulpExp f32 a :=
    Nat.lt_mul_of_div_lt (by omega) (Nat.pow_pos (by decide))
  have hmax : (a / 2 ^ ulpExp f32 a + 1) * 2 ^ ulpExp f32 a ≤ maxMag f32 := by
    refine Nat.le_trans ?_ (pow_le_max f32_ok (24 + ulpExp f32 a) (by rw [hE]; show _ ≤ 24 - 1 + 1178; omega))
    rw [Nat.pow_add]
    exact Nat.mul_le_mul_right _ (by omega)
  have heb : 976 ≤ ulpExp f32 a ∧ ulpExp f32 a ≤ 1115 := by omega
  clear hE hl1 hl2 hlo hhi
  generalize ulpExp f32 a = e at hq1 hq2 hcase hsp hrq hdl hdh hmax heb
  obtain ⟨g, rfl⟩ : ∃ g, e = g + 1 := ⟨e - 1, by omega⟩
  have hgb : 28 ≤ g ∧ g ≤ 2000 := by omega
  generalize a / 2 ^ (g + 1) = q at hq1 hq2 hcase hsp hrq hdl hdh hmax
  have hu : 2 ^ (g + 1) = 2 * 2 ^ g := by rw [Nat.pow_succ]; ring
  rw [hu] at hcase hsp hrq hdl hdh hmax
  have hmidrep : Rep f64 ((2 * q + 1) * 2 ^ g) :=
    ⟨2 * q + 1, g, rfl, by show _ < 2 ^ 53; omega, Nat.zero_le _, by show g ≤ 2045; omega⟩
  have e1 : (2 * q + 1) * (2 * 2 ^ g) = 2 * ((2 * q + 1) * 2 ^ g) := by ring
  have e2 : q * (2 * 2 ^ g) + (q + 1) * (2 * 2 ^ g) = 2 * ((2 * q + 1) * 2 ^ g) := by ring
  have hmono : q * (2 * 2 ^ g) ≤ (q + 1) * (2 * 2 ^ g) := Nat.mul_le_mul_right _ (by omega)
  have htie : a = (2 * q + 1) * 2 ^ g → t = (2 * q + 1) * 2 ^ g * ((2 * q + 1) * 2 ^ g) := by
    intro he
    rw [he] at hnear
    exact tie_exact t x (j0 + 1074) (2 * q + 1) g ht hx (by omega) (by omega) hgb.1 hgb.2 hnear
  rw [e1] at hcase
  generalize (2 * q + 1) * 2 ^ g = mid at *
  -- the root is on the same side of the middle as its float64
  have hle : a ≤ mid → 4 * t ≤ 2 * mid * (2 * mid) := by
    intro hle
    rcases Nat.lt_or_eq_of_le hle with h | h
    · exact Nat.le_trans (hnear.2.1 mid hmidrep h) (sq_le (by omega))
    · rw [htie h]; exact Nat.le_of_eq (by ring)
  have hge : mid ≤ a → 2 * mid * (2 * mid) ≤ 4 * t := by
    intro hle
    rcases Nat.lt_or_eq_of_le hle with h | h
    · exact Nat.le_trans (sq_le (by omega)) (hnear.2.2 mid hmidrep h)
    · rw [htie h.symm]; exact Nat.le_of_eq (by ring)
  rcases hcase with ⟨h1, h2⟩ | ⟨h1, h2⟩
  · rw [h1]
    have hrep := hrq q (Or.inl rfl) (Nat.le_trans hmono hmax)
    refine ⟨Nat.le_trans hmono hmax, hrep, ?_, ?_⟩
    · intro r' hr hlt
      have hs : a < r' := by
        by_contra hc
        have := (hsp r' hr).1 (by omega); omega
      have h3 := (hsp r' hr).2 hs
      exact Nat.le_trans (hle (by omega)) (sq_le (by omega))
    · intro r' hr hlt
      rcases Nat.lt_or_eq_of_le hdl with h | h
      · have := hnear.2.2 _ (rep32_64 hrep) h
        exact Nat.le_trans (sq_le (by omega)) this
      · rw [h] at hlt ⊢
        exact hnear.2.2 r' (rep32_64 hr) hlt
  · rw [h1]
    have hrep := hrq (q + 1) (Or.inr rfl) hmax
    refine ⟨hmax, hrep, ?_, ?_⟩
    · intro r' hr hlt
      have := hnear.2.1 _ (rep32_64 hrep) hdh
      exact Nat.le_trans this (sq_le (by omega))
    · intro r' hr hlt
      have hs : r' ≤ a := by
        by_contra hc
        have := (hsp r' hr).2 (by omega); omega
      have h3 := (hsp r' hr).1 hs
      exact Nat.le_trans (sq_le (by omega)) (hge (by omega))
end Flt

/-- C119: the square root of every positive finite F32 (F64) is the F32 (F64) nearest to the true square root;
although F32.Sqrt rounds twice.  The roots of zeros are zeros of the same sign, of negative numbers NaN. -/
theorem C119_sqrt :
    (∀ n, Rep f32 n → n ≠ 0 → ∃ r, sqrt32 (.fin false n) = .fin false r ∧ NearestSqrt f32 (n * one) r) ∧
    (∀ n, Rep f64 n → n ≠ 0 → ∃ r, sqrt64 (.fin false n) = .fin false r ∧ NearestSqrt f64 (n * one) r) ∧
    (∀ op ∈ [sqrt32, sqrt64], (∀ s, op (.fin s 0) = .fin s 0) ∧ (∀ n, n ≠ 0 → op (.fin true n) = .nan) ∧
      op .nan = .nan ∧ op (.inf false) = .inf false ∧ op (.inf true) = .nan) := by
  refine ⟨?_, ?_, ?_⟩
  · intro n h h0
    obtain ⟨h1, h2⟩ := sqrt_double n h h0
    refine ⟨_, ?_, h2⟩
    simp only [sqrt32, via32, mathSqrt]
    rw [if_neg h0]
    show (if maxMag f32 < roundMag f32 (sqrtMag f64 n) then Flt.inf false else .fin false (roundMag f32 (sqrtMag f64 n))) = _
    rw [if_neg (by omega)]
  · intro n h h0
    have hlt : n < 2 ^ 2098 := rep_lt_pow h 2098 rfl
    have hhi : sqrtMag f64 n ≤ 2 ^ 1586 := sqrt_upper f64_ok n 2098 1586 hlt (by omega) (Nat.zero_le _) (by decide)
    refine ⟨_, ?_, sqrtMag_nearest f64_ok n (Nat.le_trans hhi (pow_le_max f64_ok 1586 (by decide)))⟩
    simp only [sqrt64, via64, mathSqrt]
    rw [if_neg h0]
    rfl
  · intro op hop
    simp only [List.mem_cons, List.not_mem_nil, or_false] at hop
    rcases hop with rfl | rfl
    · refine ⟨fun s => ?_, fun n hn => ?_, rfl, rfl, rfl⟩
      · exact via32_eq (g := mathSqrt) (zero32 s)
      · simp [sqrt32, via32, mathSqrt, hn, convert]
    · refine ⟨fun s => rfl, fun n hn => ?_, rfl, rfl, rfl⟩
      simp [sqrt64, via64, mathSqrt, hn]

-- Concrete cases: the roots of 2 and of the smallest positive F32, 2^-149.
example : Rep f32 (2 * 2 ^ 1074) ∧ Rep f32 (2 ^ 925) :=
  ⟨⟨2, 1074, rfl, by decide, by decide, by decide⟩, ⟨1, 925, by simp, by decide, by decide, by decide⟩⟩
example : sqrt32 (.fin false (2 * one)) = .fin false (11863283 * 2 ^ 1051) ∧
    sqrt32 (.fin false (4 * one)) = .fin false (2 * one) ∧ sqrt64 (.fin true one) = .nan ∧
    sqrt32 (.fin false (2 ^ 925)) = .fin false (11863283 * 2 ^ 976) := by decide +kernel

/-! ### C120 -/
namespace Spec
/-- A magnitude from half a last place beyond the largest finite one on. -/
def Beyond (f : Format) (n : Nat) : Prop := 2 * maxMag f + 2 ^ f.emax ≤ 2 * n
/-- r is the F32 nearest to the result y of a float64 computation: the infinity of the same sign from half a last
place beyond the largest F32 on. -/
def Rounded32 : Flt → Flt → Prop
  | .nan, r => r = .nan
  | .inf s, r => r = .inf s
  | .fin s n, .fin s' r => s' = s ∧ Nearest f32 n r
  | .fin s n, .inf s' => s' = s ∧ Beyond f32 n
  | .fin _ _, .nan => False
/-- What math.Pow returns for the base -1 and an integral exponent. -/
def PowUnit (pow : Flt → Flt → Flt) : Prop :=
  ∀ s k, Rep f64 (k * one) → pow (.fin true one) (.fin s (k * one)) = .fin (decide (k % 2 = 1)) one
end Spec

namespace Flt
theorem overflow_bound {f : Format} (hf : Ok f) (n : Nat) (h : maxMag f < roundMag f n) :
    Beyond f n := by
  unfold Beyond
  obtain ⟨hq1, hq2⟩ := quo_bounds hf n
  have hc := roundMag_cases f n
  have hdl : n / 2 ^ ulpExp f n * 2 ^ ulpExp f n ≤ n := Nat.div_mul_le_self _ _
  have hlo : f.emin ≤ ulpExp f n := by unfold ulpExp; omega
  generalize ulpExp f n = e at *
  generalize n / 2 ^ e = q at *
  have hp := pow_succ_pred hf.prec
  have hP : 0 < 2 ^ (f.prec - 1) := Nat.pow_pos (by decide)
  unfold maxMag at h ⊢
  rw [hp] at h hq1 ⊢
  generalize 2 ^ (f.prec - 1) = P at *
  have hr : roundMag f n ≤ (q + 1) * 2 ^ e := by
    have : q * 2 ^ e ≤ (q + 1) * 2 ^ e := Nat.mul_le_mul_right _ (by omega)
    omega
  have hx := hf.exp
  rcases Nat.lt_trichotomy e f.emax with he | he | he
  · exfalso
    obtain ⟨d, hd⟩ : ∃ d, f.emax = e + d + 1 := ⟨f.emax - e - 1, by omega⟩
    have hd1 : 0 < 2 ^ d := Nat.pow_pos (by decide)
    rw [hd, Nat.pow_succ, Nat.pow_add] at h
    have h1 : (q + 1) * 2 ^ e ≤ (2 * P) * 2 ^ e := Nat.mul_le_mul_right _ (by omega)
    have h2 : P * (2 ^ e * 2) ≤ (2 * P - 1) * (2 ^ e * 2 ^ d * 2) :=
      Nat.mul_le_mul (by omega) (Nat.mul_le_mul_right _ (Nat.le_mul_of_pos_right _ hd1))
    have h3 : P * (2 ^ e * 2) = 2 * P * 2 ^ e := by ring
    omega
  · subst he
    have hpos : 0 < 2 ^ f.emax := Nat.pow_pos (by decide)
    rcases hc with ⟨e1, -⟩ | ⟨e1, e2⟩
    · exfalso
      have : q * 2 ^ f.emax ≤ (2 * P - 1) * 2 ^ f.emax := Nat.mul_le_mul_right _ (by omega)
      omega
    · have hq : 2 * P - 1 ≤ q := by
        by_contra hc
        have : (q + 1) * 2 ^ f.emax ≤ (2 * P - 1) * 2 ^ f.emax := Nat.mul_le_mul_right _ (by omega)
        omega
      have h5 : (2 * (2 * P - 1) + 1) * 2 ^ f.emax ≤ (2 * q + 1) * 2 ^ f.emax := Nat.mul_le_mul_right _ (by omega)
      have h6 : (2 * (2 * P - 1) + 1) * 2 ^ f.emax = 2 * ((2 * P - 1) * 2 ^ f.emax) + 2 ^ f.emax := by ring
      omega
  · have hq2 := hq2 (by omega)
    have h1 : P * 2 ^ e ≤ q * 2 ^ e := Nat.mul_le_mul_right _ hq2
    have h2 : P * 2 ^ (f.emax + 1) ≤ P * 2 ^ e := Nat.mul_le_mul_left _ (Nat.pow_le_pow_right (by decide) (by omega))
    have h3 : P * 2 ^ (f.emax + 1) = 2 * P * 2 ^ f.emax := by rw [Nat.pow_succ]; ring
    have h4 : (2 * P - 1) * 2 ^ f.emax + 2 ^ f.emax = 2 * P * 2 ^ f.emax := by
      rw [← Nat.succ_mul]; congr 1; omega
    have h5 : 0 < 2 ^ f.emax := Nat.pow_pos (by decide)
    omega

theorem convert_fin (f : Format) (s : Bool) (n : Nat) :
    convert f (.fin s n) = if maxMag f < roundMag f n then .inf s else .fin s (roundMag f n) := rfl

theorem convert_cases {f : Format} (hf : Ok f) (s : Bool) (n : Nat) :
    (convert f (.fin s n) = .inf s ∧ Beyond f n) ∨
    ∃ r, convert f (.fin s n) = .fin s r ∧ Nearest f n r := by
  rw [convert_fin]
  by_cases hm : maxMag f < roundMag f n
  · rw [if_pos hm]; exact Or.inl ⟨rfl, overflow_bound hf n hm⟩
  · rw [if_neg hm]; exact Or.inr ⟨_, rfl, roundMag_nearest hf n (by omega)⟩

theorem int_lt {a b : Nat} (h : a < 2 ^ b) (c : Nat) (hc : c = b + 1074) : a * one < 2 ^ c := by
  rw [hc, Nat.pow_add, ← one_def _ rfl]; exact Nat.mul_lt_mul_of_pos_right h Flt.one_pos
theorem int_le {a b : Nat} (h : 2 ^ b ≤ a) (c : Nat) (hc : c = b + 1074) : 2 ^ c ≤ a * one := by
  rw [hc, Nat.pow_add, ← one_def _ rfl]; exact Nat.mul_le_mul_right _ h

theorem convert_rounded (y : Flt) : Rounded32 y (convert f32 y) := by
  cases y with
  | nan => rfl
  | inf s => rfl
  | fin s n =>
    have h := convert_cases f32_ok s n
    generalize convert f32 (.fin s n) = y at h ⊢
    rcases h with ⟨rfl, h⟩ | ⟨r, rfl, h⟩
    · exact ⟨rfl, h⟩
    · exact ⟨rfl, h⟩

theorem rep64_int (k : Nat) (h : k ≤ 2 ^ 53) : Rep f64 (k * one) := by
  rcases Nat.lt_or_eq_of_le h with h | h
  · exact rep_int k h (Nat.zero_le _) (by decide)
  · refine ⟨1, 1127, ?_, by decide, Nat.zero_le _, by decide⟩
    rw [h, one_def _ rfl, ← Nat.pow_add, Nat.one_mul]

/-- An int as a float64. -/
theorem ofInt_spec (n : Int) (hn : n.natAbs < 2 ^ 64) : ∃ k, Rep f64 (k * one) ∧
    ofInt n = .fin (decide (n < 0)) (k * one) ∧ (n.natAbs ≤ 2 ^ 53 → k = n.natAbs) ∧
    (2 ^ 53 < n.natAbs → k % 2 = 0) := by
  by_cases h : n.natAbs ≤ 2 ^ 53
  · exact ⟨_, rep64_int _ h, convert_rep f64_ok _ _ (rep64_int _ h), fun _ => rfl, by omega⟩
  · have e : ofInt n = if maxMag f64 < roundMag f64 (n.natAbs * one) then .inf (decide (n < 0))
        else .fin (decide (n < 0)) (roundMag f64 (n.natAbs * one)) := convert_fin _ _ _
    generalize n.natAbs = a at *
    have h : 2 ^ 53 < a := by omega
    have ha : a * one ≠ 0 := Nat.mul_ne_zero (by omega) (by have := Flt.one_pos; omega)
    have hl1 : 1127 ≤ (a * one).log2 := (Nat.le_log2 ha).2 (int_le (b := 53) (by omega) _ rfl)
    have hl2 : (a * one).log2 < 1138 := (Nat.log2_lt ha).2 (int_lt (b := 64) hn _ rfl)
    have hE : ulpExp f64 (a * one) = (a * one).log2 + 1 - 53 := by
      show max 0 _ = _
      simp [f64]
    have hq := (quo_bounds f64_ok (a * one)).1
    have hq : a * one / 2 ^ ulpExp f64 (a * one) < 2 ^ 53 := hq
    have hc := roundMag_cases f64 (a * one)
    have hb : 1075 ≤ ulpExp f64 (a * one) ∧ ulpExp f64 (a * one) ≤ 1085 := by omega
    have hmax : roundMag f64 (a * one) ≤ maxMag f64 := by
      have h1 : (a * one / 2 ^ ulpExp f64 (a * one) + 1) * 2 ^ ulpExp f64 (a * one) ≤ 2 ^ (53 + 1085) := by
        rw [Nat.pow_add]
        exact Nat.mul_le_mul (by omega) (Nat.pow_le_pow_right (by decide) hb.2)
      have h2 : 2 ^ (53 + 1085) ≤ maxMag f64 := pow_le_max f64_ok _ (by decide)
      have h3 : a * one / 2 ^ ulpExp f64 (a * one) * 2 ^ ulpExp f64 (a * one) ≤
        (a * one / 2 ^ ulpExp f64 (a * one) + 1) * 2 ^ ulpExp f64 (a * one) := Nat.mul_le_mul_right _ (by omega)
      rcases hc with ⟨e, -⟩ | ⟨e, -⟩ <;> rw [e]
      · exact Nat.le_trans h3 (Nat.le_trans h1 h2)
      · exact Nat.le_trans h1 h2
    have hrep := (roundMag_nearest f64_ok _ hmax).1
    rw [if_neg (by omega)] at e
    obtain ⟨d, hd⟩ : ∃ d, ulpExp f64 (a * one) = d + 1 + 1074 := ⟨ulpExp f64 (a * one) - 1075, by omega⟩
    have hm : ∀ q, q * 2 ^ ulpExp f64 (a * one) = (2 * (q * 2 ^ d)) * one := by
      intro q
      rw [hd, Nat.pow_add, ← one_def _ rfl, Nat.pow_succ]; ring
    obtain ⟨k, hk⟩ : ∃ k, roundMag f64 (a * one) = (2 * k) * one := by
      rcases hc with ⟨e, -⟩ | ⟨e, -⟩
      · exact ⟨_, e.trans (hm _)⟩
      · exact ⟨_, e.trans (hm _)⟩
    rw [hk] at hrep e
    exact ⟨2 * k, hrep, e, by omega, by omega⟩
end Flt

/-- C120: Exp, Exp2, Ln, Log2 and Log10, Powf, Powi and Log of F64 return what the functions of package math return
for the same arguments, those of F32 the F32 nearest to that: each is rounded once.  (The accuracy of package math
itself is not covered.) -/
theorem C120_rounded (g : Flt → Flt) (pow quo : Flt → Flt → Flt) (x y : Flt) (n : Int) (hn : n.natAbs ≤ 2 ^ 53) :
    (elementary64 g x = g x ∧ Rounded32 (g x) (elementary32 g x)) ∧
    (powf64 pow x y = pow x y ∧ Rounded32 (pow x y) (powf32 pow x y)) ∧
    (log64 g quo x y = quo (g x) (g y) ∧ Rounded32 (quo (g x) (g y)) (log32 g quo x y)) ∧
    (powi64 pow x n = pow x (.fin (decide (n < 0)) (n.natAbs * one)) ∧
      Rounded32 (pow x (.fin (decide (n < 0)) (n.natAbs * one))) (powi32 pow x n)) := by
  obtain ⟨k, -, h2, h3, -⟩ := ofInt_spec n (by omega)
  rw [h3 hn] at h2
  refine ⟨⟨rfl, convert_rounded _⟩, ⟨rfl, convert_rounded _⟩, ⟨rfl, convert_rounded _⟩, ?_, ?_⟩
  · show pow x (ofInt n) = _
    rw [h2]
  · rw [← h2]
    exact convert_rounded _

/-- C120: Powi(n) of -1 is (-1)^n exactly if n is even or at most 2^53 in size, for every int n. -/
theorem C120_powi_partial (pow : Flt → Flt → Flt) (hp : PowUnit pow) (n : Int) (hn : -(2 : Int) ^ 63 ≤ n ∧ n < 2 ^ 63) :
    (powi64 pow (.fin true one) n = .fin (decide (n % 2 = 1)) one ↔ n % 2 = 0 ∨ n.natAbs ≤ 2 ^ 53) ∧
    (powi32 pow (.fin true one) n = .fin (decide (n % 2 = 1)) one ↔ n % 2 = 0 ∨ n.natAbs ≤ 2 ^ 53) := by
  have hn' : n.natAbs < 2 ^ 64 := by
    obtain ⟨h1, h2⟩ := hn
    omega
  obtain ⟨k, h1, h2, h3, h4⟩ := ofInt_spec n hn'
  have e64 : powi64 pow (.fin true one) n = .fin (decide (k % 2 = 1)) one := by
    show pow _ (ofInt n) = _
    rw [h2, hp _ _ h1]
  have e32 : powi32 pow (.fin true one) n = .fin (decide (k % 2 = 1)) one := by
    have : powi32 pow (.fin true one) n = convert f32 (powi64 pow (.fin true one) n) := rfl
    rw [this, e64]
    have := rep_int (f := f32) 1 (by decide) (by decide) (by decide)
    rw [Nat.one_mul] at this
    exact convert_rep f32_ok _ _ this
  rw [e64, e32, and_self]
  rw [Flt.fin.injEq, and_iff_left rfl, decide_eq_decide]
  by_cases hb : n.natAbs ≤ 2 ^ 53
  · have := h3 hb
    constructor
    · intro _; exact Or.inr hb
    · intro _; omega
  · have := h4 (by omega)
    constructor
    · intro h; left; omega
    · rintro (h | h)
      · omega
      · exact absurd h hb

/-- C120 fails beyond: for every odd n of more than 2^53, Powi(n) of -1 is 1. -/
theorem C120_powi_fails (pow : Flt → Flt → Flt) (hp : PowUnit pow) (n : Int) (hn : -(2 : Int) ^ 63 ≤ n ∧ n < 2 ^ 63) (ho : n % 2 = 1)
    (hb : 2 ^ 53 < n.natAbs) :
    powi64 pow (.fin true one) n = .fin false one ∧ powi32 pow (.fin true one) n = .fin false one := by
  have hn' : n.natAbs < 2 ^ 64 := by
    obtain ⟨h1, h2⟩ := hn
    omega
  obtain ⟨k, h1, h2, -, h4⟩ := ofInt_spec n hn'
  have e64 : powi64 pow (.fin true one) n = .fin false one := by
    show pow _ (ofInt n) = _
    rw [h2, hp _ _ h1]
    simp [h4 hb]
  refine ⟨e64, ?_⟩
  have : powi32 pow (.fin true one) n = convert f32 (powi64 pow (.fin true one) n) := rfl
  rw [this, e64]
  have := rep_int (f := f32) 1 (by decide) (by decide) (by decide)
  rw [Nat.one_mul] at this
  exact convert_rep f32_ok _ _ this

-- Concrete cases: a function of the contract, the first exponent for which the sign is lost, and a conversion.
example : PowUnit (fun _ y => match y with | .fin _ n => .fin (decide (n / one % 2 = 1)) one | y => y) := by
  intro s k _
  simp only [Nat.mul_div_cancel _ Flt.one_pos]
example : ((2 : Int) ^ 53 + 1) % 2 = 1 ∧ 2 ^ 53 < ((2 : Int) ^ 53 + 1).natAbs ∧
    ofInt (2 ^ 53 + 1) = .fin false (2 ^ 53 * one) ∧ ofInt (-(2 ^ 53 + 3)) = .fin true ((2 ^ 53 + 4) * one) := by
  decide +kernel
example : elementary32 (fun _ => .fin false (2 ^ 1050 + one)) .nan = .fin false one ∧
    elementary32 (fun _ => .fin true (2 ^ 128 * one)) .nan = .inf true := by decide +kernel
end Gost
