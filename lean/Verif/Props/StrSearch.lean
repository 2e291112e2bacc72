import Verif.Model.Str
import Verif.Lemmas.Utf8
import Verif.Props.Str
/-
Properties C99 (Find, Contains) and C100 (Split, Replace, Repeat) of String.
-/
namespace Gost
open Spec Utf8

namespace Spec
/-- `sub` stands in `s` at byte `i`. -/
def OccursAt (s sub : GoStr) (i : Nat) : Prop := ∃ a b, s = a ++ sub ++ b ∧ a.length = i

/-- The pieces of `s` between the occurrences of `sep`, taken from the left without overlap. -/
inductive Pieces (sep : GoStr) : GoStr → List GoStr → Prop
  | last {s : GoStr} (h : ∀ i, ¬ OccursAt s sep i) : Pieces sep s [s]
  | cut {a b : GoStr} {ps : List GoStr} (h : ∀ i, i < a.length → ¬ OccursAt (a ++ sep ++ b) sep i)
      (t : Pieces sep b ps) : Pieces sep (a ++ sep ++ b) (a :: ps)

/-- `t` is `s` with the occurrences of `old`, taken from the left without overlap, replaced by `new`. -/
inductive Replaced (old new : GoStr) : GoStr → GoStr → Prop
  | last {s : GoStr} (h : ∀ i, ¬ OccursAt s old i) : Replaced old new s s
  | step {a b t : GoStr} (h : ∀ i, i < a.length → ¬ OccursAt (a ++ old ++ b) old i)
      (r : Replaced old new b t) : Replaced old new (a ++ old ++ b) (a ++ new ++ t)

/-- `ps` put together with `sep` between. -/
def glue (sep : GoStr) : List GoStr → GoStr
  | [] => []
  | p :: ps => p ++ (ps.map (sep ++ ·)).flatten
end Spec

theorem occursAt_zero (s sub : GoStr) : OccursAt s sub 0 ↔ sub.isPrefixOf s = true := by
  rw [List.isPrefixOf_iff_prefix]
  constructor
  · rintro ⟨a, b, rfl, ha⟩
    rw [List.length_eq_zero_iff.1 ha]
    exact ⟨b, rfl⟩
  · rintro ⟨b, rfl⟩
    exact ⟨[], b, rfl, rfl⟩

theorem occursAt_succ (x : UInt8) (s sub : GoStr) (i : Nat) : OccursAt (x :: s) sub (i + 1) ↔ OccursAt s sub i := by
  constructor
  · rintro ⟨a, b, e, ha⟩
    cases a with
    | nil => cases ha
    | cons y a =>
      simp only [List.cons_append, List.cons.injEq] at e
      exact ⟨a, b, e.2, by simpa using ha⟩
  · rintro ⟨a, b, rfl, rfl⟩
    exact ⟨x :: a, b, rfl, rfl⟩

theorem not_occursAt_nil (sub : GoStr) (i : Nat) : ¬ OccursAt [] sub (i + 1) := by
  rintro ⟨a, b, e, ha⟩
  cases a with
  | nil => cases ha
  | cons => cases e

theorem indexOf_spec (s sub : GoStr) :
    (∀ i, Strings.indexOf s sub = some i → OccursAt s sub i ∧ ∀ j, j < i → ¬ OccursAt s sub j) ∧
    (Strings.indexOf s sub = none → ∀ i, ¬ OccursAt s sub i) := by
  induction s with
  | nil =>
    unfold Strings.indexOf
    by_cases h : sub.isPrefixOf ([] : GoStr) = true
    · rw [if_pos h]
      refine ⟨fun i e => ?_, fun e => by cases e⟩
      cases e
      exact ⟨(occursAt_zero _ _).2 h, fun j hj => by omega⟩
    · rw [if_neg h]
      refine ⟨fun i e => (by cases e), fun _ i => ?_⟩
      cases i with
      | zero => rwa [occursAt_zero]
      | succ i => exact not_occursAt_nil sub i
  | cons x s ih =>
    unfold Strings.indexOf
    by_cases h : sub.isPrefixOf (x :: s) = true
    · rw [if_pos h]
      refine ⟨fun i e => ?_, fun e => by cases e⟩
      cases e
      exact ⟨(occursAt_zero _ _).2 h, fun j hj => by omega⟩
    · rw [if_neg h]
      have hz : ¬ OccursAt (x :: s) sub 0 := by rwa [occursAt_zero]
      simp only [Option.map_eq_some_iff, Option.map_eq_none_iff]
      constructor
      · rintro i ⟨k, hk, rfl⟩
        obtain ⟨h1, h2⟩ := ih.1 k hk
        refine ⟨(occursAt_succ ..).2 h1, fun j hj => ?_⟩
        cases j with
        | zero => exact hz
        | succ j => rw [occursAt_succ]; exact h2 j (by omega)
      · intro hn i
        cases i with
        | zero => exact hz
        | succ i => rw [occursAt_succ]; exact ih.2 hn i

theorem occursAt_le {s sub : GoStr} {i : Nat} (h : OccursAt s sub i) : i + sub.length ≤ s.length := by
  obtain ⟨a, b, rfl, rfl⟩ := h
  simp only [List.length_append]
  omega

/-- C99: Find returns the first position where the string occurs, None iff it occurs nowhere; Contains says
whether it occurs. -/
theorem C99_find (s sub : GoStr) (hs : s.length < 2 ^ 64) :
    (∀ i, Str.find s sub = Opt.some i ↔ OccursAt s sub i ∧ ∀ j, j < i → ¬ OccursAt s sub j) ∧
    (Str.find s sub = Opt.none ↔ ∀ i, ¬ OccursAt s sub i) ∧
    (Str.contains s sub = true ↔ ∃ i, OccursAt s sub i) := by
  obtain ⟨h1, h2⟩ := indexOf_spec s sub
  unfold Str.find Str.contains
  cases h : Strings.indexOf s sub with
  | none =>
    have h2 := h2 h
    refine ⟨fun i => ⟨fun e => (by cases e), fun e => absurd e.1 (h2 i)⟩, ⟨fun _ => h2, fun _ => rfl⟩, ?_⟩
    simp only [Option.isSome_none, Bool.false_eq_true, false_iff]
    rintro ⟨i, hi⟩
    exact h2 i hi
  | some k =>
    obtain ⟨h3, h4⟩ := h1 k h
    have hk : usize k = k := by
      have := occursAt_le h3
      unfold usize; omega
    simp only [hk]
    refine ⟨fun i => ⟨?_, ?_⟩, ⟨fun e => (by cases e), fun e => absurd h3 (e k)⟩, ?_⟩
    · intro e; cases e; exact ⟨h3, h4⟩
    · rintro ⟨h5, h6⟩
      have : i = k := by
        rcases Nat.lt_trichotomy i k with hlt | heq | hgt
        · exact absurd h5 (h4 i hlt)
        · exact heq
        · exact absurd h3 (h6 k hgt)
      rw [this]
    · exact ⟨fun _ => ⟨k, h3⟩, fun _ => rfl⟩

example : Str.find [97, 98, 97, 98, 99] [97, 98, 99] = Opt.some 2 ∧ Str.find [97, 98] [98, 97] = Opt.none := by decide
example : OccursAt [97, 98, 97, 98, 99] [97, 98, 99] 2 := ⟨[97, 98], [], rfl, rfl⟩

theorem splitLoop_pieces (sep : GoStr) (hsep : sep ≠ []) (fuel : Nat) (s : GoStr) (hf : s.length ≤ fuel) :
    Pieces sep s (Strings.splitLoop sep fuel s) := by
  have hl : 0 < sep.length := List.length_pos_iff.2 hsep
  induction fuel generalizing s with
  | zero =>
    have : s = [] := List.length_eq_zero_iff.1 (by omega)
    subst this
    refine .last fun i h => ?_
    have := occursAt_le h
    simp only [List.length_nil] at this
    omega
  | succ n ih =>
    unfold Strings.splitLoop
    obtain ⟨h1, h2⟩ := indexOf_spec s sep
    cases h : Strings.indexOf s sep with
    | none => exact .last (h2 h)
    | some i =>
      obtain ⟨⟨a, b, rfl, rfl⟩, h4⟩ := h1 i h
      simp only
      have e1 : (a ++ sep ++ b).take a.length = a := by simp
      have e2 : (a ++ sep ++ b).drop (a.length + sep.length) = b := by
        rw [← List.length_append, List.drop_left]
      rw [e1, e2]
      refine .cut h4 (ih b ?_)
      simp only [List.length_append] at hf
      omega

theorem Spec.Pieces.ne_nil {sep s : GoStr} {ps : List GoStr} (h : Pieces sep s ps) : ps ≠ [] := by
  cases h <;> simp

theorem Spec.Pieces.unique {sep s : GoStr} {ps qs : List GoStr} (h : Pieces sep s ps) (h' : Pieces sep s qs) :
    ps = qs := by
  induction h generalizing qs with
  | @last s hn =>
    cases h' with
    | last => rfl
    | @cut a b ps hc t => exact absurd ⟨a, b, rfl, rfl⟩ (hn a.length)
  | @cut a b ps hc t ih =>
    generalize hs : a ++ sep ++ b = s at h'
    cases h' with
    | last hn => exact absurd ⟨a, b, hs.symm, rfl⟩ (hn a.length)
    | @cut a' b' ps' hc' t' =>
      have hlen : a.length = a'.length := by
        rcases Nat.lt_trichotomy a.length a'.length with hlt | heq | hgt
        · exact absurd ⟨a, b, hs.symm, rfl⟩ (hc' _ hlt)
        · exact heq
        · exact absurd ⟨a', b', hs, rfl⟩ (hc _ hgt)
      rw [List.append_assoc, List.append_assoc] at hs
      obtain ⟨e1, e2⟩ := List.append_inj hs hlen
      have e3 := List.append_cancel_left e2
      subst e1; subst e3
      rw [ih t']

theorem Spec.Pieces.glue {sep s : GoStr} {ps : List GoStr} (h : Pieces sep s ps) : Spec.glue sep ps = s := by
  induction h with
  | last => simp [Spec.glue]
  | @cut a b ps hc t ih =>
    cases ps with
    | nil => exact absurd rfl t.ne_nil
    | cons p ps =>
      rw [← ih]
      simp [Spec.glue, List.append_assoc]

theorem Spec.Pieces.clean {sep s : GoStr} {ps : List GoStr} (h : Pieces sep s ps) (hsep : sep ≠ []) :
    ∀ p ∈ ps, ∀ i, ¬ OccursAt p sep i := by
  induction h with
  | last hn => intro p hp; rw [List.mem_singleton.1 hp]; exact hn
  | @cut a b ps hc t ih =>
    intro p hp i hi
    rcases List.mem_cons.1 hp with rfl | hp
    · have hle := occursAt_le hi
      have : 0 < sep.length := List.length_pos_iff.2 hsep
      obtain ⟨x, y, e, rfl⟩ := hi
      exact hc x.length (by omega) ⟨x, y ++ sep ++ b, by rw [e]; simp [List.append_assoc], rfl⟩
    · exact ih p hp i hi

theorem join_eq_glue (ps : List GoStr) (sep : GoStr) : Strings.join ps sep = glue sep ps := by
  induction ps with
  | nil => rfl
  | cons a ps ih =>
    cases ps with
    | nil => simp [Strings.join, glue]
    | cons b ps => rw [Strings.join, ih]; simp [glue, List.append_assoc]

theorem Spec.Pieces.replaced {old new s : GoStr} {ps : List GoStr} (h : Pieces old s ps) :
    Replaced old new s (Spec.glue new ps) := by
  induction h with
  | @last s hn =>
    have : Spec.glue new [s] = s := by simp [Spec.glue]
    rw [this]
    exact .last hn
  | @cut a b ps hc t ih =>
    have : Spec.glue new (a :: ps) = a ++ new ++ Spec.glue new ps := by
      cases ps with
      | nil => exact absurd rfl t.ne_nil
      | cons p ps => simp [Spec.glue, List.append_assoc]
    rw [this]
    exact .step hc ih

theorem explode_utf8 (cs : List Char) (fuel : Nat) (hf : (utf8 cs).length ≤ fuel) :
    Strings.explode fuel (utf8 cs) = cs.map String.utf8EncodeChar := by
  induction cs generalizing fuel with
  | nil => cases fuel <;> rfl
  | cons c cs ih =>
    have e : utf8 (c :: cs) = String.utf8EncodeChar c ++ utf8 cs := rfl
    have hpos : 0 < (String.utf8EncodeChar c).length := List.length_pos_iff.2 String.utf8EncodeChar_ne_nil
    rw [e] at hf ⊢
    rw [List.length_append] at hf
    cases fuel with
    | zero => omega
    | succ n =>
      have hne : (String.utf8EncodeChar c ++ utf8 cs).isEmpty = false := by
        cases h : String.utf8EncodeChar c ++ utf8 cs with
        | nil => have := congrArg List.length h; simp only [List.length_append, List.length_nil] at this; omega
        | cons => rfl
      rw [Strings.explode, hne, if_neg (by decide), decode_char]
      simp only [List.take_left, List.drop_left]
      rw [ih n (by omega)]
      rfl

/-- C100: Split with a separator that is not empty gives the pieces between its occurrences from the left:
they contain no separator and give the string when put together; with the empty separator it gives the
characters of a text. -/
theorem C100_split (g : Growth) (s sep : GoStr) (hsep : sep ≠ []) (cs : List Char) :
    Pieces sep s (Str.split g s sep).data ∧
    glue sep (Str.split g s sep).data = s ∧
    (∀ p ∈ (Str.split g s sep).data, ∀ i, ¬ OccursAt p sep i) ∧
    (Str.split g (utf8 cs) []).data = cs.map fun c => utf8 [c] := by
  have hp : Pieces sep s (Str.split g s sep).data := by
    rw [Str.split, Str.pushAll_data, Strings.split, if_neg (by simpa using hsep)]
    exact splitLoop_pieces sep hsep _ s (Nat.le_refl _)
  refine ⟨hp, hp.glue, hp.clean hsep, ?_⟩
  rw [Str.split, Str.pushAll_data, Strings.split, if_pos (by rfl), explode_utf8 _ _ (Nat.le_refl _)]
  simp only [utf8_singleton]
  rfl

/-- C100: Replace replaces every occurrence from the left. -/
theorem C100_replace (s old new : GoStr) (hold : old ≠ []) : Replaced old new s (Str.replace s old new) := by
  rw [Str.replace, Strings.replaceAll, if_neg (by simpa using hold), join_eq_glue]
  exact (splitLoop_pieces old hold _ s (Nat.le_refl _)).replaced

/-- C100: `Replaced` leaves no choice, so `C100_replace` fixes the result. -/
theorem C100_replace_unique {old new s t t' : GoStr} (h : Replaced old new s t) (h' : Replaced old new s t') :
    t = t' := by
  have toP : ∀ {s t}, Replaced old new s t → ∃ ps, Pieces old s ps ∧ t = Spec.glue new ps := by
    intro s t h
    induction h with
    | @last s hn => exact ⟨[s], .last hn, by simp [Spec.glue]⟩
    | @step a b t hc r ih =>
      obtain ⟨ps, hp, rfl⟩ := ih
      refine ⟨a :: ps, .cut hc hp, ?_⟩
      cases ps with
      | nil => exact absurd rfl hp.ne_nil
      | cons p ps => simp [Spec.glue, List.append_assoc]
  obtain ⟨ps, h1, rfl⟩ := toP h
  obtain ⟨qs, h2, rfl⟩ := toP h'
  rw [h1.unique h2]

/-- C100, in part: Repeat gives n copies iff n is below 2^63.  Missing: larger n, where it panics (also for
the empty string, whose repetition is empty). -/
theorem C100_repeat_partial (s : GoStr) (n : BitVec 64) :
    Str.repeat_ s n = .ok (List.replicate n.toNat s).flatten ↔ n.toNat < 2 ^ 63 := by
  have hlt := n.isLt
  unfold Str.repeat_ Strings.repeatStr
  rw [BitVec.toInt_eq_toNat_cond]
  by_cases h : 2 * n.toNat < 2 ^ 64
  · rw [if_pos h, if_neg (by omega)]
    simp only [Int.toNat_natCast, true_iff]
    omega
  · rw [if_neg h, if_pos (by omega)]
    constructor
    · intro e; cases e
    · intro e; omega

/-- C100 fails: Repeat panics for 2^63 and more, even on the empty string. -/
theorem C100_repeat_fails (s : GoStr) (n : BitVec 64) (hn : 2 ^ 63 ≤ n.toNat) :
    Str.repeat_ s n = .error .explicit := by
  unfold Str.repeat_ Strings.repeatStr
  have hlt := n.isLt
  have : n.toInt < 0 := by
    rw [BitVec.toInt_eq_toNat_cond, if_neg (by omega)]
    omega
  rw [if_pos this]

-- "aXXXb" split at "XX", and replaced
example : Strings.split [97, 88, 88, 88, 98] [88, 88] = [[97], [88, 98]] := by decide
example : Str.replace [97, 88, 88, 88, 98] [88, 88] [121] = [97, 121, 88, 98] := by decide
example : Str.repeat_ [97, 98] 3#64 = .ok [97, 98, 97, 98, 97, 98] := by decide
example : Strings.split (utf8 ['é', 'x']) [] = [[0xC3, 0xA9], [120]] := by decide
example : 2 ^ 63 ≤ (BitVec.ofNat 64 (2 ^ 63)).toNat := by decide
end Gost
