import Verif.Model.Str
import Verif.Lemmas.Utf8
/-
Property C77: Format.
-/
namespace Gost
open Spec Utf8

namespace Spec
/-- A part of a format template. -/
inductive Piece where
  | text (cs : List Char)
  | hole
  | lbrace
  | rbrace

/-- Text parts have no braces. -/
def Piece.Ok : Piece → Prop
  | .text cs => ∀ c ∈ cs, c ≠ '{' ∧ c ≠ '}'
  | _ => True

/-- How the part is written in the template. -/
def Piece.written : Piece → List Char
  | .text cs => cs
  | .hole => ['{', '}']
  | .lbrace => ['{', '{']
  | .rbrace => ['}', '}']

/-- The template, as the bytes of a Go string. -/
def template (ps : List Piece) : GoStr := utf8 (ps.flatMap Piece.written)

/-- The number of placeholders. -/
def holes : List Piece → Nat
  | [] => 0
  | .hole :: ps => holes ps + 1
  | _ :: ps => holes ps

/-- What Format should give when the parameters display as `ds`, if there are enough of them. -/
def render : List Piece → List GoStr → Option GoStr
  | [], _ => some []
  | .text cs :: ps, ds => (render ps ds).map (utf8 cs ++ ·)
  | .lbrace :: ps, ds => (render ps ds).map (utf8 ['{'] ++ ·)
  | .rbrace :: ps, ds => (render ps ds).map (utf8 ['}'] ++ ·)
  | .hole :: _, [] => none
  | .hole :: ps, d :: ds => (render ps ds).map (d ++ ·)

/-- The same when displaying has effects: the parameters are displayed one after the other, each once, the
surplus ones never; a missing parameter or one that cannot be displayed panics at its placeholder. -/
def renderE {σ : Type} : List Piece → List (Option (Eff σ GoStr)) → GoStr → Eff σ GoStr
  | [], _, out => pure out
  | .text cs :: ps, ds, out => renderE ps ds (out ++ utf8 cs)
  | .lbrace :: ps, ds, out => renderE ps ds (out ++ utf8 ['{'])
  | .rbrace :: ps, ds, out => renderE ps ds (out ++ utf8 ['}'])
  | .hole :: _, [], _ => Eff.panic .indexOutOfRange
  | .hole :: _, none :: _, _ => Eff.panic .nilDeref
  | .hole :: ps, some d :: ds, out => do
    let s ← d
    renderE ps ds (out ++ s)
end Spec

namespace Fmt
variable {σ : Type}

theorem toRunes_eq (s : GoStr) (fuel : Nat) : toRunes fuel s = runesLoop fuel s := by
  induction fuel generalizing s with
  | zero => rfl
  | succ n ih =>
    cases s with
    | nil => rfl
    | cons b s => simp only [toRunes, runesLoop, ih]; rfl

theorem loop_text (params : List (Param σ)) (cs : List Char) (h : ∀ c ∈ cs, c ≠ '{' ∧ c ≠ '}')
    (rs : List Nat) (st : State) :
    loop params (cs.map Char.toNat ++ rs) st = loop params rs { st with buffer := st.buffer ++ utf8 cs } := by
  induction cs generalizing st with
  | nil => simp [utf8]
  | cons c cs ih =>
    obtain ⟨h1, h2⟩ := h c (by simp)
    have n1 : c.toNat ≠ 123 := fun e => h1 (Char.toNat_inj.1 e)
    have n2 : c.toNat ≠ 125 := fun e => h2 (Char.toNat_inj.1 e)
    rw [List.map_cons, List.cons_append, loop, if_neg n1, if_neg n2, ih (fun c hc => h c (by simp [hc]))]
    simp only [encodeRune_char, List.append_assoc]
    rfl

theorem loop_pieces (params : List (Param σ)) (ps : List Piece) (hp : ∀ p ∈ ps, p.Ok) (i : Nat) (out : GoStr) :
    loop params ((ps.flatMap Piece.written).map Char.toNat) ⟨i, out, false, false⟩ =
      renderE ps (params.drop i) out := by
  induction ps generalizing i out with
  | nil => rfl
  | cons p ps ih =>
    have ih := ih (fun p hp' => hp p (by simp [hp']))
    have h0 := hp p (by simp)
    cases p with
    | text cs =>
      simp only [List.flatMap_cons, Piece.written, List.map_append, renderE]
      rw [loop_text params cs h0, ih]
    | lbrace =>
      simp only [List.flatMap_cons, Piece.written, List.map_append, renderE, ← ih]
      rfl
    | rbrace =>
      simp only [List.flatMap_cons, Piece.written, List.map_append, renderE, ← ih]
      rfl
    | hole =>
      simp only [List.flatMap_cons, Piece.written, List.map_append]
      show (do
        let param ← Eff.lift (index params i)
        match param with
        | none => Eff.panic .nilDeref
        | some display => do
          let d ← display
          loop params ((ps.flatMap Piece.written).map Char.toNat) ⟨i + 1, out ++ d, false, false⟩ : Eff σ GoStr) = _
      simp only [ih]
      by_cases hi : i < params.length
      · rw [List.drop_eq_getElem_cons hi, index_lt hi]
        simp only [Eff.lift_ok, Eff.pure_bind]
        cases params[i] <;> rfl
      · rw [List.drop_of_length_le (show params.length ≤ i by omega), index_ge (by omega)]
        rfl
end Fmt

/-- C77: on every well-formed template Format does exactly what `renderE` says, effects and panics of the
Display methods included. -/
theorem C77_format {σ : Type} (ps : List Piece) (hp : ∀ p ∈ ps, p.Ok) (params : List (Fmt.Param σ)) :
    Fmt.format (template ps) params = renderE ps params [] := by
  unfold Fmt.format
  rw [Fmt.toRunes_eq, runesLoop_eq _ _ (Nat.le_refl _), template, runes_utf8, Fmt.loop_pieces params ps hp]
  rfl

theorem renderE_pure {σ : Type} (ps : List Piece) (ds : List GoStr) (out : GoStr) (s : σ) :
    renderE ps (ds.map fun d => some (pure d : Eff σ GoStr)) out s =
      (match render ps ds with
       | some r => .ok (out ++ r)
       | none => .error .indexOutOfRange, s) := by
  induction ps generalizing ds out with
  | nil => simp [renderE, render]
  | cons p ps ih =>
    cases p with
    | hole =>
      cases ds with
      | nil => rfl
      | cons d ds =>
        simp only [List.map_cons, renderE, render, Eff.pure_bind, ih]
        cases render ps ds <;> simp
    | _ =>
      simp only [renderE, render, ih]
      cases render ps ds <;> simp

theorem render_isSome (ps : List Piece) (ds : List GoStr) : (render ps ds).isSome ↔ holes ps ≤ ds.length := by
  induction ps generalizing ds with
  | nil => simp [render, holes]
  | cons p ps ih =>
    cases p with
    | hole =>
      cases ds with
      | nil => simp [render, holes]
      | cons d ds => simp [render, holes, ih]
    | _ => simp [render, holes, ih]

/-- C77: with parameters that display as `ds`, Format returns the text with the successive displays and the
unescaped braces, and panics iff there are fewer parameters than placeholders. -/
theorem C77_format_result {σ : Type} (ps : List Piece) (hp : ∀ p ∈ ps, p.Ok) (ds : List GoStr) (s : σ) :
    (∀ r, Fmt.format (template ps) (ds.map fun d => some (pure d : Eff σ GoStr)) s = (.ok r, s) ↔
      render ps ds = some r) ∧
    ((∃ e, Fmt.format (template ps) (ds.map fun d => some (pure d : Eff σ GoStr)) s = (.error e, s)) ↔
      ds.length < holes ps) := by
  rw [C77_format ps hp, renderE_pure]
  have h := render_isSome ps ds
  cases hr : render ps ds with
  | none =>
    rw [hr] at h
    simp only [Option.isSome_none, Bool.false_eq_true, false_iff] at h
    exact ⟨fun r => by simp, by simp; omega⟩
  | some x =>
    rw [hr] at h
    simp only [Option.isSome_some, true_iff] at h
    exact ⟨fun r => by simp, by simp; omega⟩

-- the template "é{}{{{}}}" with parameters "7" and "ab" gives "é7{ab}"
example : template [.text ['é'], .hole, .lbrace, .hole, .rbrace] =
    [0xC3, 0xA9, 123, 125, 123, 123, 123, 125, 125, 125] := by decide
example : ∀ p ∈ [Piece.text ['é'], .hole, .lbrace, .hole, .rbrace], p.Ok := by
  intro p hp
  simp only [List.mem_cons, List.not_mem_nil, or_false] at hp
  rcases hp with rfl | rfl | rfl | rfl | rfl <;> simp [Piece.Ok]
example : render [.text ['é'], .hole, .lbrace, .hole, .rbrace] [[55], [97, 98]] =
    some [0xC3, 0xA9, 55, 123, 97, 98, 125] := by decide
example : (Fmt.format (template [.text ['é'], .hole, .lbrace, .hole, .rbrace])
    [some (pure [55]), some (pure [97, 98])] ()).1 = .ok [0xC3, 0xA9, 55, 123, 97, 98, 125] := by decide
example : (Fmt.format (template [.hole, .hole]) [some (pure [55])] ()).1 = .error .indexOutOfRange := by decide
end Gost
