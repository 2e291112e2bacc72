import Verif.Props.Option
import Verif.Model.Display
/-
Property C155: every Result is Ok or Err.
-/
namespace Gost
open Spec
variable {σ ε α : Type}

/-- The results that programs can make: Ok, Err of any error variable, nil included, a declared variable, and what the methods
return, for all callbacks that return results made by programs. -/
inductive Spec.Made (σ : Type) : Res ε α → Prop
  | ok (v : α) : Made σ (Res.mkOk v)
  | err (e : Option ε) : Made σ (Res.mkErr e)
  | zero : Made σ ⟨none, none⟩
  | map {r y : Res ε α} {f : α → Eff σ α} {s : σ} (h : Made σ r) (e : (r.map f s).1 = .ok y) : Made σ y
  | mapErr {r y : Res ε α} {f : Option ε → Eff σ (Option ε)} {s : σ} (h : Made σ r) (e : (r.mapErr f s).1 = .ok y) : Made σ y
  | and {r t : Res ε α} (h : Made σ r) (h' : Made σ t) : Made σ (r.and t)
  | or {r t : Res ε α} (h : Made σ r) (h' : Made σ t) : Made σ (r.or t)
  | andThen {r y : Res ε α} {op : α → Eff σ (Res ε α)} {s : σ} (h : Made σ r)
      (hop : ∀ v s y, (op v s).1 = .ok y → Made σ y) (e : (r.andThen op s).1 = .ok y) : Made σ y
  | orElse {r y : Res ε α} {op : Option ε → Eff σ (Res ε α)} {s : σ} (h : Made σ r)
      (hop : ∀ v s y, (op v s).1 = .ok y → Made σ y) (e : (r.orElse op s).1 = .ok y) : Made σ y
  | clone {r y : Res ε α} {c : Option (α → α)} (h : Made σ r) (e : Res.clone c r = .ok y) : Made σ y

/-- C155: no program makes a Result that is both Ok and Err. -/
theorem C155_never_both {r : Res ε α} (h : Made σ r) : ¬ (r.isOk = true ∧ r.isErr = true) := by
  have main : r.ok = none ∨ r.err = none := by
    induction h with
    | ok v => exact .inr rfl
    | err e => exact .inl rfl
    | zero => exact .inl rfl
    | @map r y f s h e ih =>
      obtain ⟨ok, err⟩ := r
      cases ok with
      | none => cases e; exact .inl rfl
      | some v =>
        have e' : (Eff.bind (f v) (fun r => Pure.pure (Res.mkOk r)) s).1 = .ok y := e
        unfold Eff.bind at e'
        rcases hf : f v s with ⟨_ | w, _⟩ <;> rw [hf] at e' <;> cases e'
        exact .inr rfl
    | @mapErr r y f s h e ih =>
      obtain ⟨ok, err⟩ := r
      cases err with
      | none => cases e; exact .inr rfl
      | some v =>
        have e' : (Eff.bind (f (some v)) (fun r => Pure.pure (Res.mkErr r)) s).1 = .ok y := e
        unfold Eff.bind at e'
        rcases hf : f (some v) s with ⟨_ | w, _⟩ <;> rw [hf] at e' <;> cases e'
        exact .inl rfl
    | and _ _ ih ih' => unfold Res.and; split <;> assumption
    | or _ _ ih ih' => unfold Res.or; split <;> assumption
    | @andThen r y op s _ _ e ih ih' =>
      obtain ⟨ok, err⟩ := r
      cases ok with
      | none => cases e; exact .inl rfl
      | some v => exact ih' v s y e
    | @orElse r y op s _ _ e ih ih' =>
      obtain ⟨ok, err⟩ := r
      cases err with
      | none => cases e; exact .inr rfl
      | some v => exact ih' (some v) s y e
    | @clone r y c _ e ih =>
      obtain ⟨ok, err⟩ := r
      cases ok with
      | none => cases e; exact .inl rfl
      | some v => cases c <;> cases e; exact .inr rfl
  obtain ⟨ok, err⟩ := r
  rcases main with h | h <;> cases h
  · exact fun h => by cases h.1
  · exact fun h => by cases h.2

/-- Full property C155: exactly one of IsOk and IsErr holds for every Result a program can make, and a Result that is not Ok gives
way to the alternative of Or and OrElse, has an error to unwrap and to display, and equals itself.  Proved: exactly one holds
unless the error pointer and the value pointer are both nil.  Missing: those (`C155_neither_fails`). -/
theorem C155_ok_or_err_partial {r : Res ε α} (h : Made σ r) : (r.isErr = !r.isOk) ↔ r ≠ ⟨none, none⟩ := by
  have hb := C155_never_both h
  obtain ⟨_ | v, _ | e⟩ := r
  · exact ⟨(fun h => by cases h), fun h => absurd rfl h⟩
  · exact ⟨(fun _ h => by cases h), fun _ => rfl⟩
  · exact ⟨(fun _ h => by cases h), fun _ => rfl⟩
  · exact absurd ⟨rfl, rfl⟩ hb
example : Made Unit (Res.mkErr (some 3) : Res Nat Nat) ∧ (Res.mkErr (some 3) : Res Nat Nat) ≠ ⟨none, none⟩ :=
  ⟨.err _, by decide⟩

/-- C155 is violated: `Err(err)` with an error variable that is nil, a MapErr whose function returns nil and a declared Result are
neither Ok nor Err.  Unwrap, Expect, UnwrapErr and ExpectErr all panic on it, Display dereferences nil, Or and OrElse do not
give the alternative, AndThen, Map and MapErr hand it on, and it does not equal itself. -/
theorem C155_neither_fails (e : ε) (k : Option ε → Eff σ (Option ε)) (s s' : σ) (hk : k (some e) s = (.ok none, s')) (t : Res ε α)
    (f : α → Eff σ α) (op : α → Eff σ (Res ε α)) (oe : Option ε → Eff σ (Res ε α)) (eqT : Option (α → α → Bool))
    (eqE : ε → ε → Go Bool) (isI : Bool) (disp : α → Option (Method σ)) (errorText : ε → Eff σ GoStr) (q : Option ε → Eff σ Bool)
    (p : α → Eff σ Bool) :
    let r : Res ε α := Res.mkErr none
    (Res.mkErr (some e) : Res ε α).mapErr k s = (.ok r, s') ∧ r = ⟨none, none⟩ ∧ Made σ r ∧
    r.isOk = false ∧ r.isErr = false ∧ r.unwrap = .error .explicit ∧ r.expect = .error .explicit ∧
    r.unwrapErr = .error .explicit ∧ r.expectErr = .error .explicit ∧
    r.display isI disp errorText s = (.error .nilDeref, s) ∧ r.toOption = .ok Opt.none ∧ r.errOption = Opt.none ∧
    r.or t = r ∧ r.orElse oe s = (.ok r, s) ∧ r.and t = r ∧ r.andThen op s = (.ok r, s) ∧ r.map f s = (.ok r, s) ∧
    r.mapErr k s = (.ok r, s) ∧ r.isErrAnd q s = (.ok false, s) ∧ r.isOkAnd p s = (.ok false, s) ∧
    Res.eq eqT eqE r r = .ok false := by
  refine ⟨?_, rfl, .err none, rfl, rfl, rfl, rfl, rfl, rfl, rfl, rfl, rfl, rfl, rfl, rfl, rfl, rfl, rfl, rfl, rfl, rfl⟩
  show Eff.bind (k (some e)) (fun r => Pure.pure (Res.mkErr r)) s = _
  unfold Eff.bind
  rw [hk]
  rfl
example : ((Res.mkErr (some 3) : Res Nat Nat).mapErr (fun _ => fun n : Nat => (.ok none, n + 1)) 0) = (.ok ⟨none, none⟩, 1) := by
  decide
end Gost
