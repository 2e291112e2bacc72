import Verif.Model.Option
/-
Properties C39 - C41: Option and Result against abstract optional values and sums, for every callback
(an arbitrary computation that may change the program state `σ` and may panic).  A right-hand side
`(.ok x, s)` with the unchanged state `s` says that no callback was run.
-/
namespace Gost

/-! ### Specification -/
namespace Spec
variable {σ : Type v} {α β : Type u}

/-- Run `f`, then apply the pure function `g` to its result (a panic of `f` is passed on). -/
def after {α : Type u} {β : Type u'} (f : Eff σ α) (g : α → β) (s : σ) : Except Panic β × σ :=
  match f s with
  | (.ok a, s') => (.ok (g a), s')
  | (.error e, s') => (.error e, s')

/-- The abstract value denoted by an option. -/
def optVal (o : Opt α) : Option α := o.value

/-- The abstract meaning of a well-formed result. -/
inductive Denotes {ε : Type u} : Res ε α → Except ε α → Prop
  | ok (v : α) : Denotes ⟨some v, none⟩ (.ok v)
  | err (e : ε) : Denotes ⟨none, some e⟩ (.error e)

/-- A result is well formed if it denotes an abstract sum. -/
def WF {ε : Type u} (r : Res ε α) : Prop := ∃ x, Denotes r x
end Spec
open Spec

variable {σ : Type v} {α β : Type u}

/-! ### C39 -/

/-- C39, observers and extraction. -/
theorem C39_option_observers (v d : α) (f : Eff σ α) (p : α → Eff σ Bool) (s : σ) :
    (Opt.some v).isSome = true ∧ (Opt.some v).isNone = false ∧
    (Opt.none : Opt α).isSome = false ∧ (Opt.none : Opt α).isNone = true ∧
    (Opt.some v).unwrap = .ok v ∧ (∃ e, (Opt.none : Opt α).unwrap = .error e) ∧
    (Opt.some v).expect = .ok v ∧ (∃ e, (Opt.none : Opt α).expect = .error e) ∧
    (Opt.some v).unwrapOr d = .ok v ∧ (Opt.none : Opt α).unwrapOr d = .ok d ∧
    (Opt.some v).unwrapOrElse f s = (.ok v, s) ∧ (Opt.none : Opt α).unwrapOrElse f s = f s ∧
    (Opt.some v).isSomeAnd p s = p v s ∧ (Opt.none : Opt α).isSomeAnd p s = (.ok false, s) :=
  ⟨rfl, rfl, rfl, rfl, rfl, ⟨_, rfl⟩, rfl, ⟨_, rfl⟩, rfl, rfl, rfl, rfl, rfl, rfl⟩

/-- C39, combinators: value and callback effects are those of the abstract optional value. -/
theorem C39_option_combinators (v w d : α) (f : α → Eff σ α) (g : Eff σ α) (h : Eff σ (Opt α))
    (p : α → Eff σ Bool) (s : σ) :
    (Opt.some v).map f s = after (f v) Opt.some s ∧ (Opt.none : Opt α).map f s = (.ok Opt.none, s) ∧
    (Opt.some v).mapOr d f s = f v s ∧ (Opt.none : Opt α).mapOr d f s = (.ok d, s) ∧
    (Opt.some v).mapOrElse g f s = f v s ∧ (Opt.none : Opt α).mapOrElse g f s = g s ∧
    (Opt.some v).filter p s = after (p v) (fun b => if b then Opt.some v else Opt.none) s ∧
    (Opt.none : Opt α).filter p s = (.ok Opt.none, s) ∧
    (Opt.some v).orElse h s = (.ok (Opt.some v), s) ∧ (Opt.none : Opt α).orElse h s = h s ∧
    (Opt.some v).or (Opt.some w) = Opt.some v ∧ (Opt.some v).or Opt.none = Opt.some v ∧
    (Opt.none : Opt α).or (Opt.some w) = Opt.some w ∧ (Opt.none : Opt α).or Opt.none = Opt.none ∧
    (Opt.some v).xor (Opt.some w) = Opt.none ∧ (Opt.some v).xor Opt.none = Opt.some v ∧
    (Opt.none : Opt α).xor (Opt.some w) = Opt.some w ∧ (Opt.none : Opt α).xor Opt.none = Opt.none := by
  refine ⟨?_, rfl, ?_, rfl, ?_, rfl, ?_, rfl, rfl, rfl, rfl, rfl, rfl, rfl, rfl, rfl, rfl, rfl⟩
  · show Eff.bind (f v) (fun r => Pure.pure (Opt.some r)) s = _
    unfold Eff.bind after
    rcases f v s with ⟨_ | _, _⟩ <;> rfl
  · rfl
  · rfl
  · rcases hp : p v s with ⟨_ | b, _⟩
    · simp [Opt.filter, Opt.some, Opt.isNone, deref, after, hp]
    · cases b <;> simp [Opt.filter, Opt.some, Opt.isNone, deref, after, hp]

/-- C39, in-place operations: new content of the option and value returned (for Insert, GetOrInsert and
GetOrInsertWith: the value the returned pointer refers to). -/
theorem C39_option_update (o : Opt α) (v w : α) (g : Eff σ α) (s : σ) :
    o.insert w = (Opt.some w, some w) ∧
    (Opt.some v).getOrInsert w = (Opt.some v, some v) ∧
    (Opt.none : Opt α).getOrInsert w = (Opt.some w, some w) ∧
    (Opt.some v).getOrInsertWith g s = (.ok (Opt.some v, some v), s) ∧
    (Opt.none : Opt α).getOrInsertWith g s = after g (fun w => (Opt.some w, some w)) s ∧
    o.take = .ok (Opt.none, o) := by
  refine ⟨rfl, rfl, rfl, rfl, ?_, ?_⟩
  · show Eff.bind g (fun r => Pure.pure _) s = _
    unfold Eff.bind after
    rcases g s with ⟨_ | _, _⟩ <;> rfl
  · obtain ⟨_ | x⟩ := o <;> rfl

/-- C39, algebra: identity and composition of Map, idempotence of Filter, and Or/Xor as an algebra. -/
theorem C39_option_laws (a b c : Opt α) (f g : α → α) (p : α → Bool) (s : σ) :
    a.map (σ := σ) (fun x => pure x) s = (.ok a, s) ∧
    ((a.map (σ := σ) (fun x => pure (f x))) >>= fun o => o.map (fun x => pure (g x))) s =
      a.map (fun x => pure (g (f x))) s ∧
    ((a.filter (σ := σ) (fun x => pure (p x))) >>= fun o => o.filter (fun x => pure (p x))) s =
      a.filter (fun x => pure (p x)) s ∧
    (a.or b).or c = a.or (b.or c) ∧ a.or a = a ∧
    a.xor b = (if a.isSome && b.isSome then Opt.none else a.or b) ∧
    (a.xor b).isSome = Bool.xor a.isSome b.isSome := by
  obtain ⟨_ | x⟩ := a <;> obtain ⟨_ | y⟩ := b <;> obtain ⟨_ | z⟩ := c <;>
    refine ⟨rfl, rfl, ?_, rfl, rfl, rfl, rfl⟩ <;> try rfl
  all_goals
    rw [Eff.bind_run]
    simp only [Opt.filter, Opt.isNone, deref, Eff.pure_run]
    by_cases h : p x = true <;> simp [h, Opt.none]

/-- C39, Eq: two options are equal exactly when both are None, or both are Some with equal contents;
it panics only if contents must be compared and the type has no Eq method. -/
theorem C39_option_eq (e : α → α → Bool) (a b : Opt α) :
    Opt.eq (some e) a b = .ok (match optVal a, optVal b with
      | none, none => true
      | some x, some y => e x y
      | _, _ => false) ∧
    ((∃ p, Opt.eq none a b = .error p) ↔ a.isSome = true ∧ b.isSome = true) := by
  obtain ⟨_ | x⟩ := a <;> obtain ⟨_ | y⟩ := b <;>
    simp [Opt.eq, Opt.isNone, Opt.isSome, optVal, deref]

/-- C39, Clone: None gives None; Some(x) gives Some of the clone of x, equal to the original whenever the
Clone method of the contents is faithful to their Eq method; it panics exactly on a Some whose contents
have no Clone method. -/
theorem C39_option_clone (c : α → α) (e : α → α → Bool) (o : Opt α) :
    (∃ o', Opt.clone (some c) o = .ok o' ∧ optVal o' = (optVal o).map c ∧
      ((∀ x, e (c x) x = true) → Opt.eq (some e) o' o = .ok true)) ∧
    ((∃ p, Opt.clone none o = .error p) ↔ (optVal o).isSome = true) ∧
    (optVal o = none → Opt.clone none o = .ok o) := by
  obtain ⟨_ | x⟩ := o <;>
    simp +contextual [Opt.clone, Opt.eq, Opt.isNone, Opt.isSome, optVal, deref, Opt.none, Opt.some, bind, Except.bind]

example : Opt.clone (some (· + 0)) (Opt.some 5) = .ok (Opt.some 5) ∧
    Opt.clone none (Opt.none : Opt Nat) = .ok Opt.none ∧
    Opt.clone none (Opt.some 5) = .error .nilDeref := by decide

/-- A callback that counts its calls: run once on Some, not at all on None. -/
example : (Opt.some 5).map (fun x => fun n : Nat => (.ok (x + 1), n + 1)) 0 = (.ok (Opt.some 6), 1) ∧
    (Opt.none : Opt Nat).map (fun x => fun n : Nat => (.ok (x + 1), n + 1)) 0 = (.ok Opt.none, 0) := by
  decide

/-! ### C40 -/

/-- C40, full property: `None.And(x)` and `None.AndThen(f)` are None and `o.Replace(v)` returns `o` and
leaves `Some(v)`.  Proved: all of it for `Some`.  Missing: None, where every call violates it. -/
theorem C40_option_and_replace_partial (v w : α) (x : Opt (Option β))
    (f : α → Eff σ (Opt (Option β))) (s : σ) :
    (Opt.some v).and x = x ∧ (Opt.some v).andThen f s = f v s ∧
    (Opt.some v).replace w = .ok (Opt.some w, Opt.some v) := ⟨rfl, rfl, rfl⟩

/-- C40 is violated by every call on None: And and AndThen return a Some (holding nil), whatever the
argument, and Replace drops the value. -/
theorem C40_option_and_replace_fails (w : α) (x : Opt (Option β))
    (f : α → Eff σ (Opt (Option β))) (s : σ) :
    ((Opt.none : Opt α).and x).isNone = false ∧
    (∃ r, (Opt.none : Opt α).andThen f s = (.ok r, s) ∧ r.isNone = false) ∧
    (Opt.none : Opt α).replace w = .ok (Opt.none, Opt.none) := ⟨rfl, ⟨_, rfl, rfl⟩, rfl⟩

example : (Opt.some 1).replace 2 = .ok (Opt.some 2, Opt.some 1) ∧
    (Opt.none : Opt Nat).replace 2 ≠ .ok (Opt.some 2, Opt.none) := by decide

/-! ### C41 -/

variable {ε : Type u}

/-- C41: what the constructors denote. -/
theorem C41_result_constructors (v : α) (e : ε) :
    Denotes (Res.mkOk v : Res ε α) (.ok v) ∧ Denotes (Res.mkErr (some e) : Res ε α) (.error e) :=
  ⟨.ok v, .err e⟩

/-- C41: observers and extraction on results that denote `Ok v` / `Err e`. -/
theorem C41_result_observers (r : Res ε α) (x : Except ε α) (h : Denotes r x) (d : α) (g : Eff σ α)
    (p : α → Eff σ Bool) (q : Option ε → Eff σ Bool) (s : σ) :
    (r.isOk = true ↔ ∃ v, x = .ok v) ∧ (r.isErr = true ↔ ∃ e, x = .error e) ∧ r.isErr = !r.isOk ∧
    (∀ v, r.unwrap = .ok v ↔ x = .ok v) ∧ (∀ v, r.expect = .ok v ↔ x = .ok v) ∧
    (∀ e, r.unwrapErr = .ok e ↔ ∃ e', e = some e' ∧ x = .error e') ∧ r.expectErr = r.unwrapErr ∧
    r.unwrapOr d = .ok (match x with | .ok v => v | .error _ => d) ∧
    r.unwrapOrElse g s = (match x with | .ok v => (.ok v, s) | .error _ => g s) ∧
    r.isOkAnd p s = (match x with | .ok v => p v s | .error _ => (.ok false, s)) ∧
    r.isErrAnd q s = (match x with | .ok _ => (.ok false, s) | .error e => q (some e) s) ∧
    r.toOption = .ok (match x with | .ok v => Opt.some v | .error _ => Opt.none) ∧
    r.errOption = (match x with | .ok _ => Opt.none | .error e => Opt.some (some e)) := by
  cases h with
  | ok v =>
    refine ⟨by simp [Res.isOk], by simp [Res.isErr], rfl, ?_, ?_, ?_, rfl, rfl, rfl, rfl, rfl, rfl, rfl⟩ <;>
      intro w <;> simp [Res.unwrap, Res.expect, Res.unwrapErr, Res.isOk, Res.isErr, deref]
  | err e =>
    refine ⟨by simp [Res.isOk], by simp [Res.isErr], rfl, ?_, ?_, ?_, rfl, rfl, rfl, rfl, rfl, rfl, rfl⟩ <;>
      intro w <;> simp [Res.unwrap, Res.expect, Res.unwrapErr, Res.isOk, Res.isErr]
    exact eq_comm

/-- C41: combinators on results that denote `Ok v` / `Err e`, including when callbacks run. -/
theorem C41_result_combinators (r t : Res ε α) (x : Except ε α) (h : Denotes r x) (d : α)
    (f : α → Eff σ α) (g : Eff σ α) (k : Option ε → Eff σ (Option ε)) (op : α → Eff σ (Res ε α))
    (oe : Option ε → Eff σ (Res ε α)) (s : σ) :
    r.map f s = (match x with | .ok v => after (f v) Res.mkOk s | .error _ => (.ok r, s)) ∧
    r.mapErr k s = (match x with | .ok _ => (.ok r, s) | .error e => after (k (some e)) Res.mkErr s) ∧
    r.mapOr d f s = (match x with | .ok v => f v s | .error _ => (.ok d, s)) ∧
    r.mapOrElse g f s = (match x with | .ok v => f v s | .error _ => g s) ∧
    r.and t = (match x with | .ok _ => t | .error _ => r) ∧
    r.or t = (match x with | .ok _ => r | .error _ => t) ∧
    r.andThen op s = (match x with | .ok v => op v s | .error _ => (.ok r, s)) ∧
    r.orElse oe s = (match x with | .ok _ => (.ok r, s) | .error e => oe (some e) s) := by
  cases h with
  | ok v =>
    refine ⟨?_, rfl, rfl, rfl, rfl, rfl, rfl, rfl⟩
    show Eff.bind (f v) (fun r => Pure.pure (Res.mkOk r)) s = _
    unfold Eff.bind after
    rcases hh : f v s with ⟨_ | _, _⟩ <;> simp only [hh] <;> rfl
  | err e =>
    refine ⟨rfl, ?_, rfl, rfl, rfl, rfl, rfl, rfl⟩
    show Eff.bind (k (some e)) (fun r => Pure.pure (Res.mkErr r)) s = _
    unfold Eff.bind after
    rcases hh : k (some e) s with ⟨_ | _, _⟩ <;> simp only [hh] <;> rfl

/-- C41: every combinator whose callbacks return well-formed results (non-nil errors) and whose
arguments are well formed returns a well-formed result. -/
theorem C41_result_closed (r t : Res ε α) (hr : WF r) (ht : WF t)
    (f : α → Eff σ α) (k : Option ε → Eff σ (Option ε)) (op : α → Eff σ (Res ε α))
    (oe : Option ε → Eff σ (Res ε α)) (s : σ)
    (hk : ∀ e s, (k e s).1 ≠ .ok none) (hop : ∀ v s y, (op v s).1 = .ok y → WF y)
    (hoe : ∀ e s y, (oe e s).1 = .ok y → WF y) :
    (∀ y, (r.map f s).1 = .ok y → WF y) ∧ (∀ y, (r.mapErr k s).1 = .ok y → WF y) ∧
    WF (r.and t) ∧ WF (r.or t) ∧ (∀ y, (r.andThen op s).1 = .ok y → WF y) ∧
    (∀ y, (r.orElse oe s).1 = .ok y → WF y) := by
  have hr0 := hr
  obtain ⟨x, hx⟩ := hr
  cases hx with
  | ok v =>
    refine ⟨?_, ?_, ht, hr0, fun y hy => hop v s y hy, ?_⟩
    · intro y hy
      have e : (⟨some v, none⟩ : Res ε α).map f s = after (f v) Res.mkOk s := by
        show Eff.bind (f v) (fun r => Pure.pure (Res.mkOk r)) s = _
        unfold Eff.bind after
        rcases f v s with ⟨_ | _, _⟩ <;> rfl
      rw [e, after] at hy
      rcases hf : f v s with ⟨_ | w, _⟩
      · rw [hf] at hy; cases hy
      · rw [hf] at hy; cases hy; exact ⟨_, .ok w⟩
    · intro y hy; cases hy; exact hr0
    · intro y hy; cases hy; exact hr0
  | err e =>
    refine ⟨?_, ?_, hr0, ht, ?_, fun y hy => hoe (some e) s y hy⟩
    · intro y hy; cases hy; exact hr0
    · intro y hy
      have e' : (⟨none, some e⟩ : Res ε α).mapErr k s = after (k (some e)) Res.mkErr s := by
        show Eff.bind (k (some e)) (fun r => Pure.pure (Res.mkErr r)) s = _
        unfold Eff.bind after
        rcases k (some e) s with ⟨_ | _, _⟩ <;> rfl
      rw [e', after] at hy
      have hk' := hk (some e) s
      rcases hf : k (some e) s with ⟨_ | w, _⟩
      · rw [hf] at hy; cases hy
      · rw [hf] at hy hk'
        cases w with
        | none => exact absurd rfl hk'
        | some w => cases hy; exact ⟨_, .err w⟩
    · intro y hy; cases hy; exact hr0

/-- C41: Eq compares contents (Ok with the type's Eq, Err with Go's equality of errors, which may panic: C151). -/
theorem C41_result_eq (e : α → α → Bool) (eqE : ε → ε → Go Bool) (r t : Res ε α) (x y : Except ε α)
    (hr : Denotes r x) (ht : Denotes t y) :
    Res.eq (some e) eqE r t = (match x, y with
      | .ok a, .ok b => .ok (e a b)
      | .error a, .error b => eqE a b
      | _, _ => .ok false) := by
  cases hr <;> cases ht <;> rfl

/-- C41: Clone keeps the error and clones the contents; the clone is well formed, and equal to the original whenever
the Clone method of the contents is faithful to their Eq method and Go's equality of errors is reflexive on the error;
it panics exactly on an Ok whose contents have no Clone method. -/
theorem C41_result_clone (c : α → α) (e : α → α → Bool) (eqE : ε → ε → Go Bool) (r : Res ε α) (x : Except ε α)
    (h : Denotes r x) :
    (∃ r', Res.clone (some c) r = .ok r' ∧ Denotes r' (x.map c) ∧
      ((∀ v, e (c v) v = true) → (∀ w, x = .error w → eqE w w = .ok true) → Res.eq (some e) eqE r' r = .ok true)) ∧
    ((∃ p, Res.clone none r = .error p) ↔ ∃ v, x = .ok v) ∧
    ((∃ w, x = .error w) → Res.clone none r = .ok r) := by
  cases h with
  | ok v =>
    refine ⟨⟨⟨some (c v), none⟩, rfl, .ok _, fun h _ => ?_⟩, ⟨fun _ => ⟨v, rfl⟩, fun _ => ⟨_, rfl⟩⟩, ?_⟩
    · show Except.ok (e (c v) v) = _
      rw [h]
    · rintro ⟨w, hw⟩; cases hw
  | err w =>
    refine ⟨⟨⟨none, some w⟩, rfl, .err _, fun _ h => ?_⟩, ⟨?_, ?_⟩, fun _ => rfl⟩
    · show eqE w w = _
      rw [h w rfl]
    · rintro ⟨p, hp⟩; cases hp
    · rintro ⟨v, hv⟩; cases hv

example : Res.clone (some (· + 0)) (Res.mkOk 5 : Res String Nat) = .ok (Res.mkOk 5) ∧
    Res.clone none (Res.mkErr (some "no") : Res String Nat) = .ok (Res.mkErr (some "no")) ∧
    Res.clone none (Res.mkOk 5 : Res String Nat) = .error .nilDeref := by decide

/-- The hypotheses of the closure theorem are met by real callbacks, and the laws are not vacuous. -/
example : Denotes (Res.mkOk 3 : Res String Nat) (.ok 3) ∧
    (Res.mkOk 3 : Res String Nat).map (fun x => fun n : Nat => (.ok (x + 1), n + 1)) 0 =
      (.ok (Res.mkOk 4), 1) ∧
    (Res.mkErr (some "no") : Res String Nat).map (fun x => fun n : Nat => (.ok (x + 1), n + 1)) 0 =
      (.ok (Res.mkErr (some "no")), 0) := ⟨.ok 3, by decide, by decide⟩

example : ∀ y, ((Res.mkErr (some "no") : Res String Nat).orElse
    (σ := Unit) (fun e s => (.ok ⟨none, e.map (· ++ "!")⟩, s)) ()).1 = .ok y → WF y := by
  intro y hy
  cases hy
  exact ⟨_, .err "no!"⟩

/-! ### C151 -/

/-- C151, full property: Eq of two Results returns, and says whether both hold equal values or both hold equal
errors; a Result equals itself.  Proved: for Results that hold a value or an error, Eq returns unless both hold
errors of the same type that `==` can not compare, and is true exactly if both hold equal values or both hold
errors of one type that `==` finds equal; so it is true of a Result and itself exactly if the contents are equal to
themselves.  Missing: see `C151_result_eq_fails`. -/
theorem C151_result_eq_partial (e : α → α → Bool) (T : ErrTypes ε) (r t : Res ε α) (hr : WF r) (ht : WF t) :
    ((∃ b, Res.eq (some e) T.eq r t = .ok b) ↔
      ¬ ∃ x y, r.err = some x ∧ t.err = some y ∧ T.type x = T.type y ∧ T.equal x y = none) ∧
    (Res.eq (some e) T.eq r t = .ok true ↔
      (∃ v w, r.ok = some v ∧ t.ok = some w ∧ e v w = true) ∨
      ∃ x y, r.err = some x ∧ t.err = some y ∧ T.type x = T.type y ∧ T.equal x y = some true) ∧
    (Res.eq (some e) T.eq r r = .ok true ↔
      (∀ v, r.ok = some v → e v v = true) ∧ ∀ x, r.err = some x → T.equal x x = some true) := by
  obtain ⟨x, hx⟩ := hr
  obtain ⟨y, hy⟩ := ht
  have h3 : Res.eq (some e) T.eq r r = .ok true ↔
      (∀ v, r.ok = some v → e v v = true) ∧ ∀ x, r.err = some x → T.equal x x = some true := by
    cases hx with
    | ok v =>
      show Except.ok (e v v) = _ ↔ _
      simp
    | err w =>
      show T.eq w w = _ ↔ _
      unfold ErrTypes.eq
      rw [if_neg (by simp)]
      cases h : T.equal w w <;> simp [h]
  refine ⟨?_, ?_, h3⟩
  · cases hx <;> cases hy
    case ok.ok v w => exact ⟨fun _ => by simp, fun _ => ⟨_, rfl⟩⟩
    case ok.err v w => exact ⟨fun _ => by simp, fun _ => ⟨_, rfl⟩⟩
    case err.ok v w => exact ⟨fun _ => by simp, fun _ => ⟨_, rfl⟩⟩
    case err.err v w =>
      show (∃ b, T.eq v w = .ok b) ↔ _
      unfold ErrTypes.eq
      by_cases h : T.type v = T.type w
      · rw [if_neg (by simpa using h)]
        cases h' : T.equal v w <;> simp [h, h']
      · rw [if_pos h]
        simp [h]
  · cases hx <;> cases hy
    case ok.ok v w =>
      show Except.ok (e v w) = _ ↔ _
      simp
    case ok.err v w =>
      show Except.ok false = _ ↔ _
      simp
    case err.ok v w =>
      show Except.ok false = _ ↔ _
      simp
    case err.err v w =>
      show T.eq v w = _ ↔ _
      unfold ErrTypes.eq
      by_cases h : T.type v = T.type w
      · rw [if_neg (by simpa using h)]
        cases h' : T.equal v w <;> simp [h, h']
      · rw [if_pos h]
        simp [h]

/-- C151 is violated: two Results that hold errors of the same type that `==` can not compare (such as a slice of
errors) make Eq panic, even a Result and itself; and the Result of `Err(nil)`, or one that was only declared, is
not equal to itself. -/
theorem C151_result_eq_fails (e : α → α → Bool) (T : ErrTypes ε) (x y : ε) (h : T.type x = T.type y)
    (hn : T.equal x y = none) :
    Res.eq (some e) T.eq (Res.mkErr (some x)) (Res.mkErr (some y)) = .error .uncomparable ∧
    Res.eq (some e) T.eq (Res.mkErr none) (Res.mkErr none) = .ok false := by
  refine ⟨?_, rfl⟩
  show T.eq x y = _
  unfold ErrTypes.eq
  rw [if_neg (by simpa using h), hn]

/-- Errors for the examples: messages behind pointers (type 0, compared by address), and lists of messages (type 1,
not comparable). -/
def exErrTypes : ErrTypes (Nat ⊕ List Nat) where
  type x := match x with | .inl _ => 0 | .inr _ => 1
  equal x y := match x, y with | .inl a, .inl b => some (a == b) | _, _ => none
example : let r (x : Nat ⊕ List Nat) : Res (Nat ⊕ List Nat) Nat := Res.mkErr (some x)
    Res.eq (some (· == ·)) exErrTypes.eq (r (.inl 7)) (r (.inl 7)) = .ok true ∧
    Res.eq (some (· == ·)) exErrTypes.eq (r (.inl 7)) (r (.inl 8)) = .ok false ∧
    Res.eq (some (· == ·)) exErrTypes.eq (r (.inl 7)) (r (.inr [7])) = .ok false ∧
    Res.eq (some (· == ·)) exErrTypes.eq (r (.inr [7])) (r (.inr [7])) = .error .uncomparable := by decide
example : WF (Res.mkErr (some (.inl 7)) : Res (Nat ⊕ List Nat) Nat) := ⟨_, .err _⟩

end Gost
