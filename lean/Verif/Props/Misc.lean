import Verif.Model.Misc
import Verif.Spec.Order
/-
Properties C42 - C44: If/ElseIf/Else chains, pairs, assertions.
-/
namespace Gost
open Spec

variable {σ : Type v} {α : Type u}

/-! ### C42 -/

/-- Specification of a conditional chain: run the first branch whose condition holds, and nothing
else. -/
def Spec.firstTrue : List (Bool × Eff σ α) → Eff σ α → Eff σ α
  | [], e => e
  | (c, x) :: rest, e => if c then x else Spec.firstTrue rest e

/-- The number of true conditions. -/
def Spec.trueCount (l : List (Bool × Eff σ α)) : Nat := l.countP (·.1)

theorem IfCtx.chainFrom_false (ctx : IfCtx α) (rest : List (Bool × Eff σ α)) (e : Eff σ α)
    (h : Spec.trueCount rest = 0) : IfCtx.chainFrom ctx rest e = ctx.els e := by
  induction rest with
  | nil => rfl
  | cons cx rest ih =>
    obtain ⟨c, x⟩ := cx
    cases c with
    | true => simp [Spec.trueCount] at h
    | false =>
      simp only [IfCtx.chainFrom, IfCtx.elseIf, Bool.false_eq_true, if_false, Eff.pure_bind]
      exact ih (by simpa [Spec.trueCount] using h)

theorem IfCtx.chainFrom_one (rest : List (Bool × Eff σ α)) (e : Eff σ α)
    (h : Spec.trueCount rest ≤ 1) :
    IfCtx.chainFrom ⟨none⟩ rest e = Spec.firstTrue rest e := by
  induction rest with
  | nil => rfl
  | cons cx rest ih =>
    obtain ⟨c, x⟩ := cx
    cases c with
    | true =>
      have h0 : Spec.trueCount rest = 0 := by simp [Spec.trueCount] at h ⊢; omega
      simp only [IfCtx.chainFrom, IfCtx.elseIf, if_true, Spec.firstTrue, Eff.bind_assoc, Eff.pure_bind]
      simp only [IfCtx.chainFrom_false _ _ _ h0, IfCtx.els]
      exact Eff.bind_pure x
    | false =>
      simp only [IfCtx.chainFrom, IfCtx.elseIf, Bool.false_eq_true, if_false, Eff.pure_bind,
        Spec.firstTrue]
      exact ih (by simpa [Spec.trueCount] using h)

theorem IfCtx.chain_eq (c0 : Bool) (e0 : Eff σ α) (rest : List (Bool × Eff σ α)) (e : Eff σ α) :
    IfCtx.chain c0 e0 rest e = IfCtx.chainFrom ⟨none⟩ ((c0, e0) :: rest) e := rfl

/-- The last true branch's value, if any. -/
def Spec.lastTrue (l : List (Bool × α)) : Option α := ((l.filter (·.1)).getLast?).map (·.2)
/-- The first true branch's value, if any. -/
def Spec.firstTrueVal (l : List (Bool × α)) : Option α := ((l.filter (·.1)).head?).map (·.2)

/-- Branches that only return a value. -/
def pureBranches (σ : Type v) (l : List (Bool × α)) : List (Bool × Eff σ α) :=
  l.map fun cx => (cx.1, pure cx.2)

theorem IfCtx.chainFrom_pure (ctx : IfCtx α) (l : List (Bool × α)) (d : α) (s : σ) :
    IfCtx.chainFrom ctx (pureBranches σ l) (pure d) s =
      (.ok ((Spec.lastTrue l).getD (ctx.returnValue.getD d)), s) := by
  induction l generalizing ctx with
  | nil => obtain ⟨_ | v⟩ := ctx <;> rfl
  | cons cx l ih =>
    obtain ⟨c, x⟩ := cx
    cases c with
    | true =>
      simp only [pureBranches, List.map_cons, IfCtx.chainFrom, IfCtx.elseIf, if_true, Eff.pure_bind]
      have := ih ⟨some x⟩
      simp only [pureBranches] at this
      rw [this]
      simp only [Spec.lastTrue, List.filter_cons, if_true]
      cases hl : List.filter (fun cx : Bool × α => cx.1) l with
      | nil => simp
      | cons y ys => simp [List.getLast?_cons]
    | false =>
      simp only [pureBranches, List.map_cons, IfCtx.chainFrom, IfCtx.elseIf, Bool.false_eq_true,
        if_false, Eff.pure_bind]
      have := ih ctx
      simp only [pureBranches] at this
      rw [this]
      simp [Spec.lastTrue]

/-- C42, full property: a chain runs the first true branch and nothing else, for every chain.  Proved:
for every chain of any length with at most one true condition, whatever its branches do; and, for
branches that only return values, the result is right exactly if the first and the last true branch
have the same value.  Missing: chains with several true conditions (see `C42_chain_fails`). -/
theorem C42_chain_partial :
    (∀ (c0 : Bool) (e0 : Eff σ α) (rest : List (Bool × Eff σ α)) (e : Eff σ α),
      Spec.trueCount ((c0, e0) :: rest) ≤ 1 →
      IfCtx.chain c0 e0 rest e = Spec.firstTrue ((c0, e0) :: rest) e) ∧
    (∀ (c0 : Bool) (v0 : α) (rest : List (Bool × α)) (d : α) (s : σ),
      (IfCtx.chain c0 (pure v0) (pureBranches σ rest) (pure d) s =
          (.ok ((Spec.firstTrueVal ((c0, v0) :: rest)).getD d), s) ↔
        Spec.lastTrue ((c0, v0) :: rest) = Spec.firstTrueVal ((c0, v0) :: rest))) := by
  constructor
  · intro c0 e0 rest e h
    rw [IfCtx.chain_eq]
    exact IfCtx.chainFrom_one _ _ h
  · intro c0 v0 rest d s
    rw [IfCtx.chain_eq]
    have := IfCtx.chainFrom_pure (σ := σ) ⟨none⟩ ((c0, v0) :: rest) d s
    simp only [pureBranches, List.map_cons] at this ⊢
    rw [this]
    unfold Spec.lastTrue Spec.firstTrueVal
    cases List.filter (fun cx : Bool × α => cx.1) ((c0, v0) :: rest) with
    | nil => simp
    | cons y ys => simp [List.getLast?_cons]

/-- C42 is violated by every chain whose first branch and some later branch are both enabled: if the
last enabled branch returns another value, that value is the result; and in any case the first two
enabled branches are both executed. -/
theorem C42_chain_fails (v0 v1 d : α) (rest : List (Bool × α)) (h : Spec.lastTrue rest = some v1)
    (hne : v1 ≠ v0) (s : σ) :
    IfCtx.chain true (pure v0) (pureBranches σ rest) (pure d) s = (.ok v1, s) ∧
    IfCtx.chain true (pure v0) (pureBranches σ rest) (pure d) s ≠
      Spec.firstTrue ((true, pure v0) :: pureBranches σ rest) (pure d) s := by
  have h1 : IfCtx.chain true (pure v0) (pureBranches σ rest) (pure d) s = (.ok v1, s) := by
    show IfCtx.chainFrom ⟨some v0⟩ (pureBranches σ rest) (pure d) s = _
    rw [IfCtx.chainFrom_pure, h]
    rfl
  refine ⟨h1, ?_⟩
  rw [h1]
  show (Except.ok v1, s) ≠ (Except.ok v0, s)
  intro h
  injection h with h _
  injection h with h
  exact hne h

/-- Both branches run: two counted effects instead of one. -/
example : IfCtx.chain (σ := Nat) true (fun n => (.ok 1, n + 1)) [(true, fun n => (.ok 2, n + 1))]
    (fun n => (.ok 3, n + 1)) 0 = (.ok 2, 2) := by decide

example : IfCtx.chain (σ := Nat) false (fun n => (.ok 1, n + 1))
    [(false, fun n => (.ok 2, n + 1)), (true, fun n => (.ok 3, n + 10)), (false, fun n => (.ok 4, n + 1))]
    (fun n => (.ok 5, n + 1)) 0 = (.ok 3, 10) := by decide

/-! ### C43 -/

variable {K : Type u} {V : Type v}

/-- Specification: lexicographic comparison. -/
def Spec.lex (ck : K → K → Ordering) (cv : V → V → Ordering) (p q : Pair K V) : Ordering :=
  (ck p.key q.key).then (cv p.value q.value)

/-- C43: with lawful component orders, Pair.Cmp never panics, is the lexicographic order, and together
with Pair.Eq forms a lawful order again; Pair.Eq is componentwise equality. -/
theorem C43_pair_cmp (ck : K → K → Ordering) (ek : K → K → Bool) (cv : V → V → Ordering)
    (ev : V → V → Bool) (hk : LawfulOrd ck ek) (hv : LawfulOrd cv ev) :
    (∀ p q, Pair.cmp (some ck) (some cv) p q = .ok (Spec.lex ck cv p q)) ∧
    (∀ p q, Pair.eq (some ek) (some ev) p q = .ok (ek p.key q.key && ev p.value q.value)) ∧
    LawfulOrd (Spec.lex ck cv) (fun p q => ek p.key q.key && ev p.value q.value) ∧
    (∀ p q, Spec.lex ck cv p q = .lt ↔
      ck p.key q.key = .lt ∨ (ck p.key q.key = .eq ∧ cv p.value q.value = .lt)) := by
  refine ⟨?_, fun _ _ => rfl, ⟨?_, ?_, ?_⟩, ?_⟩
  · intro p q
    unfold Pair.cmp Spec.lex
    cases h : ck p.key q.key <;> simp [h, Ordering.then]
  · intro p q
    unfold Spec.lex
    rw [hk.swap p.key q.key, hv.swap p.value q.value]
    cases ck p.key q.key <;> simp [Ordering.then, Ordering.swap]
  · intro p q r h1 h2
    unfold Spec.lex at *
    have t := hk.trans p.key q.key r.key
    have t1 := hk.trans q.key r.key p.key
    have t2 := hk.trans r.key p.key q.key
    have tv := hv.trans p.value q.value r.value
    rw [hk.swap p.key r.key] at t1 t2
    rw [hk.swap q.key r.key] at t2
    rw [hk.swap p.key q.key] at t1
    cases e1 : ck p.key q.key <;> cases e2 : ck q.key r.key <;> cases e3 : ck p.key r.key <;>
      simp_all [Ordering.then, Ordering.swap]
  · intro p q
    unfold Spec.lex
    rw [Bool.and_eq_true, hk.eq_iff, hv.eq_iff]
    cases ck p.key q.key <;> simp [Ordering.then]
  · intro p q
    unfold Spec.lex
    cases ck p.key q.key <;> simp [Ordering.then]

/-- C43: without the component methods the comparison panics instead of guessing: Cmp needs the
value's order exactly if the keys are equal. -/
theorem C43_pair_missing_methods (ck : K → K → Ordering) (p q : Pair K V) :
    (∃ e, Pair.cmp none (none : Option (V → V → Ordering)) p q = .error e) ∧
    ((∃ e, Pair.cmp (some ck) none p q = .error e) ↔ ck p.key q.key = .eq) := by
  refine ⟨⟨_, rfl⟩, ?_⟩
  unfold Pair.cmp
  by_cases h : ck p.key q.key = .eq <;> simp [h]

/-- C43, Clone: componentwise, equal to the original whenever the Clone methods of the components are faithful to
their Eq methods; it panics exactly if a component has no Clone method. -/
theorem C43_pair_clone (ek : K → K → Bool) (ev : V → V → Bool) (ck : Option (K → K)) (cv : Option (V → V)) (p : Pair K V) :
    (∀ fk fv, ck = some fk → cv = some fv → ∃ q, Pair.clone ck cv p = .ok q ∧ q.key = fk p.key ∧ q.value = fv p.value ∧
      ((∀ k, ek (fk k) k = true) → (∀ v, ev (fv v) v = true) → Pair.eq (some ek) (some ev) q p = .ok true)) ∧
    ((∃ e, Pair.clone ck cv p = .error e) ↔ ck = none ∨ cv = none) := by
  cases ck with
  | none => exact ⟨fun _ _ h => (by cases h), fun _ => .inl rfl, fun _ => ⟨_, rfl⟩⟩
  | some fk =>
    cases cv with
    | none => exact ⟨fun _ _ _ h => (by cases h), fun _ => .inr rfl, fun _ => ⟨_, rfl⟩⟩
    | some fv =>
      refine ⟨fun _ _ h1 h2 => ?_, fun ⟨e, h⟩ => (by cases h), fun h => by rcases h with h | h <;> cases h⟩
      cases h1; cases h2
      exact ⟨⟨fk p.key, fv p.value⟩, rfl, rfl, rfl, fun h1 h2 => by simp [Pair.eq, h1, h2]⟩

example : Pair.clone (some id) (some (· + 0)) (⟨1, 2⟩ : Pair Nat Nat) = .ok ⟨1, 2⟩ ∧
    Pair.clone (some id) none (⟨1, 2⟩ : Pair Nat Nat) = .error .nilDeref := by decide

/-- A lawful order on `Nat`, to instantiate the hypotheses. -/
theorem natCmp_lawful : LawfulOrd (compare : Nat → Nat → Ordering) (fun a b => a == b) where
  swap a b := by rw [← Nat.compare_swap]
  trans a b c := by simp only [ne_eq, Nat.compare_eq_gt]; omega
  eq_iff a b := by simp

example : Pair.cmp (some (compare : Nat → Nat → Ordering)) (some (compare : Nat → Nat → Ordering))
    ⟨1, 5⟩ ⟨1, 7⟩ = .ok .lt := by
  rw [(C43_pair_cmp _ _ _ _ natCmp_lawful natCmp_lawful).1]; rfl

/-! ### C44 -/

variable {S A : Type}

/-- C44: Assert returns normally exactly when the condition holds, whatever the message arguments and
even if formatting the message panics. -/
theorem C44_assert (format : S → List (Arg S A) → Go S) (msg : S) (args : List (Arg S A)) (b : Bool) :
    (Assert.assert format msg b args = .ok () ↔ b = true) ∧
    ((∃ e, Assert.assert format msg b args = .error e) ↔ b = false) := by
  have h : b = false → ∃ e, Assert.assert format msg b args = .error e := by
    rintro rfl
    unfold Assert.assert
    simp only [Bool.not_false, if_true]
    split
    · rename_i m rest
      rcases format m _ with e | _
      · exact ⟨e, rfl⟩
      · exact ⟨_, rfl⟩
    · rcases format msg [] with e | _
      · exact ⟨e, rfl⟩
      · exact ⟨_, rfl⟩
  cases b with
  | true => simp [Assert.assert]
  | false =>
    obtain ⟨e, he⟩ := h rfl
    simp [he]

/-- C44: AssertEq returns normally exactly when `a.Eq(b)` returns true, AssertNe exactly when it
returns false, for every Eq implementation. -/
theorem C44_assertEq_Ne (eq : α → α → Go Bool) (fmt2 : α → α → Go Unit)
    (format : S → List (Arg S A) → Go S) (args : List (Arg S A)) (a b : α) :
    (Assert.assertEq eq fmt2 format a b args = .ok () ↔ eq a b = .ok true) ∧
    (Assert.assertNe eq fmt2 format a b args = .ok () ↔ eq a b = .ok false) := by
  unfold Assert.assertEq Assert.assertNe
  rcases eq a b with e | b'
  · simp
  · cases b' with
    | true =>
      simp only [Bool.not_true, Bool.false_eq_true, if_false, if_true, Except.ok.injEq, true_and]
      rcases fmt2 a b with e | _
      · simp
      · simp only
        rcases Assert.extra format args with e | _ <;> simp
    | false =>
      simp only [Bool.not_false, Bool.false_eq_true, if_false, if_true, Except.ok.injEq]
      refine ⟨?_, trivial⟩
      rcases fmt2 a b with e | _
      · simp
      · simp only
        rcases Assert.extra format args with e | _ <;> simp

example : Assert.assertEq (fun a b : Nat => .ok (a == b)) (fun _ _ => .ok ())
    (fun s (_ : List (Arg String Nat)) => .ok s) 3 4 [.goString "no"] = .error .explicit := by decide

end Gost
