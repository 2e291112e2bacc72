import Verif.Go
/-
Models of /repo/syntax.go, /repo/pair.go and /repo/panic.go.
-/
namespace Gost

/-! ### syntax.go -/

/-- syntax.go:8-10 `ifElseContext[T]`. -/
structure IfCtx (α : Type u) where
  returnValue : Option α

namespace IfCtx
variable {σ : Type v} {α : Type u}

/-- syntax.go:23-32 If. -/
def ifNew (condition : Bool) (expression : Eff σ α) : Eff σ (IfCtx α) :=
  if condition then do
    let value ← expression
    pure ⟨some value⟩
  else pure ⟨none⟩

/-- syntax.go:34-40 Else. -/
def els (self : IfCtx α) (expression : Eff σ α) : Eff σ α :=
  match self.returnValue with
  | some v => pure v
  | none => expression

/-- syntax.go:42-49 ElseIf. -/
def elseIf (self : IfCtx α) (condition : Bool) (expression : Eff σ α) : Eff σ (IfCtx α) :=
  if condition then do
    let value ← expression
    pure ⟨some value⟩
  else pure self

/-- The user's chain `….ElseIf(c1, e1).ElseIf(c2, e2)…Else(e)` applied to a context. -/
def chainFrom (ctx : IfCtx α) : List (Bool × Eff σ α) → Eff σ α → Eff σ α
  | [], e => ctx.els e
  | (c, x) :: rest, e => do
    let ctx ← ctx.elseIf c x
    chainFrom ctx rest e

/-- The user's chain `If(c0, e0).ElseIf(c1, e1)….Else(e)`. -/
def chain (c0 : Bool) (e0 : Eff σ α) (rest : List (Bool × Eff σ α)) (e : Eff σ α) : Eff σ α := do
  let ctx ← ifNew c0 e0
  chainFrom ctx rest e

end IfCtx

/-! ### pair.go -/

/-- pair.go:6-9 `Pair[K, V]`. -/
structure Pair (K : Type u) (V : Type v) where
  key : K
  value : V
  deriving DecidableEq, Repr

namespace Pair
variable {K : Type u} {V : Type v}

/-- pair.go:45-53 Clone; the arguments are the components' Clone methods (castToClone), if any. -/
def clone (cK : Option (K → K)) (cV : Option (V → V)) (p : Pair K V) : Go (Pair K V) :=
  match cK with
  | none => .error .nilDeref
  | some ck => match cV with
    | none => .error .nilDeref
    | some cv => .ok ⟨ck p.key, cv p.value⟩

/-- pair.go:56-61 Eq; the arguments are the components' Eq methods (castToEq), if any. -/
def eq (eK : Option (K → K → Bool)) (eV : Option (V → V → Bool)) (p other : Pair K V) : Go Bool :=
  match eK with
  | none => .error .nilDeref
  | some ek => match eV with
    | none => .error .nilDeref
    | some ev =>
      let keyEq := ek p.key other.key
      let valueEq := ev p.value other.value
      .ok (keyEq && valueEq)

/-- pair.go:64-73 Cmp; the arguments are the components' Cmp methods (cmp.go:198-206 castToOrd), if any. -/
def cmp (oK : Option (K → K → Ordering)) (oV : Option (V → V → Ordering)) (p other : Pair K V) :
    Go Ordering :=
  match oK with
  | none => .error .nilDeref
  | some ok =>
    let keyOrd := ok p.key other.key
    if keyOrd = .eq then
      match oV with
      | none => .error .nilDeref
      | some ov => .ok (ov p.value other.value)
    else .ok keyOrd

end Pair

/-! ### panic.go -/

/-- A variadic argument as far as panic.go looks at it: a gost `String`, a Go `string`, or another
value. -/
inductive Arg (S A : Type) where
  | gostString (s : S)
  | goString (s : S)
  | other (a : A)

namespace Assert
variable {S A : Type} {α : Type v}

/-- panic.go:13-23 Assert.  `format` is `Format` (io.go:18), which may itself panic. -/
def assert (format : S → List (Arg S A) → Go S) (msg : S) (condition : Bool) (args : List (Arg S A)) :
    Go Unit :=
  if !condition then
    match args with
    | .gostString m :: _ => do
      let _ ← format m args
      .error .explicit
    | _ => do
      let _ ← format msg []
      .error .explicit
  else .ok ()

/-- panic.go:32-43, 53-64: the extra message. -/
def extra (format : S → List (Arg S A) → Go S) (args : List (Arg S A)) : Go Unit :=
  match args with
  | .gostString m :: _ => do let _ ← format m args; .ok ()
  | .goString m :: _ => do let _ ← format m args; .ok ()
  | _ => .ok ()

/-- panic.go:28-44 AssertEq; `eq` is the Eq method of the type, which may panic; `fmt2` is
`Format("assertion failed: {} != {}", lhs, rhs)`. -/
def assertEq (eq : α → α → Go Bool) (fmt2 : α → α → Go Unit) (format : S → List (Arg S A) → Go S)
    (lhs rhs : α) (args : List (Arg S A)) : Go Unit :=
  match eq lhs rhs with
  | .error e => .error e
  | .ok b =>
    if !b then
      match fmt2 lhs rhs with
      | .error e => .error e
      | .ok _ => match extra format args with
        | .error e => .error e
        | .ok _ => .error .explicit
    else .ok ()

/-- panic.go:49-65 AssertNe. -/
def assertNe (eq : α → α → Go Bool) (fmt2 : α → α → Go Unit) (format : S → List (Arg S A) → Go S)
    (lhs rhs : α) (args : List (Arg S A)) : Go Unit :=
  match eq lhs rhs with
  | .error e => .error e
  | .ok b =>
    if b then
      match fmt2 lhs rhs with
      | .error e => .error e
      | .ok _ => match extra format args with
        | .error e => .error e
        | .ok _ => .error .explicit
    else .ok ()

end Assert
end Gost
