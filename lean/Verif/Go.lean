/-
The fragment of the Go language semantics the model relies on.
No file of /repo is modelled here; this is the part of the trusted base that says what
Go's run-time checks do.
-/
namespace Gost

/-- The run-time panics the modelled code can raise. -/
inductive Panic where
  /-- `a[i]` with `i` outside the slice. -/
  | indexOutOfRange
  /-- `a[i:j]` with bounds outside the slice's capacity. -/
  | sliceBounds
  /-- dereference of a nil pointer (this is also what `Option.Unwrap` on `None` does). -/
  | nilDeref
  /-- integer division (or remainder) by zero. -/
  | divideByZero
  /-- shift by a negative amount. -/
  | negativeShift
  /-- `make([]T, n)` with `n` not representable as a non-negative `int`. -/
  | makeLen
  /-- assignment to an entry of a nil map. -/
  | nilMap
  /-- a map access with an interface key whose dynamic type is not comparable. -/
  | unhashable
  /-- `==` on two interface values of the same dynamic type that is not comparable. -/
  | uncomparable
  /-- unbounded recursion (in Go a fatal error rather than a panic). -/
  | stackOverflow
  /-- an explicit call of `panic`/`Panic` in the library. -/
  | explicit
  deriving DecidableEq, Repr

/-- A Go computation that may panic.  A panic ends the execution. -/
abbrev Go (α : Type u) := Except Panic α

@[simp] theorem Go.bind_ok {α β : Type u} (a : α) (f : α → Go β) : (Except.ok a >>= f) = f a := rfl
@[simp] theorem Go.bind_error {α β : Type u} (e : Panic) (f : α → Go β) :
    ((Except.error e : Go α) >>= f) = .error e := rfl

/-- A computation that may panic and may read and change the state `σ` of the rest of the program.
User callbacks are such computations, for an arbitrary `σ`; the state is kept when they panic, so that
what was executed before a panic is visible. -/
def Eff (σ : Type v) (α : Type u) := σ → Except Panic α × σ

namespace Eff
variable {σ : Type v} {α β : Type u}
/-- Return a value without any effect. -/
def pure (a : α) : Eff σ α := fun s => (.ok a, s)
/-- Sequencing; a panic skips the rest. -/
def bind (x : Eff σ α) (f : α → Eff σ β) : Eff σ β := fun s =>
  match x s with
  | (.ok a, s') => f a s'
  | (.error e, s') => (.error e, s')
instance : Monad (Eff σ) where
  pure := Eff.pure
  bind := Eff.bind
/-- A panic. -/
def panic (e : Panic) : Eff σ α := fun s => (.error e, s)
/-- A computation without effects on `σ`. -/
def lift (x : Go α) : Eff σ α := fun s => (x, s)

@[simp] theorem pure_run (a : α) (s : σ) : (Pure.pure a : Eff σ α) s = (.ok a, s) := rfl
@[simp] theorem panic_run (e : Panic) (s : σ) : (panic e : Eff σ α) s = (.error e, s) := rfl
@[simp] theorem lift_run (x : Go α) (s : σ) : (lift x : Eff σ α) s = (x, s) := rfl
theorem bind_run (x : Eff σ α) (f : α → Eff σ β) (s : σ) :
    (x >>= f) s = match x s with | (.ok a, s') => f a s' | (.error e, s') => (.error e, s') := rfl
@[simp] theorem pure_bind (a : α) (f : α → Eff σ β) : (Pure.pure a >>= f) = f a := rfl
@[simp] theorem panic_bind (e : Panic) (f : α → Eff σ β) : (panic e >>= f) = panic e := rfl
@[simp] theorem lift_ok (a : α) : (lift (.ok a) : Eff σ α) = Pure.pure a := rfl
@[simp] theorem lift_error (e : Panic) : (lift (.error e) : Eff σ α) = panic e := rfl
@[simp] theorem bind_pure (x : Eff σ α) : (x >>= Pure.pure) = x := by
  funext s; rw [bind_run]; rcases x s with ⟨_ | _, _⟩ <;> rfl
theorem bind_assoc {γ : Type u} (x : Eff σ α) (f : α → Eff σ β) (g : β → Eff σ γ) :
    ((x >>= f) >>= g) = x >>= fun a => f a >>= g := by
  funext s; simp only [bind_run]; rcases x s with ⟨_ | _, _⟩ <;> rfl
instance : LawfulMonad (Eff σ) := LawfulMonad.mk'
  (id_map := fun x => bind_pure x)
  (pure_bind := fun _ _ => rfl)
  (bind_assoc := fun x f g => bind_assoc x f g)
end Eff

/-- Dereference of a pointer that may be nil. -/
def deref {α : Type u} : Option α → Go α
  | none => .error .nilDeref
  | some v => .ok v

@[simp] theorem deref_some {α : Type u} (v : α) : deref (some v) = .ok v := rfl
@[simp] theorem deref_none {α : Type u} : deref (none : Option α) = .error .nilDeref := rfl

/-- `a[i]`. -/
def index {α : Type u} (l : List α) (i : Nat) : Go α :=
  match l[i]? with
  | some v => .ok v
  | none => .error .indexOutOfRange

/-- `a[i] = v`. -/
def setIndex {α : Type u} (l : List α) (i : Nat) (v : α) : Go (List α) :=
  if i < l.length then .ok (l.set i v) else .error .indexOutOfRange

/-- `copy(a[dst:], a[src:])`: as many elements as fit, read before written (memmove). -/
def copyWithin {α : Type u} (l : List α) (dst src : Nat) : Go (List α) :=
  if dst ≤ l.length && src ≤ l.length then
    let n := min (l.length - dst) (l.length - src)
    .ok (l.take dst ++ (l.drop src).take n ++ l.drop (dst + n))
  else .error .sliceBounds

/-- `USize` arithmetic on values below `2^64`. -/
def usize (n : Nat) : Nat := n % 2 ^ 64
/-- `a - b` on `USize`. -/
def usizeSub (a b : Nat) : Nat := (a + 2 ^ 64 - b) % 2 ^ 64

/-- `make([]T, n)` for a `USize` n panics if n is not a valid `int` (memory exhaustion is not modelled). -/
def makeLen (n : Nat) : Go Unit := if n < 2 ^ 63 then .ok () else .error .makeLen

theorem index_lt {α : Type u} {l : List α} {i : Nat} (h : i < l.length) : index l i = .ok l[i] := by
  simp [index, h]
theorem index_ge {α : Type u} {l : List α} {i : Nat} (h : l.length ≤ i) :
    index l i = .error .indexOutOfRange := by
  simp [index, h]
theorem setIndex_lt {α : Type u} {l : List α} {i : Nat} {v : α} (h : i < l.length) :
    setIndex l i v = .ok (l.set i v) := by simp [setIndex, h]
theorem setIndex_ge {α : Type u} {l : List α} {i : Nat} {v : α} (h : l.length ≤ i) :
    setIndex l i v = .error .indexOutOfRange := by
  have : ¬ i < l.length := by omega
  simp [setIndex, this]

instance [DecidableEq ε] [DecidableEq α] : DecidableEq (Except ε α)
  | .ok a, .ok b => if h : a = b then isTrue (by rw [h]) else isFalse (by intro h'; cases h'; exact h rfl)
  | .error a, .error b => if h : a = b then isTrue (by rw [h]) else isFalse (by intro h'; cases h'; exact h rfl)
  | .ok _, .error _ => isFalse (by intro h; cases h)
  | .error _, .ok _ => isFalse (by intro h; cases h)

end Gost
