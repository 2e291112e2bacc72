import Verif.Go
/-
The pointer level of /repo/option.go: options hold the address of a heap cell, copies of an option
share it, and Insert / GetOrInsert / GetOrInsertWith give the address to the user.
Cells are never freed; the address of a new cell is the current heap size.
-/
namespace Gost

/-- The heap: the contents of the cells allocated so far. -/
abbrev OHeap (α : Type u) := List α

/-- option.go:10-12 `Option[T]` with its pointer. -/
structure POpt where
  ptr : Option Nat
  deriving DecidableEq, Repr

namespace POpt
variable {α : Type u}

/-- `&value` for a new variable: allocate a cell. -/
def alloc (h : OHeap α) (v : α) : OHeap α × Nat := (h ++ [v], h.length)

/-- `*p`. -/
def load (h : OHeap α) (p : Option Nat) : Go α :=
  match p with
  | none => .error .nilDeref
  | some a => match h[a]? with
    | some v => .ok v
    | none => .error .nilDeref

/-- `*p = v`, done by the user with a pointer obtained from the library. -/
def store (h : OHeap α) (p : Option Nat) (v : α) : Go (OHeap α) :=
  match p with
  | none => .error .nilDeref
  | some a => .ok (h.set a v)

/-- option.go:15-17 Some. -/
def some (h : OHeap α) (v : α) : OHeap α × POpt :=
  let (h, a) := alloc h v
  (h, ⟨.some a⟩)

/-- option.go:70-72 Unwrap. -/
def unwrap (h : OHeap α) (self : POpt) : Go α := load h self.ptr

/-- option.go:275-278 Insert: the heap, the changed option, the returned pointer. -/
def insert (h : OHeap α) (_self : POpt) (v : α) : OHeap α × POpt × Option Nat :=
  let (h, a) := alloc h v
  (h, ⟨.some a⟩, .some a)

/-- option.go:288-293 GetOrInsert. -/
def getOrInsert (h : OHeap α) (self : POpt) (v : α) : OHeap α × POpt × Option Nat :=
  match self.ptr with
  | none => let (h, a) := alloc h v; (h, ⟨.some a⟩, .some a)
  | .some a => (h, self, .some a)

/-- option.go:317-325 Take: the heap, the changed option, the returned option. -/
def take (h : OHeap α) (self : POpt) : Go (OHeap α × POpt × POpt) :=
  match self.ptr with
  | none => .ok (h, self, self)
  | .some a => do
    let value ← load h (.some a)
    let (h, r) := some h value
    .ok (h, ⟨none⟩, r)

/-- option.go:334-342 Replace. -/
def replace (h : OHeap α) (self : POpt) (v : α) : Go (OHeap α × POpt × POpt) :=
  match self.ptr with
  | none => .ok (h, self, self)
  | .some a => do
    let oldValue ← load h (.some a)
    let (h, b) := alloc h v
    let (h, r) := some h oldValue
    .ok (h, ⟨.some b⟩, r)

end POpt
end Gost
