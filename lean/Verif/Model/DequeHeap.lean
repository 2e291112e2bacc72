import Verif.Model.VecDeque
/-
Deque variables that may share a buffer.

A `VecDeque` value is three words: a reference to a buffer, the length and the head (vec_deque.go:14-18).
Copying the variable copies the reference.  Here buffers live in a heap, and an operation of
`Model/VecDeque.lean` is run on the deque the variable denotes; its new buffer is stored in the same array,
unless the operation has made a new one.  The code makes a new buffer (`make`) in exactly three places:
_Grow (vec_deque.go:590-599) and Reserve (83-95), which always make it longer, and Clear (336-340); all
other changes of elements are assignments to the existing array.  So "the length of the buffer
changed, or the operation is Clear" says that the variable refers to a new array.
-/
namespace Gost

/-- The buffers; never freed. -/
abbrev DHeap (α : Type) := List (List α)

/-- A variable of type VecDeque (vec_deque.go:14-18), with its buffer as an index into the heap. -/
structure DVar where
  buf : Nat
  len : Nat
  head : Nat
  deriving DecidableEq, Repr

namespace DVar
variable {α ρ : Type}

/-- The deque that a variable denotes. -/
def load (x : DVar) (h : DHeap α) : VecDeque α := ⟨h.getD x.buf [], x.len, x.head⟩

/-- Make a variable for a deque that has just been built (vec_deque.go:26-32 VecDequeWithCapacity and 828-836
Clone make their own buffer). -/
def alloc (d : VecDeque α) (h : DHeap α) : DHeap α × DVar := (h ++ [d.buffer], ⟨h.length, d.len, d.head⟩)

/-- Run an operation of vec_deque.go on a variable; `clears` tells whether it is Clear (336-340). -/
def apply (clears : Bool) (f : VecDeque α → Go (VecDeque α × ρ)) (h : DHeap α) (x : DVar) :
    Go (DHeap α × DVar × ρ) := do
  let (d, r) ← f (x.load h)
  if clears || d.buffer.length != (x.load h).buffer.length then
    let (h, x) := alloc d h
    .ok (h, x, r)
  else .ok (h.set x.buf d.buffer, ⟨x.buf, d.len, d.head⟩, r)

end DVar
end Gost
