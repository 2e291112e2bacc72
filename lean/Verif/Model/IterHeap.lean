import Verif.Model.SliceHeap
import Verif.Model.DequeHeap
import Verif.Model.LinkedList
/-
Iterators that are used while their container is being changed.

`Vec.IntoIter` stores a copy of the slice (vec.go:535) and `VecDeque.IntoIter` the address of a copy of the deque
(vec_deque.go:706, a value receiver), so both share the array with the container they were made from and keep their own
length; `LinkedList.IntoIter` stores a pointer to the first node (linked_list.go:237-241).  Here they are run in
the heaps of `Model/SliceHeap.lean`, `Model/DequeHeap.lean` and `Model/LinkedList.lean`.
-/
namespace Gost

/-- vec.go:528-531 `VecIter[T]`: the stored copy of the vector, and the position. -/
structure SIter where
  vec : Slice
  position : Nat
  deriving DecidableEq, Repr

/-- vec.go:534-536 IntoIter. -/
def Slice.intoIter (self : Slice) : SIter := ⟨self, 0⟩

/-- vec.go:539-548 Next: new iterator and result.  (The position stays at most the length.) -/
def SIter.next {α : Type} (h : SHeap α) (self : SIter) : Go (SIter × Opt α) :=
  if self.position ≥ self.vec.len then .ok (self, Opt.none)
  else do
    let value ← index (self.vec.view h) self.position
    .ok (⟨self.vec, self.position + 1⟩, Opt.some value)

/-- vec_deque.go:699-702 `VecDequeIter[T]`: the variable that `deque` points to, and the position. -/
structure DIter where
  deque : DVar
  position : Nat
  deriving DecidableEq, Repr

/-- vec_deque.go:705-707 IntoIter. -/
def DVar.intoIter (self : DVar) : DIter := ⟨self, 0⟩

/-- vec_deque.go:710-719 Next: new iterator and result. -/
def DIter.next {α : Type} [Inhabited α] (h : DHeap α) (self : DIter) : Go (DIter × Opt α) :=
  if self.position ≥ self.deque.len then .ok (self, Opt.none)
  else do
    let value ← (self.deque.load h).get self.position
    .ok (⟨self.deque, self.position + 1⟩, value)

end Gost
