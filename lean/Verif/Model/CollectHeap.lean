import Verif.Model.IterHeap
import Verif.Model.HeapSlice
/-
Vectors that a program gets out of an iterator or a BinaryHeap, at the level of arrays (`Model/SliceHeap.lean`).
-/
namespace Gost
variable {α : Type} [Inhabited α]

/-- vec.go:614-620, the loop of CollectToVec, `n` rounds at most (`none`: not finished by then): arrays and vector. -/
def SIter.collectLoop (g : Growth) : Nat → SHeap α → SIter → Slice → Go (Option (SHeap α × Slice))
  | 0, _, _, _ => .ok none
  | n + 1, h, self, vec => do
    let (self, value) ← self.next h
    if value.isNone then .ok (some (h, vec))
    else do
      let x ← value.unwrap
      let (h, vec) := vec.goAppend g h [x]
      collectLoop g n h self vec

/-- vec.go:612-621 CollectToVec of a VecIter (the value receiver leaves the iterator as it is): arrays and new vector.
`Vec[T]{}` is a vector without an array; here it gets an empty one. -/
def SIter.collectToVec (g : Growth) (h : SHeap α) (self : SIter) : Go (Option (SHeap α × Slice)) :=
  let (h, vec) := Slice.make h 0 0
  self.collectLoop g (self.vec.len + 1) h vec

/-- CollectToVec of the iterators that are made of a vector of their own: hash_map.go:206-208, 321-323 and 429-431,
hash_set.go:421-423, btree_map.go:845-847, 959-961 and 1073-1075, btree_set.go:386-388.  It is the vector of the iterator
itself.  (Their Next is that of VecIter, `SIter.next`: hash_map.go:133-142, 248-257 and 356-365, hash_set.go:348-357,
btree_map.go:774-783, 888-897 and 1002-1011, btree_set.go:314-323.) -/
def SIter.collectShared (self : SIter) : Slice := self.vec

/-- binary_heap.go:220-222 IntoVec, and 205-207 AsSlice with vec.go:130-132. -/
def BSlice.intoVec (self : Slice) : Slice := self

end Gost
