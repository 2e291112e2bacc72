import Verif.Model.VecDeque
import Verif.Model.LinkedList
import Verif.Model.BinaryHeap
import Verif.Model.HashMap
import Verif.Model.BTree
/-
The zero values of the collections: what `var c T`, `T{}`, `new(T)`, a field that is not set, or an element of
VecWithLen and VecDequeWithLen gives.  All fields are unexported, so this is the only value of the struct types
that a program can make without a constructor.
-/
namespace Gost

/-- vec.go:11-13, the zero value: a nil slice, of length and capacity 0. -/
def Vec.zero {α : Type} : Vec α := ⟨[], 0⟩
/-- vec_deque.go:14-18, the zero value: a nil buffer. -/
def VecDeque.zero {α : Type} : VecDeque α := ⟨[], 0, 0⟩
/-- linked_list.go:6-10, the zero value. -/
def LList.zero : LList := ⟨none, none, 0⟩
/-- binary_heap.go:7-9, the zero value. -/
def BHeap.zero {α : Type} : BHeap α := ⟨Vec.zero⟩
/-- hash_map.go:9-11, the zero value: a nil map. -/
def HMap.zero : HMap := ⟨none⟩
/-- hash_set.go:9-11, the zero value. -/
def HSet.zero : HSet := ⟨HMap.zero⟩
/-- btree_map.go:16-19, the zero value: a nil root. -/
def BMap.zero : BMap := ⟨none, 0⟩
/-- btree_set.go:9-11, the zero value. -/
def BSet.zero : BSet := ⟨BMap.zero⟩
end Gost
