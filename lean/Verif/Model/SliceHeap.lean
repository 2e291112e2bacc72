import Verif.Model.Vec
/-
The storage level of /repo/vec.go: a vector is a Go slice, i.e. an array in a heap and a length.
All slices vec.go makes start at the beginning of their array, so a slice needs no offset; its capacity
is the length of the array.  Copies of a vector share the array.
Operations that work on the elements in place are modelled by the function on the elements from
`Model/Vec.lean`, with the result written back into the array.
-/
namespace Gost

/-- The arrays allocated so far. -/
abbrev SHeap (α : Type) := List (List α)

/-- A slice header; vec.go:11-13 `Vec[T]`. -/
structure Slice where
  arr : Nat
  len : Nat
  deriving DecidableEq, Repr

namespace Slice
variable {α : Type} [Inhabited α]

/-- The array a slice refers to. -/
def array (h : SHeap α) (s : Slice) : List α := (h[s.arr]?).getD []
/-- The elements of a slice. -/
def view (h : SHeap α) (s : Slice) : List α := (s.array h).take s.len

/-- Go's `make([]T, len, cap)` (the size checks are in `makeLen`). -/
def make (h : SHeap α) (len cap : Nat) : SHeap α × Slice :=
  (h ++ [List.replicate cap default], ⟨h.length, len⟩)

/-- Go's `append(s, xs...)`: in place if there is room (also if the array is shared), otherwise into a
new array. -/
def goAppend (g : Growth) (h : SHeap α) (s : Slice) (xs : List α) : SHeap α × Slice :=
  let a := s.array h
  let n := s.len + xs.length
  if n ≤ a.length then (h.set s.arr (a.take s.len ++ xs ++ a.drop n), ⟨s.arr, n⟩)
  else (h ++ [a.take s.len ++ xs ++ List.replicate (g.newCap a.length n - n) default], ⟨h.length, n⟩)

/-- Write new values for the elements into the array. -/
def writeBack (h : SHeap α) (s : Slice) (d : List α) : SHeap α :=
  h.set s.arr (d ++ (s.array h).drop s.len)

/-- vec.go:673-682 Clone (elements whose Clone method is `c`). -/
def clone (c : α → α) (h : SHeap α) (s : Slice) : Go (SHeap α × Slice) := do
  makeLen s.len
  let d ← Vec.cloneLoop (some c) (s.view h) s.len 0 (List.replicate s.len default)
  .ok (h ++ [d], ⟨h.length, s.len⟩)

/-- vec.go:113-116 Append: heap, self, other. -/
def append (g : Growth) (h : SHeap α) (s o : Slice) : SHeap α × Slice × Slice :=
  let (h, s) := goAppend g h s (o.view h)
  let (h, o) := make h 0 0
  (h, s, o)

end Slice

/-- The operations that change a vector. -/
inductive MOp (α : Type) where
  | push (v : α) | pop | clear | insert (i : Nat) (v : α) | setUnchecked (i : Nat) (v : α)
  | swap (i j : Nat) | reverse | fill (v : α) | dedup (deq : α → α → Bool) | retain (p : α → Bool)
  | sortBy (cmp : α → α → Ordering)

/-- The operations on an unshared vector (`Model/Vec.lean`). -/
def MOp.pure {α : Type} (g : Growth) (S : SortLib) : MOp α → Vec α → Go (Vec α)
  | .push v, s => .ok (s.push g v)
  | .pop, s => do let (s, _) ← s.pop; .ok s
  | .clear, s => .ok s.clear
  | .insert i v, s => s.insert g i v
  | .setUnchecked i v, s => s.setUnchecked i v
  | .swap i j, s => s.swap i j
  | .reverse, s => s.reverse
  | .fill v, s => s.fill v
  | .dedup deq, s => s.dedup deq
  | .retain p, s => (s.retain g (fun a => (Pure.pure (p a) : Eff Unit Bool)) ()).1
  | .sortBy cmp, s => .ok (s.sortBy S cmp)

/-- The operations on the heap. -/
def MOp.heap {α : Type} [Inhabited α] (g : Growth) (S : SortLib) : MOp α → SHeap α → Slice →
    Go (SHeap α × Slice)
  -- vec.go:84-86 Push
  | .push v, h, s => .ok (s.goAppend g h [v])
  -- vec.go:95-103 Pop: only the length changes
  | .pop, h, s =>
    if s.len = 0 then .ok (h, s)
    else do
      let _ ← index (s.view h) (s.len - 1)
      .ok (h, ⟨s.arr, s.len - 1⟩)
  -- vec.go:125-127 Clear: a new array
  | .clear, h, s => let _ := s; .ok (Slice.make h 0 0)
  -- vec.go:142-146 Insert: append, then in place
  | .insert i v, h, s => do
    let (h, s) := s.goAppend g h [v]
    let d ← copyWithin (s.view h) (i + 1) i
    let h := s.writeBack h d
    let d ← setIndex (s.view h) i v
    .ok (s.writeBack h d, s)
  -- vec.go:277-279 SetUnchecked
  | .setUnchecked i v, h, s => do
    let d ← setIndex (s.view h) i v
    .ok (s.writeBack h d, s)
  -- vec.go:291-293 Swap
  | .swap i j, h, s => do
    let d ← Vec.swapData (s.view h) i j
    .ok (s.writeBack h d, s)
  -- vec.go:303-307 Reverse
  | .reverse, h, s => do
    let d ← Vec.reverseLoop (s.len / 2) 0 (s.view h)
    .ok (s.writeBack h d, s)
  -- vec.go:413-417 Fill
  | .fill v, h, s => do
    let d ← Vec.fillLoop v s.len 0 (s.view h)
    .ok (s.writeBack h d, s)
  -- vec.go:205-220 Dedup: in place, then the length is cut
  | .dedup deq, h, s =>
    if s.len ≤ 1 then .ok (h, s)
    else do
      let (prev, d) ← Vec.dedupLoop deq (s.len - 1) 1 0 (s.view h)
      .ok (s.writeBack h d, ⟨s.arr, prev + 1⟩)
  -- vec.go:160-168 Retain: a new array of capacity len, filled by append
  | .retain p, h, s =>
    let (h', s') := Slice.make h 0 s.len
    .ok ((s.view h).foldl (fun (h, s) a => if p a then s.goAppend g h [a] else (h, s)) (h', s'))
  -- vec.go:471-478 SortBy: in place
  | .sortBy cmp, h, s => .ok (s.writeBack h (S.stable (Vec.less cmp) (s.view h)), s)

end Gost
