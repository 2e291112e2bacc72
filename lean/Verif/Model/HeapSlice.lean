import Verif.Model.BinaryHeap
import Verif.Model.SliceHeap
/-
The storage level of /repo/binary_heap.go: a heap is a slice header (`Model/SliceHeap.lean`), whose array its
copies share.  _SiftUp and _SiftDownToBottom swap elements in place; they are the functions of
`Model/BinaryHeap.lean` on the elements, with the result written back into the array.
-/
namespace Gost.BSlice
variable {α : Type} [Inhabited α]

/-- binary_heap.go:81-88 Push: new arrays and new header. -/
def push (g : Growth) (cmp : α → α → Ordering) (h : SHeap α) (s : Slice) (item : α) :
    Go (Option (SHeap α × Slice)) := do
  let oldLen := s.len
  let (h, s) := s.goAppend g h [item]
  let r ← BHeap.siftUp cmp ⟨s.view h, (s.array h).length⟩ 0 oldLen
  .ok (r.map fun r => (s.writeBack h r.1.data, s))

/-- binary_heap.go:123-133 Pop: new arrays, new header, result. -/
def pop (cmp : α → α → Ordering) (h : SHeap α) (s : Slice) : Go (Option (SHeap α × Slice × Opt α)) :=
  if s.len = 0 then .ok (some (h, s, Opt.none))
  else do
    let item ← index (s.view h) (s.len - 1)
    let s : Slice := ⟨s.arr, s.len - 1⟩
    if s.len ≠ 0 then do
      let x ← index (s.view h) 0
      let d ← setIndex (s.view h) 0 item
      let h := s.writeBack h d
      let r ← BHeap.siftDownToBottom cmp ⟨s.view h, (s.array h).length⟩ 0
      .ok (r.map fun v => (s.writeBack h v.data, s, Opt.some x))
    else .ok (some (h, s, Opt.some item))

/-- binary_heap.go:72-74 Reserve, with vec.go:71-75. -/
def reserve (g : Growth) (h : SHeap α) (s : Slice) (additional : Nat) : Go (SHeap α × Slice) :=
  if (s.array h).length < usize (s.len + additional) then do
    makeLen additional
    .ok (s.goAppend g h (List.replicate additional default))
  else .ok (h, s)

/-- binary_heap.go:187-189 Append, the loop: `range` takes the header `r` once and reads each element when its
turn comes. -/
def rangePush (g : Growth) (cmp : α → α → Ordering) (r : Slice) : Nat → Nat → SHeap α → Slice →
    Go (Option (SHeap α × Slice))
  | 0, _, h, s => .ok (some (h, s))
  | k + 1, i, h, s => do
    let item ← index (r.view h) i
    let q ← push g cmp h s item
    match q with
    | none => .ok none
    | some (h, s) => rangePush g cmp r k (i + 1) h s

/-- binary_heap.go:185-190 Append of another variable `o`, which may share the array. -/
def append (g : Growth) (cmp : α → α → Ordering) (h : SHeap α) (s o : Slice) : Go (Option (SHeap α × Slice)) := do
  let (h, s) ← reserve g h s (usize (s.len + o.len))
  rangePush g cmp o o.len 0 h s
/-- binary_heap.go:185-190 Append with `other == self`. -/
def appendSelf (g : Growth) (cmp : α → α → Ordering) (h : SHeap α) (s : Slice) : Go (Option (SHeap α × Slice)) := do
  let (h, s) ← reserve g h s (usize (s.len + s.len))
  rangePush g cmp s s.len 0 h s
end Gost.BSlice
