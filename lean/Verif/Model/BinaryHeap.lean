import Verif.Model.Vec
/-
Model of /repo/binary_heap.go.

A heap is its vector.  `cmp` is the Cmp method of the element type, assumed not to panic and to have no
effect.  Indices into the vector are far below 2^63, so `2*pos+1` and `pos-1` (pos > 0) do not wrap.
-/
namespace Gost

/-- binary_heap.go:7-9 `BinaryHeap[T]`. -/
structure BHeap (α : Type) where
  vec : Vec α
  deriving DecidableEq, Repr

namespace BHeap
variable {α : Type}

/-- binary_heap.go:12-16 BinaryHeapNew. -/
def new : BHeap α := ⟨Vec.new⟩
/-- binary_heap.go:19-23 BinaryHeapWithCapacity. -/
def withCapacity (capacity : Nat) : Go (BHeap α) := do
  let v ← Vec.withCapacity capacity
  .ok ⟨v⟩
/-- binary_heap.go:26-30 BinaryHeapWithLen. -/
def withLen [Inhabited α] (len : Nat) : Go (BHeap α) := do
  let v ← Vec.withLen len
  .ok ⟨v⟩
/-- binary_heap.go:39-41 Capacity. -/
abbrev capacity (self : BHeap α) : Nat := self.vec.capacity
/-- binary_heap.go:50-52 Len. -/
abbrev len (self : BHeap α) : Nat := self.vec.len
/-- binary_heap.go:61-63 IsEmpty. -/
def isEmpty (self : BHeap α) : Bool := self.vec.isEmpty
/-- binary_heap.go:72-74 Reserve. -/
def reserve [Inhabited α] (g : Growth) (self : BHeap α) (capacity : Nat) : Go (BHeap α) := do
  let v ← self.vec.reserve g capacity
  .ok ⟨v⟩

/-- binary_heap.go:95-109 _SiftUp: the loop; `elt` and `pos` are the fields of the hole (binary_heap.go:253-257, made by
_HoleNew 259-266 and read by Pos 268-270, Element 273-275 and Get 279-281), whose MoveTo (285-288) swaps in the
vector.  `none` = still running after `fuel` rounds. -/
def siftUpLoop (cmp : α → α → Ordering) (start : Nat) : Nat → Vec α → α → Nat → Go (Option (Vec α × Nat))
  | 0, _, _, _ => .ok none
  | fuel + 1, v, elt, pos =>
    if pos > start then do
      let parent := (pos - 1) / 2
      let p ← index v.data parent
      let order := cmp elt p
      if order = .lt ∨ order = .eq then .ok (some (v, pos))
      else do
        let v ← v.swap pos parent
        siftUpLoop cmp start fuel v elt parent
    else .ok (some (v, pos))
/-- binary_heap.go:90-112 _SiftUp. -/
def siftUp (cmp : α → α → Ordering) (v : Vec α) (start pos : Nat) : Go (Option (Vec α × Nat)) := do
  let elt ← v.getUnchecked pos
  siftUpLoop cmp start (pos + 1) v elt pos
/-- binary_heap.go:81-88 Push. -/
def push (g : Growth) (cmp : α → α → Ordering) (self : BHeap α) (item : α) : Go (Option (BHeap α)) := do
  let oldLen := self.len
  let v := self.vec.push g item
  let r ← siftUp cmp v 0 oldLen
  .ok (r.map fun r => ⟨r.1⟩)

/-- binary_heap.go:144-160 _SiftDownToBottom: the loop; gives vector, position and child. -/
def siftDownLoop (cmp : α → α → Ordering) (end_ : Nat) : Nat → Vec α → Nat → Nat → Go (Option (Vec α × Nat × Nat))
  | 0, _, _, _ => .ok none
  | fuel + 1, v, pos, child =>
    if child ≤ end_ - 2 then do
      let a ← index v.data child
      let b ← index v.data (child + 1)
      let ordering := cmp a b
      let child := if ordering = .lt ∨ ordering = .eq then child + 1 else child
      let v ← v.swap pos child
      siftDownLoop cmp end_ fuel v child (2 * child + 1)
    else .ok (some (v, pos, child))
/-- binary_heap.go:135-171 _SiftDownToBottom (the saturating subtraction is `-` on naturals). -/
def siftDownToBottom (cmp : α → α → Ordering) (v : Vec α) (pos : Nat) : Go (Option (Vec α)) := do
  let end_ := v.len
  let _ ← v.getUnchecked pos
  let r ← siftDownLoop cmp end_ (end_ + 1) v pos (2 * pos + 1)
  match r with
  | none => .ok none
  | some (v, hole, child) => do
    let (v, hole) ← (if child = end_ - 1 then do
        let v ← v.swap hole child
        .ok (v, child)
      else .ok (v, hole) : Go (Vec α × Nat))
    let r ← siftUp cmp v pos hole
    .ok (r.map (·.1))
/-- binary_heap.go:123-133 Pop: new heap and result; the swap is utils.go:9-11 _Swap. -/
def pop (cmp : α → α → Ordering) (self : BHeap α) : Go (Option (BHeap α × Opt α)) := do
  let (v, o) ← self.vec.pop
  if o.isNone then .ok (some (⟨v⟩, Opt.none))
  else do
    let item ← o.unwrap
    if !v.isEmpty then do
      let x ← index v.data 0
      let v ← v.setUnchecked 0 item
      let r ← siftDownToBottom cmp v 0
      .ok (r.map fun v => (⟨v⟩, Opt.some x))
    else .ok (some (⟨v⟩, Opt.some item))
/-- binary_heap.go:187-189 Append: the loop. -/
def pushAll (g : Growth) (cmp : α → α → Ordering) : List α → BHeap α → Go (Option (BHeap α))
  | [], self => .ok (some self)
  | item :: rest, self => do
    let r ← self.push g cmp item
    match r with
    | none => .ok none
    | some self => pushAll g cmp rest self
/-- binary_heap.go:185-190 Append, for two heaps with separate storage: new self and new other. -/
def append [Inhabited α] (g : Growth) (cmp : α → α → Ordering) (self other : BHeap α) :
    Go (Option (BHeap α × BHeap α)) := do
  let self ← self.reserve g (usize (self.len + other.len))
  let r ← pushAll g cmp other.vec.data self
  .ok (r.map fun self => (self, other))
/-- binary_heap.go:200-202 Clear. -/
def clear (self : BHeap α) : BHeap α := ⟨self.vec.clear⟩
/-- binary_heap.go:205-207 AsSlice. -/
def asSlice (self : BHeap α) : List α := self.vec.data
/-- binary_heap.go:220-222 IntoVec. -/
def intoVec (self : BHeap α) : Vec α := self.vec
/-- binary_heap.go:240-244 IntoSortedVec: the loop. -/
def sortedLoop (cmp : α → α → Ordering) : Nat → BHeap α → Vec α → Nat → Go (Option (BHeap α × Vec α))
  | 0, _, _, _ => .ok none
  | fuel + 1, self, sortedVec, index =>
    if !self.isEmpty then do
      let r ← self.pop cmp
      match r with
      | none => .ok none
      | some (self, o) => do
        let x ← o.unwrap
        let sortedVec ← sortedVec.setUnchecked index x
        sortedLoop cmp fuel self sortedVec (usizeSub index 1)
    else .ok (some (self, sortedVec))
/-- binary_heap.go:235-247 IntoSortedVec: what is left of the heap, and the result. -/
def intoSortedVec [Inhabited α] (cmp : α → α → Ordering) (self : BHeap α) : Go (Option (BHeap α × Vec α)) := do
  let sortedVec ← Vec.withLen self.len
  let index := usizeSub self.len 1
  sortedLoop cmp (self.len + 1) self sortedVec index
end BHeap
end Gost
