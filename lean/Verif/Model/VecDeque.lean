import Verif.Model.Vec
/-
Model of /repo/vec_deque.go.

A deque owns its buffer (sharing of buffers between copies: `Model/DequeHeap.lean`).  USize values are
naturals below 2^64; the arithmetic the code does on them is reduced mod 2^64 (`usize`, `usizeSub`) where
it can wrap.  (WrappingAdd and WrappingSub are exactly that by C10.)  The buffer is always made by
`make([]T, n)`, so its capacity is its length.
-/
namespace Gost

/-- vec_deque.go:14-18 `VecDeque[T]`. -/
structure VecDeque (α : Type) where
  buffer : List α
  len : Nat
  head : Nat
  deriving DecidableEq, Repr

/-- vec_deque.go:670-676 _WrapIndex. -/
def wrapIndex (logicalIndex capacity : Nat) : Nat :=
  if logicalIndex ≥ capacity then usizeSub logicalIndex capacity else logicalIndex

/-- `copy(a[dst:dst+len], a[src:])`; vec_deque.go:660-662 _Copy and 665-667 _CopyNonoverlapping. -/
def copyRange {α : Type} (l : List α) (src dst len : Nat) : Go (List α) :=
  if dst ≤ usize (dst + len) ∧ usize (dst + len) ≤ l.length ∧ src ≤ l.length then
    let n := min (usize (dst + len) - dst) (l.length - src)
    .ok (l.take dst ++ (l.drop src).take n ++ l.drop (dst + n))
  else .error .sliceBounds

/-- `newBuffer := make([]T, n); copy(newBuffer, buffer)`. -/
def remake {α : Type} [Inhabited α] (buffer : List α) (n : Nat) : Go (List α) := do
  makeLen n
  .ok (buffer.take n ++ List.replicate (n - buffer.length) default)

namespace VecDeque
variable {σ α : Type} [Inhabited α]

/-- vec_deque.go:26-32 VecDequeWithCapacity. -/
def withCapacity (capacity : Nat) : Go (VecDeque α) := do
  let capacity := if capacity < 1 then 1 else capacity
  makeLen capacity
  .ok ⟨List.replicate capacity default, 0, 0⟩
/-- vec_deque.go:21-23 VecDequeNew. -/
def new : Go (VecDeque α) := withCapacity 7
/-- vec_deque.go:35-40 VecDequeWithLen. -/
def withLen (len : Nat) : Go (VecDeque α) := do
  let deque ← withCapacity len
  .ok { deque with len := len }
/-- vec_deque.go:58-60 IsEmpty; Len (48-50) is the field. -/
def isEmpty (self : VecDeque α) : Bool := self.len == 0
/-- vec_deque.go:70-72 Capacity. -/
abbrev capacity (self : VecDeque α) : Nat := self.buffer.length
/-- vec_deque.go:583-585 _IsFull. -/
abbrev isFull (self : VecDeque α) : Bool := self.len == self.buffer.length
/-- vec_deque.go:680-684 _WrapAdd. -/
def wrapAdd (self : VecDeque α) (index addend : Nat) : Nat :=
  wrapIndex (usize (index + addend)) self.buffer.length
/-- vec_deque.go:688-692 _WrapSub. -/
def wrapSub (self : VecDeque α) (index subtrahend : Nat) : Nat :=
  wrapIndex (usize (usizeSub index subtrahend + self.buffer.length)) self.buffer.length
/-- vec_deque.go:694-696 _ToPhysicalIndex. -/
def toPhysicalIndex (self : VecDeque α) (index : Nat) : Nat := self.wrapAdd self.head index

/-- vec_deque.go:612-657 _HandleCapacityIncrease. -/
def handleCapacityIncrease (self : VecDeque α) (oldCapacity : Nat) : Go (VecDeque α) :=
  let newCapacity := self.buffer.length
  if newCapacity < oldCapacity then .error .explicit
  else if self.head ≤ usizeSub oldCapacity self.len then .ok self
  else
    let headLen := usizeSub oldCapacity self.head
    let tailLen := usizeSub self.len headLen
    if headLen > tailLen ∧ usizeSub newCapacity oldCapacity ≥ tailLen then do
      let buffer ← copyRange self.buffer 0 oldCapacity tailLen
      .ok { self with buffer := buffer }
    else do
      let newHead := usizeSub newCapacity headLen
      let buffer ← copyRange self.buffer self.head newHead headLen
      .ok { self with buffer := buffer, head := newHead }
/-- vec_deque.go:590-608 _Grow. -/
def grow (self : VecDeque α) : Go (VecDeque α) :=
  if !self.isFull then .error .explicit
  else do
    let oldCapacity := self.buffer.length
    let buffer ← remake self.buffer (usize (oldCapacity * 2))
    let self ← ({ self with buffer := buffer } : VecDeque α).handleCapacityIncrease oldCapacity
    if self.isFull then .error .explicit else .ok self
/-- vec_deque.go:82-94 Reserve. -/
def reserve (self : VecDeque α) (additional : Nat) : Go (VecDeque α) :=
  let oldCapacity := self.capacity
  let newCapacity := usize (oldCapacity + additional)
  if newCapacity > oldCapacity then do
    let buffer ← remake self.buffer newCapacity
    ({ self with buffer := buffer } : VecDeque α).handleCapacityIncrease oldCapacity
  else .ok self
/-- `if self._IsFull() { self._Grow() }` (vec_deque.go:103-105 and 119-121). -/
def growIfFull (self : VecDeque α) : Go (VecDeque α) := if self.isFull then self.grow else .ok self
/-- vec_deque.go:102-110 PushFront. -/
def pushFront (self : VecDeque α) (value : α) : Go (VecDeque α) := do
  let self ← self.growIfFull
  let head := self.wrapSub self.head 1
  let buffer ← setIndex self.buffer head value
  .ok ⟨buffer, usize (self.len + 1), head⟩
/-- vec_deque.go:118-125 PushBack. -/
def pushBack (self : VecDeque α) (value : α) : Go (VecDeque α) := do
  let self ← self.growIfFull
  let buffer ← setIndex self.buffer (self.toPhysicalIndex self.len) value
  .ok ⟨buffer, usize (self.len + 1), self.head⟩
/-- vec_deque.go:135-147 PopFront: new deque and result. -/
def popFront (self : VecDeque α) : Go (VecDeque α × Opt α) :=
  if self.isEmpty then .ok (self, Opt.none)
  else do
    let oldHead := self.head
    let self := { self with head := self.toPhysicalIndex 1, len := usizeSub self.len 1 }
    let value ← index self.buffer oldHead
    .ok (self, Opt.some value)
/-- vec_deque.go:157-164 PopBack: new deque and result. -/
def popBack (self : VecDeque α) : Go (VecDeque α × Opt α) :=
  if self.isEmpty then .ok (self, Opt.none)
  else do
    let self := { self with len := usizeSub self.len 1 }
    let value ← index self.buffer (self.toPhysicalIndex self.len)
    .ok (self, Opt.some value)
/-- vec_deque.go:280-282 GetUnchecked. -/
def getUnchecked (self : VecDeque α) (idx : Nat) : Go α := index self.buffer (self.toPhysicalIndex idx)
/-- vec_deque.go:265-271 Get. -/
def get (self : VecDeque α) (idx : Nat) : Go (Opt α) :=
  if idx ≥ self.len then .ok Opt.none
  else do
    let v ← index self.buffer (self.toPhysicalIndex idx)
    .ok (Opt.some v)
/-- vec_deque.go:305-307 SetUnchecked. -/
def setUnchecked (self : VecDeque α) (idx : Nat) (value : α) : Go (VecDeque α) := do
  let buffer ← setIndex self.buffer (self.toPhysicalIndex idx) value
  .ok { self with buffer := buffer }
/-- vec_deque.go:290-297 Set: new deque and result. -/
def set (self : VecDeque α) (idx : Nat) (value : α) : Go (VecDeque α × Opt α) :=
  if idx ≥ self.len then .ok (self, Opt.some value)
  else do
    let buffer ← setIndex self.buffer (self.toPhysicalIndex idx) value
    .ok ({ self with buffer := buffer }, Opt.none)
/-- vec_deque.go:247-256 Swap. -/
def swap (self : VecDeque α) (a b : Nat) : Go (VecDeque α) :=
  if a = b then .ok self
  else do
    let buffer ← Vec.swapData self.buffer (self.toPhysicalIndex a) (self.toPhysicalIndex b)
    .ok { self with buffer := buffer }
/-- vec_deque.go:315-317 Back. -/
def back (self : VecDeque α) : Go (Opt α) := self.get (usizeSub self.len 1)
/-- vec_deque.go:325-327 Front. -/
def front (self : VecDeque α) : Go (Opt α) := self.get 0
/-- vec_deque.go:336-340 Clear. -/
def clear (_self : VecDeque α) : VecDeque α := ⟨List.replicate 7 default, 0, 0⟩
/-- vec_deque.go:178-180 Append: the loop, `n` iterations from `i` on. -/
def appendLoop (other : VecDeque α) : Nat → Nat → VecDeque α → Go (VecDeque α)
  | 0, _, self => .ok self
  | n + 1, i, self => do
    let v ← other.getUnchecked i
    let self ← self.pushBack v
    appendLoop other n (i + 1) self
/-- vec_deque.go:175-183 Append, for two different deques: new self and new other. -/
def append (self other : VecDeque α) : Go (VecDeque α × VecDeque α) := do
  let self ← self.reserve other.len
  let self ← appendLoop other other.len 0 self
  .ok (self, other.clear)
/-- vec_deque.go:178-180 Append of a deque to itself: the loop runs up to the *current* length; `none` =
still running after `fuel` rounds. -/
def appendSelfLoop : Nat → Nat → VecDeque α → Go (Option (VecDeque α))
  | 0, _, _ => .ok none
  | fuel + 1, i, self =>
    if i < self.len then do
      let v ← self.getUnchecked i
      let self ← self.pushBack v
      appendSelfLoop fuel (usize (i + 1)) self
    else .ok (some self)
/-- vec_deque.go:175-183 Append of a deque to itself. -/
def appendSelf (fuel : Nat) (self : VecDeque α) : Go (Option (VecDeque α)) := do
  let self ← self.reserve self.len
  let r ← appendSelfLoop fuel 0 self
  .ok (r.map clear)
/-- vec_deque.go:199-205 Retain: the loop. -/
def retainLoop (f : α → Eff σ Bool) : Nat → Nat → Nat → VecDeque α → Eff σ (Nat × VecDeque α)
  | 0, _, newLen, self => pure (newLen, self)
  | n + 1, i, newLen, self => do
    let value ← Eff.lift (self.getUnchecked i)
    let keep ← f value
    if keep then do
      let self ← Eff.lift (self.setUnchecked newLen value)
      retainLoop f n (i + 1) (newLen + 1) self
    else retainLoop f n (i + 1) newLen self
/-- vec_deque.go:196-208 Retain. -/
def retain (self : VecDeque α) (f : α → Eff σ Bool) : Eff σ (VecDeque α) := do
  let (newLen, self) ← retainLoop f self.len 0 0 self
  pure { self with len := newLen }
/-- vec_deque.go:227-232 Dedup: the loop; `eqT` is the element's Eq method, if it has one. -/
def dedupLoop (eqT : Option (α → α → Bool)) : Nat → Nat → Nat → VecDeque α → Go (Nat × VecDeque α)
  | 0, _, newLen, self => .ok (newLen, self)
  | n + 1, i, newLen, self => do
    let x ← self.getUnchecked i
    match eqT with
    | none => .error .nilDeref
    | some e => do
      let y ← self.getUnchecked (usizeSub newLen 1)
      if !e x y then do
        let self ← self.setUnchecked newLen x
        dedupLoop eqT n (i + 1) (newLen + 1) self
      else dedupLoop eqT n (i + 1) newLen self
/-- vec_deque.go:220-235 Dedup (the parameter `key` is not used). -/
def dedup (eqT : Option (α → α → Bool)) (self : VecDeque α) : Go (VecDeque α) :=
  if self.isEmpty then .ok self
  else do
    let (newLen, self) ← dedupLoop eqT (self.len - 1) 1 1 self
    .ok { self with len := newLen }
/-- vec_deque.go:343-345 AsSlice (its contents). -/
def asSlice (self : VecDeque α) : Go (List α) :=
  if self.len ≤ self.buffer.length then .ok (self.buffer.take self.len) else .error .sliceBounds
/-- vec_deque.go:366-370 Contains: the loop. -/
def containsLoop (e : α → α → Bool) (value : α) (self : VecDeque α) : Nat → Nat → Go Bool
  | 0, _ => .ok false
  | n + 1, i => do
    let o ← self.get i
    let x ← o.unwrap
    if e value x then .ok true else containsLoop e value self n (i + 1)
/-- vec_deque.go:358-373 Contains; `eqT` is the element's Eq method, if it has one. -/
def contains (eqT : Option (α → α → Bool)) (self : VecDeque α) (value : α) : Go Bool :=
  match eqT with
  | none => .error .explicit
  | some e => containsLoop e value self self.len 0
/-- vec_deque.go:381-385 Fill: the loop. -/
def fillLoop (value : α) : Nat → Nat → VecDeque α → Go (VecDeque α)
  | 0, _, self => .ok self
  | n + 1, i, self => do
    let self ← self.setUnchecked i value
    fillLoop value n (i + 1) self
/-- vec_deque.go:381-385 Fill. -/
def fill (self : VecDeque α) (value : α) : Go (VecDeque α) := fillLoop value self.len 0 self
/-- vec_deque.go:395-399 FillWith: the loop. -/
def fillWithLoop (f : Eff σ α) : Nat → Nat → VecDeque α → Eff σ (VecDeque α)
  | 0, _, self => pure self
  | n + 1, i, self => do
    let v ← f
    let self ← Eff.lift (self.setUnchecked i v)
    fillWithLoop f n (i + 1) self
/-- vec_deque.go:395-399 FillWith. -/
def fillWith (self : VecDeque α) (f : Eff σ α) : Eff σ (VecDeque α) := fillWithLoop f self.len 0 self

/-- vec_deque.go:454-479 BinarySearchBy (its loop is that of Vec, vec.go:385-403, on the buffer). -/
def binarySearchBy (self : VecDeque α) (f : α → Eff σ Ordering) : Eff σ (Opt Nat) :=
  Vec.binarySearchLoop f self.buffer 0 ((self.len : Int) - 1)
/-- vec_deque.go:409-436 BinarySearch. -/
def binarySearch (cmp : Option (α → α → Ordering)) (self : VecDeque α) (value : α) : Go (Opt Nat) :=
  (Vec.binarySearchLoop (σ := Unit)
    (fun x => match cmp with
      | none => Eff.panic .nilDeref
      | some c => pure (c x value))
    self.buffer 0 ((self.len : Int) - 1) ()).1
/-- vec_deque.go:527-531 SortBy: `sort.SliceStable(self.buffer[:self.len], ...)`. -/
def sortBy (S : SortLib) (self : VecDeque α) (compare : α → α → Ordering) : Go (VecDeque α) :=
  if self.len ≤ self.buffer.length then
    .ok ⟨S.stable (Vec.less compare) (self.buffer.take self.len) ++ self.buffer.drop self.len,
      self.len, self.head⟩
  else .error .sliceBounds
/-- vec_deque.go:576-580 SortUnstableBy. -/
def sortUnstableBy (S : SortLib) (self : VecDeque α) (compare : α → α → Ordering) : Go (VecDeque α) :=
  if self.len ≤ self.buffer.length then
    .ok ⟨S.unstable (Vec.less compare) (self.buffer.take self.len) ++ self.buffer.drop self.len,
      self.len, self.head⟩
  else .error .sliceBounds
/-- vec_deque.go:493-505 Sort. -/
def sort (S : SortLib) (cmp : Option (α → α → Ordering)) (self : VecDeque α) : Go (VecDeque α) :=
  match cmp with
  | some c => self.sortBy S c
  | none => if self.len < 2 then .ok self else .error .explicit
/-- vec_deque.go:542-554 SortUnstable. -/
def sortUnstable (S : SortLib) (cmp : Option (α → α → Ordering)) (self : VecDeque α) :
    Go (VecDeque α) :=
  match cmp with
  | some c => self.sortUnstableBy S c
  | none => if self.len < 2 then .ok self else .error .explicit

/-- vec_deque.go:844-848 Eq: the loop. -/
def eqLoop (eqT : Option (α → α → Bool)) (self other : VecDeque α) : Nat → Nat → Go Bool
  | 0, _ => .ok true
  | n + 1, i => do
    let ox ← self.get i
    let x ← ox.unwrap
    match eqT with
    | none => .error .nilDeref
    | some e => do
      let oy ← other.get i
      let y ← oy.unwrap
      if !e x y then .ok false else eqLoop eqT self other n (i + 1)
/-- vec_deque.go:839-851 Eq. -/
def eq (eqT : Option (α → α → Bool)) (self other : VecDeque α) : Go Bool :=
  if self.len ≠ other.len then .ok false else eqLoop eqT self other self.len 0

/-- `for i := 0; i < deque.Len(); i++ { new.PushBack(deque.Get(i).Unwrap()) }` (vec_deque.go:831-833);
also the loops of the iterator adapters, with a callback in between. -/
def pushAllLoop (step : α → VecDeque α → Eff σ (VecDeque α)) (src : VecDeque α) :
    Nat → Nat → VecDeque α → Eff σ (VecDeque α)
  | 0, _, dst => pure dst
  | n + 1, i, dst => do
    let o ← Eff.lift (src.get i)
    let v ← Eff.lift o.unwrap
    let dst ← step v dst
    pushAllLoop step src n (i + 1) dst
/-- vec_deque.go:828-836 Clone (the elements are copied, not cloned). -/
def clone (self : VecDeque α) : Go (VecDeque α) := do
  let cloned ← withCapacity self.capacity
  (pushAllLoop (σ := Unit) (fun v d => Eff.lift (d.pushBack v)) self self.len 0 cloned ()).1

end VecDeque

/-- vec_deque.go:699-702 `VecDequeIter[T]`. -/
structure DequeIter (α : Type) where
  deque : VecDeque α
  position : Nat
  deriving DecidableEq, Repr

/-- vec_deque.go:705-707 IntoIter. -/
def VecDeque.intoIter {α : Type} (self : VecDeque α) : DequeIter α := ⟨self, 0⟩

namespace DequeIter
variable {σ α : Type} [Inhabited α]

/-- vec_deque.go:710-719 Next: new iterator and result. -/
def next (self : DequeIter α) : Go (DequeIter α × Opt α) :=
  if self.position ≥ self.deque.len then .ok (self, Opt.none)
  else do
    let value ← self.deque.get self.position
    .ok (⟨self.deque, self.position + 1⟩, value)
/-- vec_deque.go:722-730 Map. -/
def map (self : DequeIter α) (f : α → Eff σ α) : Eff σ (DequeIter α) := do
  let newDeque ← Eff.lift (VecDeque.withCapacity self.deque.capacity)
  let d ← VecDeque.pushAllLoop (fun v d => do let y ← f v; Eff.lift (d.pushBack y))
    self.deque self.deque.len 0 newDeque
  pure d.intoIter
/-- vec_deque.go:733-744 Filter. -/
def filter (self : DequeIter α) (f : α → Eff σ Bool) : Eff σ (DequeIter α) := do
  let newDeque ← Eff.lift (VecDeque.withCapacity self.deque.capacity)
  let d ← VecDeque.pushAllLoop (fun v d => do
      let b ← f v
      if b then Eff.lift (d.pushBack v) else pure d)
    self.deque self.deque.len 0 newDeque
  pure d.intoIter
/-- vec_deque.go:750-752 Fold: the loop. -/
def foldLoop (f : α → α → Eff σ α) (d : VecDeque α) : Nat → Nat → α → Eff σ α
  | 0, _, acc => pure acc
  | n + 1, i, acc => do
    let o ← Eff.lift (d.get i)
    let v ← Eff.lift o.unwrap
    let acc ← f acc v
    foldLoop f d n (i + 1) acc
/-- vec_deque.go:747-755 Fold. -/
def fold (self : DequeIter α) (initial : α) (f : α → α → Eff σ α) : Eff σ α :=
  foldLoop f self.deque self.deque.len 0 initial
/-- vec_deque.go:761-763 Rev: the loop `for i := Len-1; i >= 0; i--`, whose condition is always true for
an unsigned i; `none` = still running after `fuel` rounds. -/
def revLoop (d : VecDeque α) : Nat → Nat → VecDeque α → Go (Option (VecDeque α))
  | 0, _, _ => .ok none
  | fuel + 1, i, acc => do
    let o ← d.get i
    let v ← o.unwrap
    let acc ← acc.pushBack v
    revLoop d fuel (usizeSub i 1) acc
/-- vec_deque.go:758-766 Rev. -/
def rev (fuel : Nat) (self : DequeIter α) : Go (Option (DequeIter α)) := do
  let newDeque ← VecDeque.withCapacity self.deque.capacity
  let r ← revLoop self.deque fuel (usizeSub self.deque.len 1) newDeque
  .ok (r.map VecDeque.intoIter)
/-- vec_deque.go:772-774 CollectToVec: the loop. -/
def collectLoop (g : Growth) (d : VecDeque α) : Nat → Nat → Vec α → Go (Vec α)
  | 0, _, v => .ok v
  | n + 1, i, v => do
    let o ← d.get i
    let x ← o.unwrap
    collectLoop g d n (i + 1) (v.push g x)
/-- vec_deque.go:769-777 CollectToVec. -/
def collectToVec (g : Growth) (self : DequeIter α) : Go (Vec α) := do
  let newVec ← Vec.withCapacity self.deque.capacity
  collectLoop g self.deque self.deque.len 0 newVec

end DequeIter
end Gost
