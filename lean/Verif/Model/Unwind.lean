import Verif.Model.BinaryHeap
import Verif.Model.VecDeque
/-
The methods that call back into user code while they change a container (Cmp and Eq methods, predicates, key functions,
generators), with the state the container is in when the callback panics and the panic is recovered by the caller.

The state is the container variable and the rest of the program, `c × σ`; it is kept when the computation panics (see
`Eff`).  A callback may have effects and panic, but does not touch the container.  The results of runs that do not panic
are those of the models in Model/Vec.lean, Model/VecDeque.lean and Model/BinaryHeap.lean (proved in Props/Unwind.lean and
Props/UnwindHeap.lean).
-/
namespace Gost
namespace Unwind
variable {c σ α κ : Type}

/-- Read the container variable. -/
def get : Eff (c × σ) c := fun s => (.ok s.1, s)
/-- Assign the container variable. -/
def put (v : c) : Eff (c × σ) Unit := fun s => (.ok (), (v, s.2))
/-- A callback. -/
def call {β : Type} (x : Eff σ β) : Eff (c × σ) β := fun s => ((x s.2).1, (s.1, (x s.2).2))

/-! ### vec.go -/

/-- vec.go:142-146 Insert (see `Vec.insert`): three assignments. -/
def insert (g : Growth) (idx : Nat) (value : α) : Eff (Vec α × σ) Unit := do
  let self ← get
  let self := self.goAppend g [value]
  put self
  let data ← Eff.lift (copyWithin self.data (idx + 1) idx)
  put ⟨data, self.cap⟩
  let data ← Eff.lift (setIndex data idx value)
  put ⟨data, self.cap⟩
/-- vec.go:162-166 Retain: the loop; `newData` is a local variable. -/
def retainLoop (g : Growth) (predicate : α → Eff σ Bool) : List α → Vec α → Eff (Vec α × σ) (Vec α)
  | [], newData => pure newData
  | value :: rest, newData => do
    let keep ← call (predicate value)
    if keep then retainLoop g predicate rest (newData.goAppend g [value])
    else retainLoop g predicate rest newData
/-- vec.go:160-168 Retain. -/
def retain (g : Growth) (predicate : α → Eff σ Bool) : Eff (Vec α × σ) Unit := do
  let self ← get
  let newData ← retainLoop g predicate self.data ⟨[], self.data.length⟩
  put newData
/-- vec.go:185-191 DedupByKey: the loop; `newData` and `seen` are local variables. -/
def dedupByKeyLoop (g : Growth) (keq : κ → κ → Bool) (key : α → Eff σ κ) :
    List α → List κ → Vec α → Eff (Vec α × σ) (Vec α)
  | [], _, newData => pure newData
  | value :: rest, seen, newData => do
    let k ← call (key value)
    if !seen.any (keq k) then dedupByKeyLoop g keq key rest (k :: seen) (newData.goAppend g [value])
    else dedupByKeyLoop g keq key rest seen newData
/-- vec.go:182-193 DedupByKey. -/
def dedupByKey (g : Growth) (keq : κ → κ → Bool) (key : α → Eff σ κ) : Eff (Vec α × σ) Unit := do
  let self ← get
  let newData ← dedupByKeyLoop g keq key self.data [] ⟨[], self.data.length⟩
  put newData
/-- vec.go:427-429 FillWith: the loop, `n` rounds from `i` on. -/
def fillWithLoop (f : Eff σ α) : Nat → Nat → Eff (Vec α × σ) Unit
  | 0, _ => pure ()
  | n + 1, i => do
    let value ← call f
    let self ← get
    let self ← Eff.lift (self.setUnchecked i value)
    put self
    fillWithLoop f n (i + 1)
/-- vec.go:426-430 FillWith. -/
def fillWith (f : Eff σ α) : Eff (Vec α × σ) Unit := do
  let self ← get
  fillWithLoop f self.data.length 0

/-! ### vec_deque.go -/

/-- vec_deque.go:199-205 Retain: the loop, `n` rounds from `i` on; gives the new length. -/
def dqRetainLoop [Inhabited α] (f : α → Eff σ Bool) : Nat → Nat → Nat → Eff (VecDeque α × σ) Nat
  | 0, _, newLen => pure newLen
  | n + 1, i, newLen => do
    let self ← get
    let value ← Eff.lift (self.getUnchecked i)
    let keep ← call (f value)
    if keep then do
      let self ← Eff.lift (self.setUnchecked newLen value)
      put self
      dqRetainLoop f n (i + 1) (newLen + 1)
    else dqRetainLoop f n (i + 1) newLen
/-- vec_deque.go:196-208 Retain. -/
def dqRetain [Inhabited α] (f : α → Eff σ Bool) : Eff (VecDeque α × σ) Unit := do
  let self ← get
  let newLen ← dqRetainLoop f self.len 0 0
  let self ← get
  put { self with len := newLen }
/-- vec_deque.go:396-398 FillWith: the loop, `n` rounds from `i` on. -/
def dqFillWithLoop [Inhabited α] (f : Eff σ α) : Nat → Nat → Eff (VecDeque α × σ) Unit
  | 0, _ => pure ()
  | n + 1, i => do
    let value ← call f
    let self ← get
    let self ← Eff.lift (self.setUnchecked i value)
    put self
    dqFillWithLoop f n (i + 1)
/-- vec_deque.go:395-399 FillWith. -/
def dqFillWith [Inhabited α] (f : Eff σ α) : Eff (VecDeque α × σ) Unit := do
  let self ← get
  dqFillWithLoop f self.len 0
/-- vec_deque.go:227-232 Dedup: the loop; `e` is the Eq method of the elements. -/
def dqDedupLoop [Inhabited α] (e : α → α → Eff σ Bool) : Nat → Nat → Nat → Eff (VecDeque α × σ) Nat
  | 0, _, newLen => pure newLen
  | n + 1, i, newLen => do
    let self ← get
    let x ← Eff.lift (self.getUnchecked i)
    let y ← Eff.lift (self.getUnchecked (usizeSub newLen 1))
    let same ← call (e x y)
    if !same then do
      let self ← Eff.lift (self.setUnchecked newLen x)
      put self
      dqDedupLoop e n (i + 1) (newLen + 1)
    else dqDedupLoop e n (i + 1) newLen
/-- vec_deque.go:220-235 Dedup, for elements with an Eq method. -/
def dqDedup [Inhabited α] (e : α → α → Eff σ Bool) : Eff (VecDeque α × σ) Unit := do
  let self ← get
  if self.isEmpty then pure ()
  else do
    let newLen ← dqDedupLoop e (self.len - 1) 1 1
    let self ← get
    put { self with len := newLen }

/-! ### binary_heap.go -/

/-- binary_heap.go:95-109 _SiftUp: the loop (see `BHeap.siftUpLoop`); the vector of the heap is the state. -/
def siftUpLoop (cmp : α → α → Eff σ Ordering) (start : Nat) : Nat → α → Nat → Eff (Vec α × σ) (Option Nat)
  | 0, _, _ => pure none
  | fuel + 1, elt, pos =>
    if pos > start then do
      let parent := (pos - 1) / 2
      let v ← get
      let p ← Eff.lift (index v.data parent)
      let order ← call (cmp elt p)
      if order = .lt ∨ order = .eq then pure (some pos)
      else do
        let v ← Eff.lift (v.swap pos parent)
        put v
        siftUpLoop cmp start fuel elt parent
    else pure (some pos)
/-- binary_heap.go:90-112 _SiftUp. -/
def siftUp (cmp : α → α → Eff σ Ordering) (start pos : Nat) : Eff (Vec α × σ) (Option Nat) := do
  let v ← get
  let elt ← Eff.lift (v.getUnchecked pos)
  siftUpLoop cmp start (pos + 1) elt pos
/-- binary_heap.go:81-88 Push; `none` would be a loop that does not end. -/
def push (g : Growth) (cmp : α → α → Eff σ Ordering) (item : α) : Eff (Vec α × σ) (Option Unit) := do
  let v ← get
  put (v.push g item)
  let r ← siftUp cmp 0 v.len
  pure (r.map fun _ => ())
/-- binary_heap.go:144-160 _SiftDownToBottom: the loop; gives position and child. -/
def siftDownLoop (cmp : α → α → Eff σ Ordering) (end_ : Nat) :
    Nat → Nat → Nat → Eff (Vec α × σ) (Option (Nat × Nat))
  | 0, _, _ => pure none
  | fuel + 1, pos, child =>
    if child ≤ end_ - 2 then do
      let v ← get
      let a ← Eff.lift (index v.data child)
      let b ← Eff.lift (index v.data (child + 1))
      let ordering ← call (cmp a b)
      let child := if ordering = .lt ∨ ordering = .eq then child + 1 else child
      let v ← Eff.lift (v.swap pos child)
      put v
      siftDownLoop cmp end_ fuel child (2 * child + 1)
    else pure (some (pos, child))
/-- binary_heap.go:135-171 _SiftDownToBottom. -/
def siftDownToBottom (cmp : α → α → Eff σ Ordering) (pos : Nat) : Eff (Vec α × σ) (Option Unit) := do
  let v ← get
  let end_ := v.len
  let _ ← Eff.lift (v.getUnchecked pos)
  let r ← siftDownLoop cmp end_ (end_ + 1) pos (2 * pos + 1)
  match r with
  | none => pure none
  | some (hole, child) =>
    if child = end_ - 1 then do
      let v ← get
      let v ← Eff.lift (v.swap hole child)
      put v
      let r ← siftUp cmp pos child
      pure (r.map fun _ => ())
    else do
      let r ← siftUp cmp pos hole
      pure (r.map fun _ => ())
/-- binary_heap.go:123-133 Pop. -/
def pop (cmp : α → α → Eff σ Ordering) : Eff (Vec α × σ) (Option (Opt α)) := do
  let v ← get
  let (v, o) ← Eff.lift v.pop
  put v
  if o.isNone then pure (some Opt.none)
  else do
    let item ← Eff.lift o.unwrap
    if !v.isEmpty then do
      let x ← Eff.lift (index v.data 0)
      let v ← Eff.lift (v.setUnchecked 0 item)
      put v
      let r ← siftDownToBottom cmp 0
      pure (r.map fun _ => Opt.some x)
    else pure (some (Opt.some item))
/-- binary_heap.go:187-189 Append: the loop. -/
def pushAll (g : Growth) (cmp : α → α → Eff σ Ordering) : List α → Eff (Vec α × σ) (Option Unit)
  | [] => pure (some ())
  | item :: rest => do
    let r ← push g cmp item
    match r with
    | none => pure none
    | some () => pushAll g cmp rest
/-- binary_heap.go:185-190 Append; `other` is the vector of the other heap, which has its own storage. -/
def append [Inhabited α] (g : Growth) (cmp : α → α → Eff σ Ordering) (other : Vec α) :
    Eff (Vec α × σ) (Option Unit) := do
  let v ← get
  let v ← Eff.lift (v.reserve g (usize (v.len + other.len)))
  put v
  pushAll g cmp other.data
/-- binary_heap.go:240-244 IntoSortedVec: the loop; `sortedVec` is a local variable. -/
def sortedLoop (cmp : α → α → Eff σ Ordering) : Nat → Vec α → Nat → Eff (Vec α × σ) (Option (Vec α))
  | 0, _, _ => pure none
  | fuel + 1, sortedVec, idx => do
    let v ← get
    if !v.isEmpty then do
      let r ← pop cmp
      match r with
      | none => pure none
      | some o => do
        let x ← Eff.lift o.unwrap
        let sortedVec ← Eff.lift (sortedVec.setUnchecked idx x)
        sortedLoop cmp fuel sortedVec (usizeSub idx 1)
    else pure (some sortedVec)
/-- binary_heap.go:235-247 IntoSortedVec. -/
def intoSortedVec [Inhabited α] (cmp : α → α → Eff σ Ordering) : Eff (Vec α × σ) (Option (Vec α)) := do
  let v ← get
  let sortedVec ← Eff.lift (Vec.withLen v.len)
  sortedLoop cmp (v.len + 1) sortedVec (usizeSub v.len 1)
end Unwind
end Gost
