import Verif.Model.VecDeque
/-
Model of /repo/linked_list.go.

Nodes live in a heap that all lists of a program share: a pointer to a node is an index into the heap,
nil is `none`.  Nodes are never freed.  A variable of type LinkedList is its three words; copying it
copies the pointers.
-/
namespace Gost

/-- linked_list.go:12-16 `LinkedListNode[T]`. -/
structure LNode (α : Type) where
  value : α
  next : Option Nat
  prev : Option Nat
  deriving DecidableEq, Repr

/-- The nodes (linked_list.go:12-16) allocated so far. -/
abbrev LHeap (α : Type) := List (LNode α)

/-- linked_list.go:6-10 `LinkedList[T]`. -/
structure LList where
  head : Option Nat
  tail : Option Nat
  len : Nat
  deriving DecidableEq, Repr

namespace LHeap
variable {α : Type}
/-- Dereference of a node pointer (linked_list.go, every `p.f`); a pointer outside the heap does not occur in Go. -/
def load (h : LHeap α) (p : Option Nat) : Go (LNode α) := do
  let i ← deref p
  index h i
/-- `p.next = q` (linked_list.go:77, 107, 226). -/
def setNext (h : LHeap α) (p q : Option Nat) : Go (LHeap α) := do
  let i ← deref p
  let n ← index h i
  .ok (h.set i { n with next := q })
/-- `p.prev = q` (linked_list.go:149, 178, 227). -/
def setPrev (h : LHeap α) (p q : Option Nat) : Go (LHeap α) := do
  let i ← deref p
  let n ← index h i
  .ok (h.set i { n with prev := q })
/-- `*p = v` through a pointer to the value of a node, as Front and Back return it (linked_list.go:129, 200). -/
def setValue (h : LHeap α) (p : Option Nat) (v : α) : Go (LHeap α) := do
  let i ← deref p
  let n ← index h i
  .ok (h.set i { n with value := v })
end LHeap

namespace LList
variable {σ α : Type}

/-- linked_list.go:19-21 LinkedListNew. -/
def new : LList := ⟨none, none, 0⟩
/-- linked_list.go:42-44 IsEmpty; Len (30-32) is the field. -/
def isEmpty (list : LList) : Bool := list.len == 0
/-- linked_list.go:54-58 Clear. -/
def clear (_list : LList) : LList := ⟨none, none, 0⟩
/-- linked_list.go:67-87 PushBack.  (`newNode.prev = list.tail` is done before the allocation becomes
visible.) -/
def pushBack (h : LHeap α) (list : LList) (value : α) : Go (LHeap α × LList) := do
  let newNode := h.length
  let h := h ++ [⟨value, none, list.tail⟩]
  let h ← (if list.tail.isSome then h.setNext list.tail (some newNode) else .ok h)
  .ok (h, ⟨if list.head.isNone then some newNode else list.head, some newNode, usize (list.len + 1)⟩)
/-- linked_list.go:98-115 PopBack. -/
def popBack (h : LHeap α) (list : LList) : Go (LHeap α × LList × Opt α) :=
  if list.tail.isNone then .ok (h, list, Opt.none)
  else do
    let t ← h.load list.tail
    if t.prev.isSome then do
      let h ← h.setNext t.prev none
      .ok (h, ⟨list.head, t.prev, usizeSub list.len 1⟩, Opt.some t.value)
    else .ok (h, ⟨none, t.prev, usizeSub list.len 1⟩, Opt.some t.value)
/-- linked_list.go:124-130 Back: a pointer to the value in the last node. -/
def back (list : LList) : Opt Nat := ⟨list.tail⟩
/-- linked_list.go:139-159 PushFront. -/
def pushFront (h : LHeap α) (list : LList) (value : α) : Go (LHeap α × LList) := do
  let newNode := h.length
  let h := h ++ [⟨value, list.head, none⟩]
  let h ← (if list.head.isSome then h.setPrev list.head (some newNode) else .ok h)
  .ok (h, ⟨some newNode, if list.tail.isNone then some newNode else list.tail, usize (list.len + 1)⟩)
/-- linked_list.go:169-186 PopFront. -/
def popFront (h : LHeap α) (list : LList) : Go (LHeap α × LList × Opt α) :=
  if list.head.isNone then .ok (h, list, Opt.none)
  else do
    let t ← h.load list.head
    if t.next.isSome then do
      let h ← h.setPrev t.next none
      .ok (h, ⟨t.next, list.tail, usizeSub list.len 1⟩, Opt.some t.value)
    else .ok (h, ⟨t.next, none, usizeSub list.len 1⟩, Opt.some t.value)
/-- linked_list.go:195-201 Front: a pointer to the value in the first node. -/
def front (list : LList) : Opt Nat := ⟨list.head⟩
/-- linked_list.go:217-234 Append, of a list in another variable: heap, new list, new other. -/
def append (h : LHeap α) (list other : LList) : Go (LHeap α × LList × LList) :=
  if other.head.isNone then .ok (h, list, other)
  else if list.head.isNone then .ok (h, ⟨other.head, other.tail, other.len⟩, other.clear)
  else do
    let h ← h.setNext list.tail other.head
    let h ← h.setPrev other.head list.tail
    .ok (h, ⟨list.head, other.tail, usize (list.len + other.len)⟩, other.clear)
/-- linked_list.go:217-234 Append of a list to itself (`other == list`): every write to `list` is seen
through `other`, and the final `other.Clear()` clears `list`. -/
def appendSelf (h : LHeap α) (list : LList) : Go (LHeap α × LList) :=
  if list.head.isNone then .ok (h, list)
  else do
    let h ← h.setNext list.tail list.head
    let h ← h.setPrev list.head list.tail
    .ok (h, list.clear)
/-- linked_list.go:237-241 IntoIter; an iterator (244-246) is its node pointer. -/
def intoIter (list : LList) : Option Nat := list.head
end LList

namespace LIter
variable {σ α : Type}

/-- linked_list.go:249-258 Next: new pointer and result. -/
def next (h : LHeap α) (it : Option Nat) : Go (Option Nat × Opt α) :=
  if it.isNone then .ok (it, Opt.none)
  else do
    let n ← h.load it
    .ok (n.next, Opt.some n.value)
/-- The loops of Fold (linked_list.go:306-314) and CollectToVec (341-347): call Next until None;
`none` = still running after `fuel` rounds. -/
def drain {β : Type} (h : LHeap α) (step : β → α → Eff σ β) : Nat → Option Nat → β → Eff σ (Option β)
  | 0, _, _ => pure none
  | fuel + 1, it, acc => do
    let (it, o) ← Eff.lift (next h it)
    if o.isNone then pure (some acc)
    else do
      let v ← Eff.lift o.unwrap
      let acc ← step acc v
      drain h step fuel it acc
/-- The loops of Map (linked_list.go:266-274), Filter (285-295), Rev (325-333), CollectToLinkedList
(353-359) and Clone (413-429): call Next until None, and push the value `c` gives for each element, if
any, on the new list.  The heap is threaded through: the loop reads the old list while it builds the
new one.  (Callbacks do not touch the lists of the program.) -/
def drainPush (c : α → Eff σ (Option α)) : Nat → LHeap α → Option Nat → LList →
    Eff σ (Option (LHeap α × LList))
  | 0, _, _, _ => pure none
  | fuel + 1, h, it, l => do
    let (it, o) ← Eff.lift (next h it)
    if o.isNone then pure (some (h, l))
    else do
      let v ← Eff.lift o.unwrap
      let y ← c v
      match y with
      | none => drainPush c fuel h it l
      | some y => do
        let (h, l) ← Eff.lift (l.pushBack h y)
        drainPush c fuel h it l
/-- A number of rounds that suffices for the loops on lists without cycles (linked_list.go: the loops
have no bound). -/
abbrev rounds (h : LHeap α) : Nat := h.length + 1
/-- linked_list.go:261-277 Map: the heap and an iterator over the new list. -/
def map (h : LHeap α) (it : Option Nat) (f : α → Eff σ α) : Eff σ (Option (LHeap α × Option Nat)) := do
  let r ← drainPush (fun v => do let y ← f v; pure (some y)) (rounds h) h it LList.new
  pure (r.map fun r => (r.1, r.2.intoIter))
/-- linked_list.go:280-298 Filter. -/
def filter (h : LHeap α) (it : Option Nat) (f : α → Eff σ Bool) : Eff σ (Option (LHeap α × Option Nat)) := do
  let r ← drainPush (fun v => do let b ← f v; pure (if b then some v else none)) (rounds h) h it LList.new
  pure (r.map fun r => (r.1, r.2.intoIter))
/-- linked_list.go:301-317 Fold. -/
def fold (h : LHeap α) (it : Option Nat) (init : α) (f : α → α → Eff σ α) : Eff σ (Option α) :=
  drain h f (rounds h) it init
/-- linked_list.go:320-336 Rev (which does not reverse). -/
def rev (h : LHeap α) (it : Option Nat) : Go (Option (LHeap α × Option Nat)) := do
  let r ← (drainPush (σ := Unit) (fun v => pure (some v)) (rounds h) h it LList.new ()).1
  .ok (r.map fun r => (r.1, r.2.intoIter))
/-- linked_list.go:339-348 CollectToVec. -/
def collectToVec (g : Growth) (h : LHeap α) (it : Option Nat) : Go (Option (Vec α)) :=
  (drain (σ := Unit) h (fun v x => pure (v.push g x)) (rounds h) it (⟨[], 0⟩ : Vec α) ()).1
/-- linked_list.go:351-360 CollectToLinkedList. -/
def collectToLinkedList (h : LHeap α) (it : Option Nat) : Go (Option (LHeap α × LList)) :=
  (drainPush (σ := Unit) (fun v => pure (some v)) (rounds h) h it LList.new ()).1
end LIter

namespace LList
variable {σ α : Type}

/-- linked_list.go:409-432 Clone; `clone` is the element's Clone method, if it has one. -/
def clone (cl : Option (α → Eff σ α)) (h : LHeap α) (list : LList) : Eff σ (Option (LHeap α × LList)) :=
  LIter.drainPush (fun v => match cl with
    | some c => do let y ← c v; pure (some y)
    | none => Eff.panic .explicit) (LIter.rounds h) h list.intoIter new
/-- linked_list.go:443-467 Eq: the loop. -/
def eqLoop (eqT : Option (α → α → Bool)) (h : LHeap α) : Nat → Option Nat → Option Nat → Go (Option Bool)
  | 0, _, _ => .ok none
  | fuel + 1, it1, it2 => do
    let (it1, w1) ← LIter.next h it1
    let (it2, w2) ← LIter.next h it2
    if w1.isNone then .ok (some true)
    else if w2.isNone then .ok (some true)
    else do
      let e1 ← w1.unwrap
      let e2 ← w2.unwrap
      match eqT with
      | some e => if !e e1 e2 then .ok (some false) else eqLoop eqT h fuel it1 it2
      | none => .error .explicit
/-- linked_list.go:435-470 Eq. -/
def eq (eqT : Option (α → α → Bool)) (h : LHeap α) (self rhs : LList) : Go (Option Bool) :=
  if self.len ≠ rhs.len then .ok (some false)
  else eqLoop eqT h (LIter.rounds h) self.intoIter rhs.intoIter
end LList

/-- vec.go:624-633 VecIter.CollectToLinkedList; with the same text hash_map.go:211-222, 326-337, 434-445,
hash_set.go:426-437, btree_map.go:850-861, 964-975, 1078-1089 and btree_set.go:391-402. -/
def VecIter.collectToLinkedList {α : Type} (h : LHeap α) (self : VecIter α) : Go (Option (LHeap α × LList)) :=
  (VecIter.drain (σ := Unit) (fun (st : LHeap α × LList) v => Eff.lift (st.2.pushBack st.1 v))
    self.rounds self (h, LList.new) ()).1
/-- vec_deque.go:783-785 VecDequeIter.CollectToLinkedList: the loop. -/
def DequeIter.toLinkedListLoop {α : Type} [Inhabited α] (d : VecDeque α) :
    Nat → Nat → LHeap α × LList → Go (LHeap α × LList)
  | 0, _, st => .ok st
  | n + 1, i, st => do
    let o ← d.get i
    let v ← o.unwrap
    let st ← st.2.pushBack st.1 v
    toLinkedListLoop d n (i + 1) st
/-- vec_deque.go:780-788 VecDequeIter.CollectToLinkedList. -/
def DequeIter.collectToLinkedList {α : Type} [Inhabited α] (h : LHeap α) (self : DequeIter α) :
    Go (LHeap α × LList) := toLinkedListLoop self.deque self.deque.len 0 (h, LList.new)

end Gost
