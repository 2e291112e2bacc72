import Verif.Model.BinaryHeap
import Verif.Model.VecDeque
import Verif.Model.BTree
/-
Comparisons that return other numbers than the three constants: cmp.go:5-10 declares `type Ordering int`, so that a user's
Cmp (or the function given to SortBy and BinarySearchBy) may return Ordering(a - b).  The rest of the model uses Lean's
`Ordering`, the three constants.  Here an Ordering is its number, and the methods test it as the code does: `== OrderingLess`
is `= -1`, `== OrderingEqual` is `= 0`, `== OrderingGreater` is `= 1`.

Only the binary searches have a statement that depends on all three tests (a `switch` without `default`); it is modelled anew.
Each of the other methods makes two of the three tests, or one, so that it cannot tell a fourth value from one of the three; it
is the modelled method with the comparison read accordingly (`asLess`, `asHeap`, `asSearch`, `asInsert`, whose docstrings name
the tests).
-/
namespace Gost
namespace Raw

/-- The sorts test `== OrderingLess` only (vec.go:447, 476, 494, 523, vec_deque.go:503, 529, 552, 578). -/
def asLess (c : Int) : Ordering := if c = -1 then .lt else if c = 0 then .eq else .gt
/-- The BinaryHeap tests `== OrderingLess || == OrderingEqual` (binary_heap.go:103, 152). -/
def asHeap (c : Int) : Ordering := if c = -1 then .lt else if c = 0 then .eq else .gt
/-- _Search of the BTreeMap tests `== OrderingGreater`, then `== OrderingEqual` (btree_map.go:318, 323). -/
def asSearch (c : Int) : Ordering := if c = 1 then .gt else if c = 0 then .eq else .lt
/-- Insert, _InsertNonFull of the BTreeMap test `== OrderingLess` (btree_map.go:97, 424) and `== OrderingGreater` (399, 412). -/
def asInsert (c : Int) : Ordering := if c = 1 then .gt else if c = -1 then .lt else .eq

variable {σ α : Type}

/-- vec.go:385-403, loop of BinarySearchBy (and 340-360 of BinarySearch, vec_deque.go:413-433, 458-476); `none` = still
running.  The switch has no default: for a fourth value low and high stay as they are. -/
def searchLoop (f : α → Eff σ Int) (data : List α) : Nat → Int → Int → Eff σ (Option (Opt Nat))
  | 0, _, _ => pure none
  | fuel + 1, low, high =>
    if low ≤ high then do
      let mid := (low + high) / 2
      let x ← Eff.lift (index data mid.toNat)
      let ordering ← f x
      if ordering = -1 then searchLoop f data fuel (mid + 1) high
      else if ordering = 1 then searchLoop f data fuel low (mid - 1)
      else if ordering = 0 then pure (some (Opt.some mid.toNat))
      else searchLoop f data fuel low high
    else pure (some Opt.none)
/-- vec.go:381-406 BinarySearchBy, for a number of rounds. -/
def binarySearchBy (fuel : Nat) (self : Vec α) (f : α → Eff σ Int) : Eff σ (Option (Opt Nat)) :=
  searchLoop f self.data fuel 0 ((self.data.length : Int) - 1)
/-- vec.go:336-363 BinarySearch of elements with a Cmp, for a number of rounds. -/
def binarySearch (fuel : Nat) (c : α → α → Int) (self : Vec α) (value : α) : Go (Option (Opt Nat)) :=
  (searchLoop (σ := Unit) (fun x => pure (c x value)) self.data fuel 0 ((self.data.length : Int) - 1) ()).1
/-- vec_deque.go:454-479 BinarySearchBy, for a number of rounds. -/
def dequeBinarySearchBy (fuel : Nat) (self : VecDeque α) (f : α → Eff σ Int) : Eff σ (Option (Opt Nat)) :=
  searchLoop f self.buffer fuel 0 ((self.len : Int) - 1)

/-- vec.go:471-478 SortBy. -/
def sortBy (S : SortLib) (self : Vec α) (c : α → α → Int) : Vec α := self.sortBy S fun a b => asLess (c a b)
/-- vec.go:442-449 Sort of elements with a Cmp. -/
def sort (S : SortLib) (c : α → α → Int) (self : Vec α) : Go (Vec α) := self.sort S (some fun a b => asLess (c a b))
/-- vec.go:518-525 SortUnstableBy. -/
def sortUnstableBy (S : SortLib) (self : Vec α) (c : α → α → Int) : Vec α :=
  self.sortUnstableBy S fun a b => asLess (c a b)
/-- vec_deque.go:527-531 SortBy. -/
def dequeSortBy (S : SortLib) (self : VecDeque α) (c : α → α → Int) : Go (VecDeque α) :=
  self.sortBy S fun a b => asLess (c a b)

/-- binary_heap.go:81-88 Push. -/
def push (g : Growth) (c : α → α → Int) (self : BHeap α) (item : α) : Go (Option (BHeap α)) :=
  self.push g (fun a b => asHeap (c a b)) item
/-- binary_heap.go:123-133 Pop. -/
def pop (c : α → α → Int) (self : BHeap α) : Go (Option (BHeap α × Opt α)) := self.pop fun a b => asHeap (c a b)

variable {κ ν : Type}

/-- btree_map.go:163-174 Get. -/
def get (c : κ → κ → Int) (h : BStore κ ν) (self : BMap) (key : κ) : Go (Opt ν) :=
  self.get (fun a b => asSearch (c a b)) h key

open BTree in
/-- btree_map.go:48-112 Insert: `BMap.insert`, with the comparisons of _Search read by `asSearch` and the others by `asInsert`. -/
def insert (c : κ → κ → Int) (h : BStore κ ν) (self : BMap) (key : κ) (value : ν) : Go (BStore κ ν × BMap × Opt ν) :=
  match self.root with
  | none => self.insert (fun a b => asInsert (c a b)) h key value
  | some root => do
    let result ← search (fun a b => asSearch (c a b)) h key (h.length + 1) root
    match result with
    | some (a, index') => do
      let node ← load h (some a)
      let oldValue ← index node.values index'
      let vs ← setIndex node.values index' (some value)
      let old ← deref oldValue
      .ok (h.set a { node with values := vs }, self, Opt.some old)
    | none => do
      let rn ← load h (some root)
      if rn.n = capacity then do
        let newRoot : BNode κ ν := blank false capacity 0
        let cs ← setIndex newRoot.childs 0 (some root)
        let a := h.length
        let h := h ++ [{ newRoot with childs := cs }]
        let h ← splitChild h a 0 root
        let nr ← load h (some a)
        let k ← index nr.keys 0
        let k ← deref k
        let i := if c k key = -1 then 1 else 0
        let c' ← index nr.childs i
        let c' ← addr c'
        let h ← insertNonFull (fun a b => asInsert (c a b)) key value (h.length + 1) h c'
        .ok (h, ⟨some a, usize (self.len + 1)⟩, Opt.none)
      else do
        let h ← insertNonFull (fun a b => asInsert (c a b)) key value (h.length + 1) h root
        .ok (h, ⟨some root, usize (self.len + 1)⟩, Opt.none)

end Raw
end Gost
