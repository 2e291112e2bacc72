import Verif.Model.Option
/-
Model of /repo/vec.go.

Here a vector owns its backing array: it is the list of its elements plus the capacity of the array.
Vectors that share a backing array (copies of the struct, AsSlice) are modelled in
`Model/SliceHeap.lean`.  Lengths and `int` indices are mathematical integers (a slice has fewer than
2^62 elements unless the element type has size zero); `USize` parameters are naturals below 2^64.
Callbacks do not touch the vector they are called from.
-/
namespace Gost

/-- How `append` chooses the new capacity when the old one is too small: any policy that gives room. -/
structure Growth where
  newCap : Nat → Nat → Nat
  enough : ∀ oldCap needed, needed ≤ newCap oldCap needed

/-- vec.go:11-13 `Vec[T]`. -/
structure Vec (α : Type) where
  data : List α
  cap : Nat
  deriving DecidableEq, Repr

namespace Vec
variable {σ α κ : Type} (g : Growth)

/-- Go's `append(a, xs...)`. -/
def goAppend (v : Vec α) (xs : List α) : Vec α :=
  let n := v.data.length + xs.length
  ⟨v.data ++ xs, if n ≤ v.cap then v.cap else g.newCap v.cap n⟩

/-- vec.go:17-19 VecNew; AsSlice (vec.go:130-132) is `data`. -/
def new : Vec α := ⟨[], 0⟩
/-- vec.go:22-24 VecWithCapacity. -/
def withCapacity (capacity : Nat) : Go (Vec α) := do
  makeLen capacity
  .ok ⟨[], capacity⟩
/-- vec.go:27-29 VecWithLen. -/
def withLen [Inhabited α] (len : Nat) : Go (Vec α) := do
  makeLen len
  .ok ⟨List.replicate len default, len⟩
/-- vec.go:38-40 Capacity. -/
abbrev capacity (self : Vec α) : Nat := self.cap
/-- vec.go:49-51 Len. -/
abbrev len (self : Vec α) : Nat := self.data.length
/-- vec.go:60-62 IsEmpty. -/
def isEmpty (self : Vec α) : Bool := self.len == 0
/-- vec.go:71-75 Reserve. -/
def reserve [Inhabited α] (self : Vec α) (additional : Nat) : Go (Vec α) :=
  if self.capacity < usize (self.len + additional) then do
    makeLen additional
    .ok (self.goAppend g (List.replicate additional default))
  else .ok self
/-- vec.go:84-86 Push. -/
def push (self : Vec α) (value : α) : Vec α := self.goAppend g [value]
/-- vec.go:95-103 Pop: new vector and result. -/
def pop (self : Vec α) : Go (Vec α × Opt α) :=
  if self.data.length = 0 then .ok (self, Opt.none)
  else do
    let value ← index self.data (self.data.length - 1)
    .ok (⟨self.data.take (self.data.length - 1), self.cap⟩, Opt.some value)
/-- vec.go:113-116 Append: new self and new other, for two different vectors. -/
def append (self other : Vec α) : Vec α × Vec α := (self.goAppend g other.data, new)
/-- vec.go:113-116 Append of a vector to itself (`v.Append(&v)`): the second assignment wins. -/
def appendSelf (self : Vec α) : Vec α :=
  let _ := self.goAppend g self.data
  new
/-- vec.go:125-127 Clear. -/
def clear (_self : Vec α) : Vec α := new
/-- vec.go:142-146 Insert.  `index+1` wraps only for index = 2^64-1, where `data[index:]` panics just as
the unwrapped `data[index+1:]` does here. -/
def insert (self : Vec α) (idx : Nat) (value : α) : Go (Vec α) := do
  let v := self.goAppend g [value]
  let data ← copyWithin v.data (idx + 1) idx
  let data ← setIndex data idx value
  .ok ⟨data, v.cap⟩
/-- vec.go:160-168 Retain: the loop. -/
def retainLoop (predicate : α → Eff σ Bool) : List α → Vec α → Eff σ (Vec α)
  | [], newData => pure newData
  | value :: rest, newData => do
    let keep ← predicate value
    if keep then retainLoop predicate rest (newData.goAppend g [value])
    else retainLoop predicate rest newData
/-- vec.go:160-168 Retain. -/
def retain (self : Vec α) (predicate : α → Eff σ Bool) : Eff σ (Vec α) :=
  retainLoop g predicate self.data ⟨[], self.data.length⟩
/-- vec.go:182-193 DedupByKey: the loop.  `keq` is Go's `==` on the keys; `seen` are the keys put into
the map so far.  (A key of an unhashable type is a panic of the callback here.) -/
def dedupByKeyLoop (keq : κ → κ → Bool) (key : α → Eff σ κ) :
    List α → List κ → Vec α → Eff σ (Vec α)
  | [], _, newData => pure newData
  | value :: rest, seen, newData => do
    let k ← key value
    if !seen.any (keq k) then
      dedupByKeyLoop keq key rest (k :: seen) (newData.goAppend g [value])
    else dedupByKeyLoop keq key rest seen newData
/-- vec.go:182-193 DedupByKey. -/
def dedupByKey (keq : κ → κ → Bool) (self : Vec α) (key : α → Eff σ κ) : Eff σ (Vec α) :=
  dedupByKeyLoop g keq key self.data [] ⟨[], self.data.length⟩
/-- vec.go:212-217 Dedup: the loop from index `i` on, `n` iterations left. -/
def dedupLoop (deepEqual : α → α → Bool) : Nat → Nat → Nat → List α → Go (Nat × List α)
  | 0, _, prev, data => .ok (prev, data)
  | n + 1, i, prev, data => do
    let a ← index data prev
    let b ← index data i
    if !deepEqual a b then
      let data ← setIndex data (prev + 1) b
      dedupLoop deepEqual n (i + 1) (prev + 1) data
    else dedupLoop deepEqual n (i + 1) prev data
/-- vec.go:205-220 Dedup; `deepEqual` is reflect.DeepEqual on the element type. -/
def dedup (deepEqual : α → α → Bool) (self : Vec α) : Go (Vec α) :=
  if self.data.length ≤ 1 then .ok self
  else do
    let (prev, data) ← dedupLoop deepEqual (self.data.length - 1) 1 0 self.data
    .ok ⟨data.take (prev + 1), self.cap⟩
/-- vec.go:232-238 Get. -/
def get (self : Vec α) (idx : Nat) : Go (Opt α) :=
  if idx ≥ self.len then .ok Opt.none
  else do
    let v ← index self.data idx
    .ok (Opt.some v)
/-- vec.go:248-250 GetUnchecked. -/
def getUnchecked (self : Vec α) (idx : Nat) : Go α := index self.data idx
/-- vec.go:260-267 Set: new vector and result. -/
def set (self : Vec α) (idx : Nat) (value : α) : Go (Vec α × Opt α) :=
  if idx ≥ self.len then do
    let v ← index self.data idx
    .ok (self, Opt.some v)
  else do
    let data ← setIndex self.data idx value
    .ok (⟨data, self.cap⟩, Opt.none)
/-- vec.go:277-279 SetUnchecked. -/
def setUnchecked (self : Vec α) (idx : Nat) (value : α) : Go (Vec α) := do
  let data ← setIndex self.data idx value
  .ok ⟨data, self.cap⟩
/-- vec.go:291-293 Swap, on the data. -/
def swapData (data : List α) (a b : Nat) : Go (List α) := do
  let y ← index data b
  let x ← index data a
  let data ← setIndex data a y
  setIndex data b x
/-- vec.go:291-293 Swap. -/
def swap (self : Vec α) (a b : Nat) : Go (Vec α) := do
  let data ← swapData self.data a b
  .ok ⟨data, self.cap⟩
/-- vec.go:304-306 Reverse: `n` iterations from `i` on. -/
def reverseLoop : Nat → Nat → List α → Go (List α)
  | 0, _, data => .ok data
  | n + 1, i, data => do
    let data ← swapData data i (data.length - 1 - i)
    reverseLoop n (i + 1) data
/-- vec.go:303-307 Reverse. -/
def reverse (self : Vec α) : Go (Vec α) := do
  let data ← reverseLoop (self.data.length / 2) 0 self.data
  .ok ⟨data, self.cap⟩
/-- vec.go:319-326 Contains. -/
def contains (deepEqual : α → α → Bool) (self : Vec α) (value : α) : Bool :=
  let rec loop : List α → Bool
    | [] => false
    | v :: rest => if deepEqual v value then true else loop rest
  loop self.data
/-- vec.go:385-403 BinarySearchBy: the loop (and 340-360, that of BinarySearch).  `/` on non-negative
ints. -/
def binarySearchLoop (f : α → Eff σ Ordering) (data : List α) (low high : Int) : Eff σ (Opt Nat) :=
  if _h : low ≤ high then do
    let mid := (low + high) / 2
    let x ← Eff.lift (index data mid.toNat)
    let ordering ← f x
    match ordering with
    | .lt => binarySearchLoop f data (mid + 1) high
    | .gt => binarySearchLoop f data low (mid - 1)
    | .eq => pure (Opt.some mid.toNat)
  else pure Opt.none
termination_by (high - low + 1).toNat
decreasing_by all_goals omega
/-- vec.go:381-406 BinarySearchBy. -/
def binarySearchBy (self : Vec α) (f : α → Eff σ Ordering) : Eff σ (Opt Nat) :=
  binarySearchLoop f self.data 0 ((self.data.length : Int) - 1)
/-- vec.go:336-363 BinarySearch; `cmp` is the element's Cmp method, if it has one. -/
def binarySearch (cmp : Option (α → α → Ordering)) (self : Vec α) (value : α) : Go (Opt Nat) :=
  (binarySearchLoop (σ := Unit)
    (fun x => match cmp with
      | none => Eff.panic .nilDeref
      | some c => pure (c x value))
    self.data 0 ((self.data.length : Int) - 1) ()).1
/-- vec.go:413-417 Fill: `n` iterations from `i` on. -/
def fillLoop (value : α) : Nat → Nat → List α → Go (List α)
  | 0, _, data => .ok data
  | n + 1, i, data => do
    let data ← setIndex data i value
    fillLoop value n (i + 1) data
/-- vec.go:413-417 Fill. -/
def fill (self : Vec α) (value : α) : Go (Vec α) := do
  let data ← fillLoop value self.data.length 0 self.data
  .ok ⟨data, self.cap⟩
/-- vec.go:426-430 FillWith: the loop. -/
def fillWithLoop (f : Eff σ α) : Nat → Nat → List α → Eff σ (List α)
  | 0, _, data => pure data
  | n + 1, i, data => do
    let value ← f
    let data ← Eff.lift (setIndex data i value)
    fillWithLoop f n (i + 1) data
/-- vec.go:426-430 FillWith. -/
def fillWith (self : Vec α) (f : Eff σ α) : Eff σ (Vec α) := do
  let data ← fillWithLoop f self.data.length 0 self.data
  pure ⟨data, self.cap⟩

end Vec

/-- `lt` is a strict weak order: what package sort asks of `less`. -/
structure StrictWeak {α : Type} (lt : α → α → Bool) : Prop where
  irrefl : ∀ a, lt a a = false
  trans : ∀ a b c, lt a b = true → lt b c = true → lt a c = true
  cotrans : ∀ a b c, lt a c = true → lt a b = true ∨ lt b c = true

/-- The contract of package sort: `sort.SliceStable` and `sort.Slice` permute the elements; if `less`
is a strict weak order the result is sorted, and for SliceStable the elements equivalent to any given
element keep their order. -/
structure SortLib where
  stable : {α : Type} → (α → α → Bool) → List α → List α
  unstable : {α : Type} → (α → α → Bool) → List α → List α
  stable_perm : ∀ {α : Type} (lt : α → α → Bool) (l : List α), (stable lt l).Perm l
  unstable_perm : ∀ {α : Type} (lt : α → α → Bool) (l : List α), (unstable lt l).Perm l
  stable_sorted : ∀ {α : Type} (lt : α → α → Bool) (l : List α), StrictWeak lt →
    (stable lt l).Pairwise fun a b => lt b a = false
  unstable_sorted : ∀ {α : Type} (lt : α → α → Bool) (l : List α), StrictWeak lt →
    (unstable lt l).Pairwise fun a b => lt b a = false
  stable_stable : ∀ {α : Type} (lt : α → α → Bool) (l : List α), StrictWeak lt → ∀ x,
    (stable lt l).filter (fun a => !lt a x && !lt x a) = l.filter (fun a => !lt a x && !lt x a)

namespace Vec
variable {α : Type} (S : SortLib)

/-- The `less` closure of a comparator (vec.go:472-477 and similar). -/
def less (compare : α → α → Ordering) (a b : α) : Bool := compare a b == .lt
/-- vec.go:471-478 SortBy. -/
def sortBy (self : Vec α) (compare : α → α → Ordering) : Vec α :=
  ⟨S.stable (less compare) self.data, self.cap⟩
/-- vec.go:442-449 Sort; `cmp` is the element's Cmp method, if it has one.  With fewer than two
elements package sort does not call `less`. -/
def sort (cmp : Option (α → α → Ordering)) (self : Vec α) : Go (Vec α) :=
  match cmp with
  | some c => .ok (self.sortBy S c)
  | none => if self.data.length < 2 then .ok self else .error .nilDeref
/-- vec.go:518-525 SortUnstableBy. -/
def sortUnstableBy (self : Vec α) (compare : α → α → Ordering) : Vec α :=
  ⟨S.unstable (less compare) self.data, self.cap⟩
/-- vec.go:489-496 SortUnstable. -/
def sortUnstable (cmp : Option (α → α → Ordering)) (self : Vec α) : Go (Vec α) :=
  match cmp with
  | some c => .ok (self.sortUnstableBy S c)
  | none => if self.data.length < 2 then .ok self else .error .nilDeref

/-- vec.go:685-697 Eq: the loop; `n` iterations from `i` on. -/
def eqLoop (eqT : Option (α → α → Bool)) (a b : List α) : Nat → Nat → Go Bool
  | 0, _ => .ok true
  | n + 1, i => do
    let x ← index a i
    match eqT with
    | none => .error .nilDeref
    | some e => do
      let y ← index b i
      if !e x y then .ok false else eqLoop eqT a b n (i + 1)
/-- vec.go:685-697 Eq; `eqT` is the element's Eq method, if it has one. -/
def eq (eqT : Option (α → α → Bool)) (self other : Vec α) : Go Bool :=
  if self.len ≠ other.len then .ok false
  else eqLoop eqT self.data other.data self.len 0

/-- vec.go:676-679 Clone: the loop. -/
def cloneLoop (cloneT : Option (α → α)) (src : List α) : Nat → Nat → List α → Go (List α)
  | 0, _, dst => .ok dst
  | n + 1, i, dst => do
    let x ← index src i
    match cloneT with
    | none => .error .nilDeref
    | some c => do
      let dst ← setIndex dst i (c x)
      cloneLoop cloneT src n (i + 1) dst
/-- vec.go:673-682 Clone; `cloneT` is the element's Clone method, if it has one. -/
def clone [Inhabited α] (cloneT : Option (α → α)) (self : Vec α) : Go (Vec α) := do
  let cloned ← withLen self.len
  let data ← cloneLoop cloneT self.data self.len 0 cloned.data
  .ok ⟨data, cloned.cap⟩

end Vec

/-- vec.go:528-531 `VecIter[T]`. -/
structure VecIter (α : Type) where
  vec : Vec α
  position : Nat
  deriving DecidableEq, Repr

/-- vec.go:534-536 IntoIter. -/
def Vec.intoIter {α : Type} (self : Vec α) : VecIter α := ⟨self, 0⟩

namespace VecIter
variable {σ α : Type} (g : Growth)

/-- vec.go:539-548 Next: new iterator and result.  The position stays at most the length, so `++` does not
wrap. -/
def next (self : VecIter α) : Go (VecIter α × Opt α) :=
  if self.position ≥ self.vec.len then .ok (self, Opt.none)
  else do
    let value ← self.vec.getUnchecked self.position
    .ok (⟨self.vec, self.position + 1⟩, Opt.some value)

/-- The loop `for { value := self.Next(); if value.IsNone() { return acc }; acc = step(acc, value) }`
shared by the methods below; `fuel` bounds the number of rounds, `none` = did not finish. -/
def drain {β : Type} (step : β → α → Eff σ β) : Nat → VecIter α → β → Eff σ (Option β)
  | 0, _, _ => pure none
  | fuel + 1, it, acc => do
    let (it, value) ← Eff.lift it.next
    if value.isNone then pure (some acc)
    else do
      let v ← Eff.lift value.unwrap
      let acc ← step acc v
      drain step fuel it acc

/-- Rounds that suffice for the loops (proved: the result is never `none`). -/
def rounds (self : VecIter α) : Nat := self.vec.len + 1

/-- vec.go:551-562 Map. -/
def map (self : VecIter α) (f : α → Eff σ α) : Eff σ (Option (VecIter α)) := do
  let r ← drain (fun (newVec : Vec α) v => do let y ← f v; pure (newVec.push g y))
    self.rounds self Vec.new
  pure (r.map Vec.intoIter)
/-- vec.go:565-580 Filter. -/
def filter (self : VecIter α) (f : α → Eff σ Bool) : Eff σ (Option (VecIter α)) := do
  let r ← drain (fun (newVec : Vec α) v => do
      let b ← f v
      pure (if b then newVec.push g v else newVec)) self.rounds self Vec.new
  pure (r.map Vec.intoIter)
/-- vec.go:583-593 Fold. -/
def fold (self : VecIter α) (init : α) (f : α → α → Eff σ α) : Eff σ (Option α) :=
  drain f self.rounds self init
/-- vec.go:612-621 CollectToVec. -/
def collectToVec (self : VecIter α) : Go (Option (Vec α)) :=
  (drain (σ := Unit) (fun (v : Vec α) x => pure (v.push g x)) self.rounds self Vec.new ()).1
/-- vec.go:596-609 Rev. -/
def rev [Inhabited α] (self : VecIter α) : Go (Option (VecIter α)) := do
  let newVec ← Vec.withLen (α := α) self.vec.len
  let r ← (drain (σ := Unit) (fun (st : Vec α × Nat) x => do
      let d ← Eff.lift (setIndex st.1.data st.2 x)
      pure (⟨d, st.1.cap⟩, usizeSub st.2 1))
    self.rounds self (newVec, usizeSub self.vec.len 1) ()).1
  .ok (r.map fun st => st.1.intoIter)

end VecIter
end Gost
