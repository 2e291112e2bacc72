import Verif.Model.HashMap
/-
Model of /repo/btree_map.go and /repo/btree_set.go.

Nodes live in a heap and refer to each other by address, so that nodes reached through two pointers are
seen to change together.  The key and value slots hold pointers (`*K`, `*V`); nothing is ever written
through them, so a slot is `none` (nil) or `some` value.  `cmp` is the Cmp method of the key type, assumed
not to panic and to have no effect.  `int` fields are unbounded (their values stay below 100).
A panic ends the execution: the heap at that moment is not kept.

Recursive methods take the number of nodes in the heap (+1) as bound on the recursion depth; running out of
it is the result `stackOverflow`, which is what Go does on a cyclic tree.
-/
namespace Gost

/-- btree_map.go:21-31 `BTreeNode[K, V]`; `leaf` is `_Type == _LEAF` (10-13). -/
structure BNode (κ ν : Type) where
  leaf : Bool
  minDeg : Int
  keys : List (Option κ)
  values : List (Option ν)
  n : Int
  childs : List (Option Nat)
  deriving DecidableEq, Repr

/-- The nodes allocated so far, by address. -/
abbrev BStore (κ ν : Type) := List (BNode κ ν)

/-- btree_map.go:16-19 `BTreeMap[K, V]`. -/
structure BMap where
  root : Option Nat
  len : Nat
  deriving DecidableEq, Repr

namespace BTree
variable {κ ν : Type}

/-- `vec.GetUnchecked(USize(i))` for an `int` i: a negative i becomes a huge index. -/
def getAt {α : Type} (l : List α) (i : Int) : Go α :=
  if i < 0 then .error .indexOutOfRange else index l i.toNat
/-- `vec.SetUnchecked(USize(i), v)` for an `int` i. -/
def setAt {α : Type} (l : List α) (i : Int) (v : α) : Go (List α) :=
  if i < 0 then .error .indexOutOfRange else setIndex l i.toNat v

/-- Dereference of a node pointer. -/
def load (h : BStore κ ν) (p : Option Nat) : Go (BNode κ ν) :=
  match p with
  | none => .error .nilDeref
  | some a => deref h[a]?
/-- The node a (non-nil) child pointer points to, as an address. -/
def addr (p : Option Nat) : Go Nat := deref p

/-- `for j := i; ...; j++` with `count` rounds. -/
def forUp {β : Type} (body : Int → β → Go β) : Nat → Int → β → Go β
  | 0, _, s => .ok s
  | count + 1, j, s => do
    let s ← body j s
    forUp body count (j + 1) s
/-- `for j := i; ...; j--` with `count` rounds. -/
def forDown {β : Type} (body : Int → β → Go β) : Nat → Int → β → Go β
  | 0, _, s => .ok s
  | count + 1, j, s => do
    let s ← body j s
    forDown body count (j - 1) s

/-- Body of the loops at btree_map.go:464, 651: one element moves a place to the right. -/
def shiftR {α : Type} (j : Int) (s : List α) : Go (List α) := do
  let c ← getAt s j
  setAt s (j + 1) c
/-- Body of the loops at btree_map.go:473-474 and 644-645: key and value move a place to the right. -/
def shiftR2 {α β : Type} (j : Int) (s : List α × List β) : Go (List α × List β) := do
  let k ← getAt s.1 j
  let ks ← setAt s.1 (j + 1) k
  let v ← getAt s.2 j
  let vs ← setAt s.2 (j + 1) v
  .ok (ks, vs)
/-- Body of the loops at btree_map.go:702 and 746: one element moves a place to the left. -/
def shiftL {α : Type} (j : Int) (s : List α) : Go (List α) := do
  let c ← getAt s j
  setAt s (j - 1) c
/-- Body of the loops at btree_map.go:695-696 and 739-740: key and value move a place to the left. -/
def shiftL2 {α β : Type} (j : Int) (s : List α × List β) : Go (List α × List β) := do
  let k ← getAt s.1 j
  let ks ← setAt s.1 (j - 1) k
  let v ← getAt s.2 j
  let vs ← setAt s.2 (j - 1) v
  .ok (ks, vs)
/-- Body of the loop at btree_map.go:543-546: key and value move a place to the left, leaving nil. -/
def pullL2 {α β : Type} (j : Int) (s : List (Option α) × List (Option β)) :
    Go (List (Option α) × List (Option β)) := do
  let k ← getAt s.1 j
  let ks ← setAt s.1 (j - 1) k
  let ks ← setAt ks j none
  let v ← getAt s.2 j
  let vs ← setAt s.2 (j - 1) v
  let vs ← setAt vs j none
  .ok (ks, vs)

/-- btree_map.go:7-8 `_BTREE_CAPACITY`. -/
def capacity : Nat := 11

/-- A node with empty slots, as allocated in btree_map.go:52-58, 80-86 and 436-442. -/
def blank (leaf : Bool) (minDeg n : Int) : BNode κ ν :=
  ⟨leaf, minDeg, List.replicate capacity none, List.replicate capacity none, n,
    List.replicate (capacity + 1) none⟩

section
variable (cmp : κ → κ → Ordering)

/-- btree_map.go:317-320, loop of _Search: the index of the first slot that is nil or not below `key`
(the number of slots if there is none). -/
def searchIdx (key : κ) : List (Option κ) → Nat
  | [] => 0
  | none :: _ => 0
  | some k :: rest => if cmp key k = .gt then searchIdx key rest + 1 else 0

/-- btree_map.go:315-340 _Search: address of the node and index of the slot.  (The Go code returns a pointer
to a copy of the node; the copy shares the slots, which is all the callers use.) -/
def search (h : BStore κ ν) (key : κ) : Nat → Nat → Go (Option (Nat × Nat))
  | 0, _ => .error .stackOverflow
  | depth + 1, a => do
    let self ← load h (some a)
    let i := searchIdx cmp key self.keys
    match self.keys[i]? with
    | some (some k) =>
      if cmp key k = .eq then .ok (some (a, i))
      else if self.leaf then .ok none
      else do
        let child ← getAt self.childs i
        match child with
        | some c => search h key depth c
        | none => .ok none
    | _ =>
      if self.leaf then .ok none
      else do
        let child ← getAt self.childs i
        match child with
        | some c => search h key depth c
        | none => .ok none

/-- btree_map.go:399-403, loop of _InsertNonFull in a leaf; the argument is i+1, the result as well. -/
def leafLoop (key : κ) : Nat → List (Option κ) → List (Option ν) →
    Go (List (Option κ) × List (Option ν) × Nat)
  | 0, ks, vs => .ok (ks, vs, 0)
  | i + 1, ks, vs => do
    let k ← index ks i
    match k with
    | none => .ok (ks, vs, i + 1)
    | some k' =>
      if cmp k' key = .gt then do
        let ks ← setIndex ks (i + 1) k
        let v ← index vs i
        let vs ← setIndex vs (i + 1) v
        leafLoop key i ks vs
      else .ok (ks, vs, i + 1)

/-- btree_map.go:392-409 _InsertNonFull, in a leaf. -/
def insertLeaf (h : BStore κ ν) (a : Nat) (key : κ) (value : ν) : Go (BStore κ ν) := do
  let self ← load h (some a)
  let (ks, vs, i) ← leafLoop cmp key self.n.toNat self.keys self.values
  if self.n < 0 then .error .indexOutOfRange
  else do
    let ks ← setIndex ks i (some key)
    let vs ← setIndex vs i (some value)
    .ok (h.set a { self with keys := ks, values := vs, n := self.n + 1 })

/-- btree_map.go:412-414, loop of _InsertNonFull in an internal node; the argument is i+1, the result too. -/
def childLoop (key : κ) (ks : List (Option κ)) : Nat → Go Nat
  | 0 => .ok 0
  | i + 1 => do
    let k ← index ks i
    match k with
    | none => .ok (i + 1)
    | some k' => if cmp k' key = .gt then childLoop key ks i else .ok (i + 1)
end

/-- btree_map.go:434-483 splitChild, `self` and `y` given by their addresses (y is a child of self, so they
are different nodes and the keys of y are read once). -/
def splitChild (h : BStore κ ν) (a : Nat) (i : Int) (y : Nat) : Go (BStore κ ν) := do
  let self ← load h (some a)
  let yn ← load h (some y)
  -- 436-443
  let z : BNode κ ν := blank yn.leaf yn.minDeg (self.minDeg - 1)
  -- 445-449
  let (zk, zv) ← forUp (fun j (s : List (Option κ) × List (Option ν)) => do
      let k ← getAt yn.keys (j + self.minDeg)
      let ks ← setAt s.1 j k
      let v ← getAt yn.values (j + self.minDeg)
      let vs ← setAt s.2 j v
      .ok (ks, vs)) z.minDeg.toNat 0 (z.keys, z.values)
  -- 451-456
  let zc ← (if !yn.leaf then
      forUp (fun j s => do
        let c ← getAt yn.childs (j + self.minDeg)
        setAt s j c) self.minDeg.toNat 0 z.childs
    else .ok z.childs)
  let zAddr := h.length
  let h := h ++ [{ z with keys := zk, values := zv, childs := zc }]
  -- 458-459
  let h := h.set y { yn with n := self.minDeg - 1 }
  let self ← load h (some a)
  -- 461-468
  let cs ← forDown shiftR (self.n - i).toNat self.n self.childs
  let cs ← setAt cs (i + 1) (some zAddr)
  -- 470-475
  let (ks, vs) ← forDown shiftR2 (self.n - i + 1).toNat self.n (self.keys, self.values)
  -- 477-479
  let k ← getAt yn.keys (self.minDeg - 1)
  let ks ← setAt ks i k
  let v ← getAt yn.values (self.minDeg - 1)
  let vs ← setAt vs i v
  -- 481-482
  .ok (h.set a { self with keys := ks, values := vs, childs := cs, n := self.n + 1 })

section
variable (cmp : κ → κ → Ordering)

/-- btree_map.go:390-430 _InsertNonFull. -/
def insertNonFull (key : κ) (value : ν) : Nat → BStore κ ν → Nat → Go (BStore κ ν)
  | 0, _, _ => .error .stackOverflow
  | depth + 1, h, a => do
    let self ← load h (some a)
    if self.leaf then insertLeaf cmp h a key value
    else do
      -- 411-414; `i` is the Go variable plus one
      let i ← childLoop cmp key self.keys self.n.toNat
      if self.n < 0 then .error .indexOutOfRange
      else do
        let c ← index self.childs i
        let child ← load h c
        if child.keys.length = capacity then do
          -- 417-427
          let y ← addr c
          let h ← splitChild h a i y
          let self ← load h (some a)
          let k ← index self.keys i
          let i := match k with
            | some k => if cmp k key = .lt then i + 1 else i
            | none => i
          let c ← index self.childs i
          let c ← addr c
          insertNonFull key value depth h c
        else do
          let c ← addr c
          insertNonFull key value depth h c

/-- btree_map.go:487-493, _FindKey: the loop. -/
def findKeyLoop (key : κ) (n : Int) : List (Option κ) → Int → Go Int
  | ks, i =>
    if i < n then
      match ks with
      | [] => .error .indexOutOfRange
      | none :: _ => .ok i
      | some k :: rest => if cmp k key = .lt then findKeyLoop key n rest (i + 1) else .ok i
    else .ok i
/-- btree_map.go:487-493 _FindKey. -/
def findKey (self : BNode κ ν) (key : κ) : Go Int := findKeyLoop cmp key self.n self.keys 0
end

/-- btree_map.go:540-551 _RemoveFromLeaf. -/
def removeFromLeaf (h : BStore κ ν) (a : Nat) (idx : Int) : Go (BStore κ ν) := do
  let self ← load h (some a)
  let (ks, vs) ← forUp pullL2 (self.n - (idx + 1)).toNat (idx + 1) (self.keys, self.values)
  .ok (h.set a { self with keys := ks, values := vs, n := self.n - 1 })

/-- btree_map.go:591-593, loop of _GetPred. -/
def predLoop (h : BStore κ ν) : Nat → Option Nat → Go Nat
  | 0, _ => .error .stackOverflow
  | depth + 1, p => do
    let curr ← load h p
    if curr.leaf then addr p
    else do
      let c ← getAt curr.childs curr.n
      predLoop h depth c
/-- btree_map.go:588-597 _GetPred. -/
def getPred (h : BStore κ ν) (self : BNode κ ν) (idx : Int) : Go Nat := do
  let c ← getAt self.childs idx
  predLoop h (h.length + 1) c
/-- btree_map.go:603-605, loop of _GetSucc. -/
def succLoop (h : BStore κ ν) : Nat → Option Nat → Go Nat
  | 0, _ => .error .stackOverflow
  | depth + 1, p => do
    let curr ← load h p
    if curr.leaf then addr p
    else do
      let c ← getAt curr.childs 0
      succLoop h depth c
/-- btree_map.go:600-609 _GetSucc. -/
def getSucc (h : BStore κ ν) (self : BNode κ ν) (idx : Int) : Go Nat := do
  let c ← getAt self.childs (idx + 1)
  succLoop h (h.length + 1) c

/-- btree_map.go:634-671 _BorrowFromPrev.  Self, child and sibling are read once: they are three different
nodes wherever this is reached (a parent is internal, its children are leaves). -/
def borrowFromPrev (h : BStore κ ν) (a : Nat) (idx : Int) : Go (BStore κ ν) := do
  let self ← load h (some a)
  let c ← getAt self.childs idx
  let s ← getAt self.childs (idx - 1)
  let child ← load h c
  -- 642-646
  let (ks, vs) ← forDown shiftR2 child.n.toNat (child.n - 1) (child.keys, child.values)
  -- 648-653
  let cs ← (if !child.leaf then
      forDown shiftR (child.n + 1).toNat child.n child.childs
    else .ok child.childs)
  -- 655-657
  let k ← getAt self.keys (idx - 1)
  let ks ← setAt ks 0 k
  let v ← getAt self.values (idx - 1)
  let vs ← setAt vs 0 v
  -- 659-662, or 665
  let sibling ← load h s
  let cs ← (if !child.leaf then do
      let c ← getAt sibling.childs sibling.n
      setAt cs 0 c
    else .ok cs)
  -- 664-667
  let k ← getAt sibling.keys (sibling.n - 1)
  let sk ← setAt self.keys (idx - 1) k
  let v ← getAt sibling.values (sibling.n - 1)
  let sv ← setAt self.values (idx - 1) v
  -- 669-670
  let ca ← addr c
  let sa ← addr s
  let h := h.set ca { child with keys := ks, values := vs, childs := cs, n := child.n + 1 }
  let h := h.set sa { sibling with n := sibling.n - 1 }
  .ok (h.set a { self with keys := sk, values := sv })

/-- btree_map.go:675-710 _BorrowFromNext (nodes read once, as in `borrowFromPrev`). -/
def borrowFromNext (h : BStore κ ν) (a : Nat) (idx : Int) : Go (BStore κ ν) := do
  let self ← load h (some a)
  let c ← getAt self.childs idx
  let s ← getAt self.childs (idx + 1)
  let child ← load h c
  -- 679-681
  let k ← getAt self.keys idx
  let ks ← setAt child.keys child.n k
  let v ← getAt self.values idx
  let vs ← setAt child.values child.n v
  -- 683-687, or 690
  let sibling ← load h s
  let cs ← (if !child.leaf then do
      let c ← getAt sibling.childs 0
      setAt child.childs (child.n + 1) c
    else .ok child.childs)
  -- 689-691
  let k ← getAt sibling.keys 0
  let sk ← setAt self.keys idx k
  let v ← getAt sibling.values 0
  let sv ← setAt self.values idx v
  -- 693-697
  let (bk, bv) ← forUp shiftL2 (sibling.n - 1).toNat 1 (sibling.keys, sibling.values)
  -- 699-704
  let bc ← (if !sibling.leaf then
      forUp shiftL sibling.n.toNat 1 sibling.childs
    else .ok sibling.childs)
  -- 706-709
  let ca ← addr c
  let sa ← addr s
  let h := h.set ca { child with keys := ks, values := vs, childs := cs, n := child.n + 1 }
  let h := h.set sa { sibling with keys := bk, values := bv, childs := bc, n := sibling.n - 1 }
  .ok (h.set a { self with keys := sk, values := sv })

/-- btree_map.go:714-755 _Merge (nodes read once, as in `borrowFromPrev`). -/
def merge (h : BStore κ ν) (a : Nat) (idx : Int) : Go (BStore κ ν) := do
  let self ← load h (some a)
  let c ← getAt self.childs idx
  let s ← getAt self.childs (idx + 1)
  let child ← load h c
  -- 718-721
  let k ← getAt self.keys idx
  let ks ← setAt child.keys (self.minDeg - 1) k
  let v ← getAt self.values idx
  let vs ← setAt child.values (self.minDeg - 1) v
  let sibling ← load h s
  -- 723-727
  let (ks, vs) ← forUp (fun i (s : List (Option κ) × List (Option ν)) => do
      let k ← getAt sibling.keys i
      let ks ← setAt s.1 (i + self.minDeg) k
      let v ← getAt sibling.values i
      let vs ← setAt s.2 (i + self.minDeg) v
      .ok (ks, vs)) sibling.n.toNat 0 (ks, vs)
  -- 729-734
  let cs ← (if !child.leaf then
      forUp (fun i s => do
        let c ← getAt sibling.childs i
        setAt s (i + self.minDeg) c) (sibling.n + 1).toNat 0 child.childs
    else .ok child.childs)
  -- 736-741
  let (sk, sv) ← forUp shiftL2 (self.n - (idx + 1)).toNat (idx + 1) (self.keys, self.values)
  -- 743-747
  let sc ← forUp shiftL (self.n - (idx + 1)).toNat (idx + 2) self.childs
  -- 749-751
  let ca ← addr c
  let h := h.set ca { child with keys := ks, values := vs, childs := cs, n := child.n + (sibling.n + 1) }
  .ok (h.set a { self with keys := sk, values := sv, childs := sc, n := self.n - 1 })

/-- `self.childs.GetUnchecked(USize(i)).n`. -/
def childN (h : BStore κ ν) (self : BNode κ ν) (i : Int) : Go Int := do
  let c ← getAt self.childs i
  let child ← load h c
  .ok child.n

/-- btree_map.go:612-630 _Fill. -/
def fill (h : BStore κ ν) (a : Nat) (idx : Int) : Go (BStore κ ν) := do
  let self ← load h (some a)
  let prev ← (if idx ≠ 0 then do
      let n ← childN h self (idx - 1)
      .ok (decide (n ≥ self.minDeg))
    else .ok false)
  if prev then borrowFromPrev h a idx
  else do
    let next ← (if idx ≠ self.n then do
        let n ← childN h self (idx + 1)
        .ok (decide (n ≥ self.minDeg))
      else .ok false)
    if next then borrowFromNext h a idx
    else if idx ≠ self.n then merge h a idx
    else merge h a (idx - 1)

section
variable (cmp : κ → κ → Ordering)

/-- btree_map.go:554-585 _RemoveFromNonLeaf; `remove` is _Remove one level down. -/
def removeFromNonLeaf (remove : BStore κ ν → Nat → κ → Go (BStore κ ν)) (h : BStore κ ν) (a : Nat)
    (idx : Int) : Go (BStore κ ν) := do
  let self ← load h (some a)
  let key ← getAt self.keys idx
  let n1 ← childN h self idx
  if n1 ≥ self.minDeg then do
    let p ← getPred h self idx
    let pred ← load h (some p)
    let k ← getAt pred.keys (pred.n - 1)
    let ks ← setAt self.keys idx k
    let v ← getAt pred.values (pred.n - 1)
    let vs ← setAt self.values idx v
    let h := h.set a { self with keys := ks, values := vs }
    let c ← getAt self.childs idx
    let c ← addr c
    let pk ← deref k
    remove h c pk
  else do
    let n2 ← childN h self (idx + 1)
    if n2 ≥ self.minDeg then do
      let s ← getSucc h self idx
      let succ ← load h (some s)
      let k ← getAt succ.keys 0
      let ks ← setAt self.keys idx k
      let v ← getAt succ.values 0
      let vs ← setAt self.values idx v
      let h := h.set a { self with keys := ks, values := vs }
      let c ← getAt self.childs (idx + 1)
      let c ← addr c
      let sk ← deref k
      remove h c sk
    else do
      let h ← merge h a idx
      let self ← load h (some a)
      let c ← getAt self.childs idx
      let c ← addr c
      let k ← deref key
      remove h c k

/-- btree_map.go:496-537 _Remove. -/
def removeNode : Nat → BStore κ ν → Nat → κ → Go (BStore κ ν)
  | 0, _, _, _ => .error .stackOverflow
  | depth + 1, h, a, key => do
    let self ← load h (some a)
    let i ← findKey cmp self key
    -- 499-500
    let present ← (if i < self.n then do
        let k ← getAt self.keys i
        match k with
        | some k => .ok (decide (cmp k key = .eq))
        | none => .ok false
      else .ok false)
    if present then
      if self.leaf then removeFromLeaf h a i
      else removeFromNonLeaf (removeNode depth) h a i
    else if self.leaf then .ok h
    else do
      -- 514-520
      let flag := decide (i = self.n)
      let n ← childN h self i
      let h ← (if n < self.minDeg then fill h a i else .ok h)
      let self ← load h (some a)
      if flag && decide (i > self.n) then do
        let c ← getAt self.childs (i - 1)
        let c ← addr c
        removeNode depth h c key
      else do
        let c ← getAt self.childs i
        let c ← addr c
        removeNode depth h c key
end

/-- btree_map.go:237-252, loop of _ToVec, over the slots i, i+1, ...; `sub` is _ToVec one level down. -/
def toVecLoop (g : Growth) (sub : Nat → Go (Vec (Pair κ ν))) (self : BNode κ ν) :
    Nat → Nat → Vec (Pair κ ν) → Go (Vec (Pair κ ν))
  | 0, _, vec => .ok vec
  | count + 1, i, vec => do
    let vec ← (if !self.leaf then do
        let c ← index self.childs i
        match c with
        | some c => do
          let childsVec ← sub c
          .ok (vec.append g childsVec).1
        | none => .ok vec
      else .ok vec)
    let k ← index self.keys i
    match k with
    | some k => do
      let v ← index self.values i
      let v ← deref v
      toVecLoop g sub self count (i + 1) (vec.push g ⟨k, v⟩)
    | none => toVecLoop g sub self count (i + 1) vec
/-- btree_map.go:231-255 _ToVec. -/
def toVec (g : Growth) (h : BStore κ ν) : Nat → Nat → Go (Vec (Pair κ ν))
  | 0, _ => .error .stackOverflow
  | depth + 1, a => do
    let self ← load h (some a)
    toVecLoop g (toVec g h depth) self self.keys.length 0 Vec.new

/-- btree_map.go:264-281, loop of _ToKeyVec. -/
def toKeyVecLoop (g : Growth) (sub : Nat → Go (Vec κ)) (self : BNode κ ν) :
    Nat → Nat → Vec κ → Go (Vec κ)
  | 0, _, vec => .ok vec
  | count + 1, i, vec => do
    let vec ← (if !self.leaf then do
        let c ← index self.childs i
        match c with
        | some c => do
          let childsVec ← sub c
          .ok (vec.append g childsVec).1
        | none => .ok vec
      else .ok vec)
    let k ← index self.keys i
    match k with
    | some k => toKeyVecLoop g sub self count (i + 1) (vec.push g k)
    | none => toKeyVecLoop g sub self count (i + 1) vec
/-- btree_map.go:258-284 _ToKeyVec: stops after `n` slots (`USize(self.n)` is huge for a negative n). -/
def toKeyVec (g : Growth) (h : BStore κ ν) : Nat → Nat → Go (Vec κ)
  | 0, _ => .error .stackOverflow
  | depth + 1, a => do
    let self ← load h (some a)
    toKeyVecLoop g (toKeyVec g h depth) self
      (if self.n < 0 then self.keys.length else min self.keys.length self.n.toNat) 0 Vec.new

/-- btree_map.go:293-309, loop of _ToValueVec. -/
def toValueVecLoop (g : Growth) (sub : Nat → Go (Vec ν)) (self : BNode κ ν) :
    Nat → Nat → Vec ν → Go (Vec ν)
  | 0, _, vec => .ok vec
  | count + 1, i, vec => do
    let vec ← (if !self.leaf then do
        let c ← index self.childs i
        match c with
        | some c => do
          let childsVec ← sub c
          .ok (vec.append g childsVec).1
        | none => .ok vec
      else .ok vec)
    let v ← index self.values i
    match v with
    | some v => toValueVecLoop g sub self count (i + 1) (vec.push g v)
    | none => toValueVecLoop g sub self count (i + 1) vec
/-- btree_map.go:287-312 _ToValueVec. -/
def toValueVec (g : Growth) (h : BStore κ ν) : Nat → Nat → Go (Vec ν)
  | 0, _ => .error .stackOverflow
  | depth + 1, a => do
    let self ← load h (some a)
    toValueVecLoop g (toValueVec g h depth) self self.keys.length 0 Vec.new
end BTree

namespace BMap
open BTree
variable {κ ν : Type} (cmp : κ → κ → Ordering)

/-- btree_map.go:34-36 BTreeMapNew. -/
def new : BMap := ⟨none, 0⟩

/-- btree_map.go:48-112 Insert: new heap, new map, result. -/
def insert (h : BStore κ ν) (self : BMap) (key : κ) (value : ν) : Go (BStore κ ν × BMap × Opt ν) :=
  match self.root with
  | none => do
    -- 51-64
    let node : BNode κ ν := blank true 0 1
    let ks ← setIndex node.keys 0 (some key)
    let vs ← setIndex node.values 0 (some value)
    .ok (h ++ [{ node with keys := ks, values := vs }], ⟨some h.length, 1⟩, Opt.none)
  | some root => do
    let result ← search cmp h key (h.length + 1) root
    match result with
    | some (a, index') => do
      -- 70-75
      let node ← load h (some a)
      let oldValue ← index node.values index'
      let vs ← setIndex node.values index' (some value)
      let old ← deref oldValue
      .ok (h.set a { node with values := vs }, self, Opt.some old)
    | none => do
      let rn ← load h (some root)
      if rn.n = capacity then do
        -- 79-105
        let newRoot : BNode κ ν := blank false capacity 0
        let cs ← setIndex newRoot.childs 0 (some root)
        let a := h.length
        let h := h ++ [{ newRoot with childs := cs }]
        let h ← splitChild h a 0 root
        let nr ← load h (some a)
        let k ← index nr.keys 0
        let k ← deref k
        let i := if cmp k key = .lt then 1 else 0
        let c ← index nr.childs i
        let c ← addr c
        let h ← insertNonFull cmp key value (h.length + 1) h c
        .ok (h, ⟨some a, usize (self.len + 1)⟩, Opt.none)
      else do
        let h ← insertNonFull cmp key value (h.length + 1) h root
        .ok (h, ⟨some root, usize (self.len + 1)⟩, Opt.none)

/-- btree_map.go:120-127 ContainsKey. -/
def containsKey (h : BStore κ ν) (self : BMap) (key : κ) : Go Bool :=
  match self.root with
  | none => .ok false
  | some root => do
    let result ← search cmp h key (h.length + 1) root
    .ok result.isSome
/-- btree_map.go:134-136 Len: the field `len`. -/
abbrev length (self : BMap) : Nat := self.len
/-- btree_map.go:143-145 IsEmpty. -/
def isEmpty (self : BMap) : Bool := self.len == 0
/-- btree_map.go:153-156 Clear. -/
def clear (_self : BMap) : BMap := ⟨none, 0⟩
/-- btree_map.go:163-174 Get. -/
def get (h : BStore κ ν) (self : BMap) (key : κ) : Go (Opt ν) :=
  match self.root with
  | none => .ok Opt.none
  | some root => do
    let result ← search cmp h key (h.length + 1) root
    match result with
    | none => .ok Opt.none
    | some (a, i) => do
      let node ← load h (some a)
      let v ← index node.values i
      let v ← deref v
      .ok (Opt.some v)
/-- btree_map.go:182-208 Remove: new heap, new map, result. -/
def remove (h : BStore κ ν) (self : BMap) (key : κ) : Go (BStore κ ν × BMap × Opt ν) :=
  match self.root with
  | none => .ok (h, self, Opt.none)
  | some root => do
    let result ← search cmp h key (h.length + 1) root
    let h ← removeNode cmp (h.length + 1) h root key
    -- 192-200
    let rn ← load h (some root)
    let newRoot ← (if rn.n = 0 then
        if rn.leaf then .ok none else index rn.childs 0
      else .ok (some root))
    match result with
    | none => .ok (h, ⟨newRoot, self.len⟩, Opt.none)
    | some (a, i) => do
      -- 205-206
      let node ← load h (some a)
      let v ← index node.values i
      let v ← deref v
      .ok (h, ⟨newRoot, usizeSub self.len 1⟩, Opt.some v)

/-- btree_map.go:763-771 IntoIter; the methods of the iterator (Next 774-782, Map 785-796, Filter 799-813,
Fold 816-826, Rev 829-842) are textually those of VecIter, CollectToVec (845-847) is `HMap.collectToVec`;
CollectToLinkedList (850-861) is that of VecIter. -/
def intoIter (g : Growth) (h : BStore κ ν) (self : BMap) : Go (VecIter (Pair κ ν)) :=
  match self.root with
  | none => .ok ⟨Vec.new, 0⟩
  | some root => do
    let vec ← toVec g h (h.length + 1) root
    .ok ⟨vec, 0⟩
/-- btree_map.go:877-885 Keys (iterator methods 888-974 as above). -/
def keys (g : Growth) (h : BStore κ ν) (self : BMap) : Go (VecIter κ) :=
  match self.root with
  | none => .ok ⟨Vec.new, 0⟩
  | some root => do
    let vec ← toKeyVec g h (h.length + 1) root
    .ok ⟨vec, 0⟩
/-- btree_map.go:991-999 Values (iterator methods 1002-1089 as above). -/
def values (g : Growth) (h : BStore κ ν) (self : BMap) : Go (VecIter ν) :=
  match self.root with
  | none => .ok ⟨Vec.new, 0⟩
  | some root => do
    let vec ← toValueVec g h (h.length + 1) root
    .ok ⟨vec, 0⟩

/-- btree_map.go:1136-1153, loop of Eq; `eqV` is the Eq method of V, `none` if it has none; the result `none`
means still running. -/
def eqLoop (eqV : Option (ν → ν → Bool)) (h : BStore κ ν) (other : BMap) :
    Nat → VecIter (Pair κ ν) → Go (Option Bool)
  | 0, _ => .ok none
  | fuel + 1, iter => do
    let (iter, value) ← iter.next
    if value.isNone then .ok (some true)
    else do
      let eachPair ← value.unwrap
      let c ← other.containsKey cmp h eachPair.key
      if !c then .ok (some false)
      else do
        let found ← other.get cmp h eachPair.key
        let foundPair ← found.unwrap
        match eqV with
        | none => .error .nilDeref
        | some e => if !e foundPair eachPair.value then .ok (some false) else eqLoop eqV h other fuel iter
/-- btree_map.go:1130-1154 Eq. -/
def eq (g : Growth) (eqV : Option (ν → ν → Bool)) (h : BStore κ ν) (self other : BMap) :
    Go (Option Bool) :=
  if self.length ≠ other.length then .ok (some false)
  else do
    let iter ← self.intoIter g h
    eqLoop cmp eqV h other iter.rounds iter
end BMap

/-- btree_set.go:9-11 `BTreeSet[K]`. -/
structure BSet where
  treemap : BMap
  deriving DecidableEq, Repr

namespace BSet
open BTree
variable {κ : Type} (cmp : κ → κ → Ordering) (g : Growth)
/-- The nodes of the maps inside the sets. -/
abbrev Store (κ : Type) := BStore κ Unit

/-- btree_set.go:14-16 BTreeSetNew. -/
def new : BSet := ⟨BMap.new⟩
/-- btree_set.go:25-27 Clear. -/
def clear (self : BSet) : BSet := ⟨self.treemap.clear⟩
/-- btree_set.go:37-39 Contains. -/
def contains (h : Store κ) (self : BSet) (key : κ) : Go Bool := self.treemap.containsKey cmp h key
/-- btree_set.go:49-57 Insert. -/
def insert (h : Store κ) (self : BSet) (key : κ) : Go (Store κ × BSet × Bool) := do
  let (h, m, result) ← self.treemap.insert cmp h key ()
  .ok (h, ⟨m⟩, if result.isSome then false else true)
/-- btree_set.go:67-75 Remove. -/
def remove (h : Store κ) (self : BSet) (key : κ) : Go (Store κ × BSet × Bool) := do
  let (h, m, result) ← self.treemap.remove cmp h key
  .ok (h, ⟨m⟩, if result.isSome then true else false)
/-- btree_set.go:84-86 IsEmpty. -/
def isEmpty (self : BSet) : Bool := self.treemap.isEmpty
/-- btree_set.go:95-97 Len. -/
abbrev length (self : BSet) : Nat := self.treemap.length

/-- btree_set.go:307-311 IntoIter: `root._ToKeyVec()` has a value receiver, so a nil root is dereferenced.
The methods (Next 314-323, Map 326-337, Filter 340-354, Fold 357-367, Rev 370-383) are textually those of
VecIter, CollectToVec (386-388) is `HMap.collectToVec`; CollectToLinkedList (391-402) is that of VecIter. -/
def intoIter (h : Store κ) (self : BSet) : Go (VecIter κ) := do
  let root ← addr self.treemap.root
  let keys ← toKeyVec g h (h.length + 1) root
  .ok ⟨keys, 0⟩

/-- btree_set.go:118-128, loop of IsSubset, and 467-477, loop of Eq; `none` = still running. -/
def subsetLoop (h : Store κ) (other : BSet) : Nat → VecIter κ → Go (Option Bool)
  | 0, _ => .ok none
  | fuel + 1, iter => do
    let (iter, value) ← iter.next
    if value.isNone then .ok (some true)
    else do
      let v ← value.unwrap
      let c ← other.contains cmp h v
      if !c then .ok (some false) else subsetLoop h other fuel iter
/-- btree_set.go:112-129 IsSubset. -/
def isSubset (h : Store κ) (self other : BSet) : Go (Option Bool) :=
  if self.length > other.length then .ok (some false)
  else do
    let iter ← self.intoIter g h
    subsetLoop cmp h other iter.rounds iter
/-- btree_set.go:144-146 IsSuperset. -/
def isSuperset (h : Store κ) (self other : BSet) : Go (Option Bool) := isSubset cmp g h other self
/-- btree_set.go:194-204, loop of IsDisjoint. -/
def disjointLoop (h : Store κ) (other : BSet) : Nat → VecIter κ → Go (Option Bool)
  | 0, _ => .ok none
  | fuel + 1, iter => do
    let (iter, value) ← iter.next
    if value.isNone then .ok (some true)
    else do
      let v ← value.unwrap
      let c ← other.contains cmp h v
      if c then .ok (some false) else disjointLoop h other fuel iter
/-- btree_set.go:192-205 IsDisjoint. -/
def isDisjoint (h : Store κ) (self other : BSet) : Go (Option Bool) := do
  let iter ← self.intoIter g h
  disjointLoop cmp h other iter.rounds iter

/-- `newSet.Insert(value)` with the result dropped, as an effect on the heap. -/
def insertE (newSet : BSet) (value : κ) : Eff (Store κ) BSet := fun h =>
  match newSet.insert cmp h value with
  | .ok (h, s, _) => (.ok s, h)
  | .error e => (.error e, h)
/-- `set.Contains(value)`, as an effect on the heap (which it does not change). -/
def containsE (self : BSet) (value : κ) : Eff (Store κ) Bool := fun h => (self.contains cmp h value, h)
/-- `set.IntoIter()`, likewise. -/
def intoIterE (self : BSet) : Eff (Store κ) (VecIter κ) := fun h => (self.intoIter g h, h)

/-- btree_set.go:164-179 Intersection. -/
def intersection (self other : BSet) : Eff (Store κ) (Option BSet) := do
  let iter ← self.intoIterE g
  VecIter.drain (fun (newSet : BSet) v => do
    let c ← other.containsE cmp v
    if c then newSet.insertE cmp v else pure newSet) iter.rounds iter new
/-- btree_set.go:224-250 Union. -/
def union (self other : BSet) : Eff (Store κ) (Option BSet) := do
  let iter ← self.intoIterE g
  let r ← VecIter.drain (fun (newSet : BSet) v => newSet.insertE cmp v) iter.rounds iter new
  match r with
  | none => pure none
  | some newSet => do
    let iter ← other.intoIterE g
    VecIter.drain (fun (newSet : BSet) v => newSet.insertE cmp v) iter.rounds iter newSet
/-- btree_set.go:268-298 SymmetricDifference. -/
def symmetricDifference (self other : BSet) : Eff (Store κ) (Option BSet) := do
  let iter ← self.intoIterE g
  let r ← VecIter.drain (fun (newSet : BSet) v => do
      let c ← other.containsE cmp v
      if !c then newSet.insertE cmp v else pure newSet) iter.rounds iter new
  match r with
  | none => pure none
  | some newSet => do
    let iter ← other.intoIterE g
    VecIter.drain (fun (newSet : BSet) v => do
      let c ← self.containsE cmp v
      if !c then newSet.insertE cmp v else pure newSet) iter.rounds iter newSet

/-- btree_set.go:440-457, loop of Clone: every round makes a new iterator.  `none` = still running after
`fuel` rounds; `cK` is the Clone method of K. -/
def cloneLoop (cK : Option (κ → κ)) (self : BSet) : Nat → BSet → Eff (Store κ) (Option BSet)
  | 0, _ => pure none
  | fuel + 1, newSet => do
    let iter ← self.intoIterE g
    let (_, value) ← Eff.lift iter.next
    if value.isNone then pure (some newSet)
    else do
      let e ← Eff.lift value.unwrap
      match cK with
      | none => Eff.panic .explicit
      | some c => do
        let newSet ← newSet.insertE cmp (c e)
        cloneLoop cK self fuel newSet
/-- btree_set.go:437-458 Clone, run for at most `fuel` rounds. -/
def clone (cK : Option (κ → κ)) (fuel : Nat) (self : BSet) : Eff (Store κ) (Option BSet) :=
  cloneLoop cmp g cK self fuel new

/-- btree_set.go:461-478 Eq. -/
def eq (h : Store κ) (self other : BSet) : Go (Option Bool) :=
  if self.length ≠ other.length then .ok (some false)
  else do
    let iter ← self.intoIter g h
    subsetLoop cmp h other iter.rounds iter
end BSet
end Gost
