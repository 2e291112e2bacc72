import Verif.Model.BTreeUnwind
/-
The methods of btree_map.go that change nodes, assignment by assignment: every read and write of a field goes to the
heap of nodes, so that nothing is assumed about which nodes differ, and the heap is kept when the code panics, whether
in an index expression, at a nil pointer or inside a Cmp method, which may have effects.  The map variable is part of the
state, too: Remove assigns to it before its last expression, which can panic.

The functions that only read and compare (`search`, `childLoop`, `findKeyLoop`) and the loop of _InsertNonFull in a leaf are
those of Model/BTreeUnwind.lean.
-/
namespace Gost
namespace Steps
open BTree Unwind
variable {κ ν σ : Type}

/-- `*p`, also for `p.field`. -/
def node (p : Option Nat) : Eff (BStore κ ν × σ) (BNode κ ν) := do
  let h ← get
  Eff.lift (load h p)
/-- An assignment to a field of the node at `a`. -/
def update (a : Nat) (f : BNode κ ν → BNode κ ν) : Eff (BStore κ ν × σ) Unit := do
  let h ← get
  let self ← Eff.lift (load h (some a))
  put (h.set a (f self))
/-- `&BTreeNode{...}`. -/
def alloc (n : BNode κ ν) : Eff (BStore κ ν × σ) Nat := do
  let h ← get
  put (h ++ [n])
  pure h.length
/-- `a.n = n`. -/
def setN (a : Nat) (n : Int) : Eff (BStore κ ν × σ) Unit := update a fun self => { self with n := n }
/-- `a.childs.GetUnchecked(USize(i))`. -/
def childAt (a : Nat) (i : Int) : Eff (BStore κ ν × σ) (Option Nat) := do
  let self ← node (some a)
  Eff.lift (getAt self.childs i)
/-- `a.childs.SetUnchecked(USize(i), c)`. -/
def setChild (a : Nat) (i : Int) (c : Option Nat) : Eff (BStore κ ν × σ) Unit := do
  let self ← node (some a)
  let cs ← Eff.lift (setAt self.childs i c)
  update a fun self => { self with childs := cs }
/-- `a.keys.SetUnchecked(USize(i), k)`. -/
def setKey (a : Nat) (i : Int) (k : Option κ) : Eff (BStore κ ν × σ) Unit := do
  let self ← node (some a)
  let ks ← Eff.lift (setAt self.keys i k)
  update a fun self => { self with keys := ks }
/-- `a.values.SetUnchecked(USize(i), v)`. -/
def setValue (a : Nat) (i : Int) (v : Option ν) : Eff (BStore κ ν × σ) Unit := do
  let self ← node (some a)
  let vs ← Eff.lift (setAt self.values i v)
  update a fun self => { self with values := vs }
/-- `a.keys.GetUnchecked(USize(i))`. -/
def keyAt (a : Nat) (i : Int) : Eff (BStore κ ν × σ) (Option κ) := do
  let self ← node (some a)
  Eff.lift (getAt self.keys i)
/-- `a.values.GetUnchecked(USize(i))`. -/
def valueAt (a : Nat) (i : Int) : Eff (BStore κ ν × σ) (Option ν) := do
  let self ← node (some a)
  Eff.lift (getAt self.values i)
/-- `a.keys.SetUnchecked(USize(i), b.keys.GetUnchecked(USize(j)))` and the same with `values`. -/
def copySlot (a : Nat) (i : Int) (b : Nat) (j : Int) : Eff (BStore κ ν × σ) Unit := do
  let k ← keyAt b j
  setKey a i k
  let v ← valueAt b j
  setValue a i v
/-- `a.childs.SetUnchecked(USize(i), b.childs.GetUnchecked(USize(j)))`. -/
def copyChild (a : Nat) (i : Int) (b : Nat) (j : Int) : Eff (BStore κ ν × σ) Unit := do
  let c ← childAt b j
  setChild a i c

/-- `for j := from; ...; j++`, `count` rounds. -/
def up (body : Int → Eff (BStore κ ν × σ) Unit) : Nat → Int → Eff (BStore κ ν × σ) Unit
  | 0, _ => pure ()
  | count + 1, j => do
    body j
    up body count (j + 1)
/-- `for j := from; ...; j--`, `count` rounds. -/
def down (body : Int → Eff (BStore κ ν × σ) Unit) : Nat → Int → Eff (BStore κ ν × σ) Unit
  | 0, _ => pure ()
  | count + 1, j => do
    body j
    down body count (j - 1)

/-- btree_map.go:434-483 splitChild. -/
def splitChild (a : Nat) (i : Int) (y : Nat) : Eff (BStore κ ν × σ) Unit := do
  -- 436-443
  let yn ← node (some y)
  let z ← alloc (blank yn.leaf yn.minDeg 0)
  let self ← node (some a)
  setN z (self.minDeg - 1)
  -- 445-449
  up (fun j => copySlot z j y (j + self.minDeg)) yn.minDeg.toNat 0
  -- 451-456
  if !yn.leaf then up (fun j => copyChild z j y (j + self.minDeg)) self.minDeg.toNat 0 else pure ()
  -- 458-459
  setN y (self.minDeg - 1)
  -- 461-465
  let self ← node (some a)
  down (fun j => copyChild a (j + 1) a j) (self.n - i).toNat self.n
  -- 467-468
  setChild a (i + 1) (some z)
  -- 470-475
  down (fun j => copySlot a (j + 1) a j) (self.n - i + 1).toNat self.n
  -- 477-479
  copySlot a i y (self.minDeg - 1)
  -- 481-482
  let self ← node (some a)
  setN a (self.n + 1)

section
variable (cmp : κ → κ → Eff σ Ordering)

/-- btree_map.go:392-409 _InsertNonFull, in a leaf. -/
def insertLeaf (a : Nat) (key : κ) (value : ν) : Eff (BStore κ ν × σ) Unit := do
  let self ← node (some a)
  let i ← leafLoop cmp key a self.n.toNat
  -- 405-408; for a negative n the Go index i+1 = n is out of range
  if self.n < 0 then Eff.panic .indexOutOfRange
  else do
    setKey a i (some key)
    setValue a i (some value)
    let self ← node (some a)
    setN a (self.n + 1)

/-- btree_map.go:390-430 _InsertNonFull. -/
def insertNonFull (key : κ) (value : ν) : Nat → Nat → Eff (BStore κ ν × σ) Unit
  | 0, _ => Eff.panic .stackOverflow
  | depth + 1, a => do
    let self ← node (some a)
    if self.leaf then insertLeaf cmp a key value
    else do
      -- 411-414; `i` is the Go variable plus one
      let i ← childLoop cmp key self.keys self.n.toNat
      if self.n < 0 then Eff.panic .indexOutOfRange
      else do
        let c ← childAt a i
        let child ← node c
        let i ← (if child.keys.length = capacity then do
            -- 417-427
            let y ← Eff.lift (addr c)
            splitChild a i y
            let k ← keyAt a i
            match k with
            | some k => do
              let order ← call (cmp k key)
              pure (if order = .lt then i + 1 else i)
            | none => pure i
          else pure i)
        let c ← childAt a i
        let c ← Eff.lift (addr c)
        insertNonFull key value depth c
end

/-- btree_map.go:540-551 _RemoveFromLeaf. -/
def removeFromLeaf (a : Nat) (idx : Int) : Eff (BStore κ ν × σ) Unit := do
  let self ← node (some a)
  up (fun i => do
    let k ← keyAt a i
    setKey a (i - 1) k
    setKey a i none
    let v ← valueAt a i
    setValue a (i - 1) v
    setValue a i none) (self.n - (idx + 1)).toNat (idx + 1)
  let self ← node (some a)
  setN a (self.n - 1)

/-- btree_map.go:634-671 _BorrowFromPrev. -/
def borrowFromPrev (a : Nat) (idx : Int) : Eff (BStore κ ν × σ) Unit := do
  let c ← childAt a idx
  let s ← childAt a (idx - 1)
  -- 642-646
  let child ← node c
  let c ← Eff.lift (addr c)
  down (fun i => copySlot c (i + 1) c i) child.n.toNat (child.n - 1)
  -- 648-653
  if !child.leaf then down (fun i => copyChild c (i + 1) c i) (child.n + 1).toNat child.n else pure ()
  -- 655-657
  copySlot c 0 a (idx - 1)
  -- 659-662
  if !child.leaf then do
    let sibling ← node s
    let s ← Eff.lift (addr s)
    copyChild c 0 s sibling.n
  else pure ()
  -- 664-667
  let sibling ← node s
  let s ← Eff.lift (addr s)
  copySlot a (idx - 1) s (sibling.n - 1)
  -- 669-670
  let child ← node (some c)
  setN c (child.n + 1)
  let sibling ← node (some s)
  setN s (sibling.n - 1)

/-- btree_map.go:675-710 _BorrowFromNext. -/
def borrowFromNext (a : Nat) (idx : Int) : Eff (BStore κ ν × σ) Unit := do
  let c ← childAt a idx
  let s ← childAt a (idx + 1)
  -- 679-681
  let child ← node c
  let c ← Eff.lift (addr c)
  copySlot c child.n a idx
  -- 683-687
  if !child.leaf then do
    let s ← Eff.lift (addr s)
    copyChild c (child.n + 1) s 0
  else pure ()
  -- 689-691
  let s ← Eff.lift (addr s)
  copySlot a idx s 0
  -- 693-697
  let sibling ← node (some s)
  up (fun i => copySlot s (i - 1) s i) (sibling.n - 1).toNat 1
  -- 699-704
  if !sibling.leaf then up (fun i => copyChild s (i - 1) s i) sibling.n.toNat 1 else pure ()
  -- 706-709
  let child ← node (some c)
  setN c (child.n + 1)
  let sibling ← node (some s)
  setN s (sibling.n - 1)

/-- btree_map.go:714-755 _Merge. -/
def merge (a : Nat) (idx : Int) : Eff (BStore κ ν × σ) Unit := do
  let c ← childAt a idx
  let s ← childAt a (idx + 1)
  -- 718-721; the receiver `child.keys` is evaluated first
  let child ← node c
  let c ← Eff.lift (addr c)
  let self ← node (some a)
  copySlot c (self.minDeg - 1) a idx
  -- 723-727
  let sibling ← node s
  let s ← Eff.lift (addr s)
  up (fun i => copySlot c (i + self.minDeg) s i) sibling.n.toNat 0
  -- 729-734
  if !child.leaf then up (fun i => copyChild c (i + self.minDeg) s i) (sibling.n + 1).toNat 0 else pure ()
  -- 736-741
  up (fun i => copySlot a (i - 1) a i) (self.n - (idx + 1)).toNat (idx + 1)
  -- 743-747
  up (fun i => copyChild a (i - 1) a i) (self.n - (idx + 1)).toNat (idx + 2)
  -- 749-751
  let sibling ← node (some s)
  let child ← node (some c)
  setN c (child.n + (sibling.n + 1))
  let self ← node (some a)
  setN a (self.n - 1)

/-- `a.childs.GetUnchecked(USize(i)).n`. -/
def childN (a : Nat) (i : Int) : Eff (BStore κ ν × σ) Int := do
  let c ← childAt a i
  let child ← node c
  pure child.n

/-- btree_map.go:612-630 _Fill. -/
def fill (a : Nat) (idx : Int) : Eff (BStore κ ν × σ) Unit := do
  let self ← node (some a)
  let prev ← (if idx ≠ 0 then do
      let n ← childN a (idx - 1)
      pure (decide (n ≥ self.minDeg))
    else pure false)
  if prev then borrowFromPrev a idx
  else do
    let next ← (if idx ≠ self.n then do
        let n ← childN a (idx + 1)
        pure (decide (n ≥ self.minDeg))
      else pure false)
    if next then borrowFromNext a idx
    else if idx ≠ self.n then merge a idx
    else merge a (idx - 1)

section
variable (cmp : κ → κ → Eff σ Ordering)

/-- btree_map.go:554-585 _RemoveFromNonLeaf; `remove` is _Remove one level down, _GetPred and _GetSucc (588-609) only read. -/
def removeFromNonLeaf (remove : Nat → κ → Eff (BStore κ ν × σ) Unit) (a : Nat) (idx : Int) :
    Eff (BStore κ ν × σ) Unit := do
  let key ← keyAt a idx
  let self ← node (some a)
  let n1 ← childN a idx
  if n1 ≥ self.minDeg then do
    let h ← get
    let pred ← Eff.lift (getPred h self idx)
    let pn ← node (some pred)
    copySlot a idx pred (pn.n - 1)
    let c ← childAt a idx
    let pn ← node (some pred)
    let k ← keyAt pred (pn.n - 1)
    let k ← Eff.lift (deref k)
    let c ← Eff.lift (addr c)
    remove c k
  else do
    let n2 ← childN a (idx + 1)
    if n2 ≥ self.minDeg then do
      let h ← get
      let succ ← Eff.lift (getSucc h self idx)
      copySlot a idx succ 0
      let c ← childAt a (idx + 1)
      let k ← keyAt succ 0
      let k ← Eff.lift (deref k)
      let c ← Eff.lift (addr c)
      remove c k
    else do
      merge a idx
      let c ← childAt a idx
      let k ← Eff.lift (deref key)
      let c ← Eff.lift (addr c)
      remove c k

/-- btree_map.go:496-537 _Remove. -/
def removeNode : Nat → Nat → κ → Eff (BStore κ ν × σ) Unit
  | 0, _, _ => Eff.panic .stackOverflow
  | depth + 1, a, key => do
    let self ← node (some a)
    let i ← findKeyLoop cmp key self.n self.keys 0
    -- 499-500
    let present ← (if i < self.n then do
        let k ← keyAt a i
        match k with
        | some k => do
          let order ← call (cmp k key)
          pure (decide (order = .eq))
        | none => pure false
      else pure false)
    if present then
      if self.leaf then removeFromLeaf a i else removeFromNonLeaf (removeNode depth) a i
    else if self.leaf then pure ()
    else do
      -- 514-520
      let flag := decide (i = self.n)
      let n ← childN a i
      if n < self.minDeg then fill a i else pure ()
      let self ← node (some a)
      let c ← (if flag && decide (i > self.n) then childAt a (i - 1) else childAt a i)
      let c ← Eff.lift (addr c)
      removeNode depth c key

/-- A function that does not touch the map variable. -/
def inside {α : Type} (x : Eff (BStore κ ν × σ) α) : Eff (BMap × (BStore κ ν × σ)) α := call x

/-- btree_map.go:48-112 Insert; the state begins with the map variable. -/
def insert (key : κ) (value : ν) : Eff (BMap × (BStore κ ν × σ)) (Opt ν) := do
  let self ← get
  match self.root with
  | none => do
    -- 51-64
    let a ← inside (alloc (blank true 0 1))
    put ⟨some a, self.len⟩
    inside (setKey a 0 (some key))
    inside (setValue a 0 (some value))
    put ⟨some a, 1⟩
    pure Opt.none
  | some root => do
    let h ← inside get
    let result ← inside (search cmp key (h.length + 1) root)
    match result with
    | some (a, index') => do
      -- 70-75
      let oldValue ← inside (valueAt a index')
      inside (setValue a index' (some value))
      let old ← Eff.lift (deref oldValue)
      pure (Opt.some old)
    | none => do
      let rn ← inside (node (some root))
      if rn.n = capacity then do
        -- 79-105
        let a ← inside (alloc (blank false capacity 0))
        inside (setChild a 0 (some root))
        inside (splitChild a 0 root)
        let k ← inside (keyAt a 0)
        let k ← Eff.lift (deref k)
        let order ← inside (call (cmp k key))
        let c ← inside (childAt a (if order = .lt then 1 else 0))
        let c ← Eff.lift (addr c)
        let h ← inside get
        inside (insertNonFull cmp key value (h.length + 1) c)
        put ⟨some a, usize (self.len + 1)⟩
        pure Opt.none
      else do
        inside (insertNonFull cmp key value (h.length + 1) root)
        put ⟨some root, usize (self.len + 1)⟩
        pure Opt.none

/-- btree_map.go:182-208 Remove; the state begins with the map variable. -/
def remove (key : κ) : Eff (BMap × (BStore κ ν × σ)) (Opt ν) := do
  let self ← get
  match self.root with
  | none => pure Opt.none
  | some root => do
    let h ← inside get
    let result ← inside (search cmp key (h.length + 1) root)
    inside (removeNode cmp (h.length + 1) root key)
    -- 192-200
    let rn ← inside (node (some root))
    if rn.n = 0 then do
      let newRoot ← (if rn.leaf then pure none else inside (childAt root 0))
      put ⟨newRoot, self.len⟩
    else pure ()
    match result with
    | none => pure Opt.none
    | some (a, i) => do
      -- 205-206
      let self ← get
      put ⟨self.root, usizeSub self.len 1⟩
      let v ← inside (valueAt a i)
      let v ← Eff.lift (deref v)
      pure (Opt.some v)
end
end Steps
end Gost
