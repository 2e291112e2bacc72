import Verif.Model.BTree
import Verif.Model.Unwind
/-
The methods of btree_map.go that compare keys, for a Cmp method that may have effects and panic, with the nodes as
they are when the panic is recovered by the caller.

The state is the heap of nodes and the rest of the program (see Model/Unwind.lean).  The map variable itself (`root`,
`len`) is assigned only after the last comparison, so a panic leaves it alone; the new one is part of the result.
The functions that do not compare keys are those of Model/BTree.lean; a panic inside of them (which is not one of Cmp)
leaves the heap as it was before their call.  Runs that do not panic are those of Model/BTree.lean (proved in
Props/BTreeUnwind.lean).
-/
namespace Gost
namespace Unwind
open BTree
variable {κ ν σ : Type} (cmp : κ → κ → Eff σ Ordering)

/-- btree_map.go:317-320, loop of _Search (see `BTree.searchIdx`). -/
def searchIdx (key : κ) : List (Option κ) → Eff (BStore κ ν × σ) Nat
  | [] => pure 0
  | none :: _ => pure 0
  | some k :: rest => do
    let order ← call (cmp key k)
    if order = .gt then do
      let i ← searchIdx key rest
      pure (i + 1)
    else pure 0

/-- btree_map.go:315-340 _Search (see `BTree.search`); the key at the stop is compared a second time (323). -/
def search (key : κ) : Nat → Nat → Eff (BStore κ ν × σ) (Option (Nat × Nat))
  | 0, _ => Eff.lift (.error .stackOverflow)
  | depth + 1, a => do
    let h ← get
    let self ← Eff.lift (load h (some a))
    let i ← searchIdx cmp key self.keys
    let found ← (match self.keys[i]? with
      | some (some k) => do
        let order ← call (cmp key k)
        pure (decide (order = .eq))
      | _ => pure false)
    if found then pure (some (a, i))
    else if self.leaf then pure none
    else do
      let child ← Eff.lift (getAt self.childs i)
      match child with
      | some c => search key depth c
      | none => pure none

/-- btree_map.go:399-403, loop of _InsertNonFull in the leaf at `a`; the argument is i+1, the result as well. -/
def leafLoop (key : κ) (a : Nat) : Nat → Eff (BStore κ ν × σ) Nat
  | 0 => pure 0
  | i + 1 => do
    let h ← get
    let self ← Eff.lift (load h (some a))
    let k ← Eff.lift (index self.keys i)
    match k with
    | none => pure (i + 1)
    | some k' => do
      let order ← call (cmp k' key)
      if order = .gt then do
        let ks ← Eff.lift (setIndex self.keys (i + 1) k)
        put (h.set a { self with keys := ks })
        let v ← Eff.lift (index self.values i)
        let vs ← Eff.lift (setIndex self.values (i + 1) v)
        put (h.set a { self with keys := ks, values := vs })
        leafLoop key a i
      else pure (i + 1)

/-- btree_map.go:392-409 _InsertNonFull, in a leaf. -/
def insertLeaf (a : Nat) (key : κ) (value : ν) : Eff (BStore κ ν × σ) Unit := do
  let h ← get
  let self ← Eff.lift (load h (some a))
  let i ← leafLoop cmp key a self.n.toNat
  if self.n < 0 then Eff.lift (.error .indexOutOfRange)
  else do
    let h ← get
    let self ← Eff.lift (load h (some a))
    let ks ← Eff.lift (setIndex self.keys i (some key))
    let vs ← Eff.lift (setIndex self.values i (some value))
    put (h.set a { self with keys := ks, values := vs, n := self.n + 1 })

/-- btree_map.go:412-414, loop of _InsertNonFull in an internal node; the argument is i+1, the result too. -/
def childLoop (key : κ) (ks : List (Option κ)) : Nat → Eff (BStore κ ν × σ) Nat
  | 0 => pure 0
  | i + 1 => do
    let k ← Eff.lift (index ks i)
    match k with
    | none => pure (i + 1)
    | some k' => do
      let order ← call (cmp k' key)
      if order = .gt then childLoop key ks i else pure (i + 1)

/-- btree_map.go:390-430 _InsertNonFull. -/
def insertNonFull (key : κ) (value : ν) : Nat → Nat → Eff (BStore κ ν × σ) Unit
  | 0, _ => Eff.lift (.error .stackOverflow)
  | depth + 1, a => do
    let h ← get
    let self ← Eff.lift (load h (some a))
    if self.leaf then insertLeaf cmp a key value
    else do
      -- 411-414; `i` is the Go variable plus one
      let i ← childLoop cmp key self.keys self.n.toNat
      if self.n < 0 then Eff.lift (.error .indexOutOfRange)
      else do
        let c ← Eff.lift (index self.childs i)
        let child ← Eff.lift (load h c)
        if child.keys.length = capacity then do
          -- 417-427
          let y ← Eff.lift (addr c)
          let h ← Eff.lift (splitChild h a i y)
          put h
          let self ← Eff.lift (load h (some a))
          let k ← Eff.lift (index self.keys i)
          let i ← (match k with
            | some k => do
              let order ← call (cmp k key)
              pure (if order = .lt then i + 1 else i)
            | none => pure i)
          let c ← Eff.lift (index self.childs i)
          let c ← Eff.lift (addr c)
          insertNonFull key value depth c
        else do
          let c ← Eff.lift (addr c)
          insertNonFull key value depth c

/-- btree_map.go:48-112 Insert: new map and result. -/
def bInsert (self : BMap) (key : κ) (value : ν) : Eff (BStore κ ν × σ) (BMap × Opt ν) :=
  match self.root with
  | none => do
    -- 51-64
    let h ← get
    let node : BNode κ ν := blank true 0 1
    let ks ← Eff.lift (setIndex node.keys 0 (some key))
    let vs ← Eff.lift (setIndex node.values 0 (some value))
    put (h ++ [{ node with keys := ks, values := vs }])
    pure (⟨some h.length, 1⟩, Opt.none)
  | some root => do
    let h ← get
    let result ← search cmp key (h.length + 1) root
    match result with
    | some (a, index') => do
      -- 70-75
      let node ← Eff.lift (load h (some a))
      let oldValue ← Eff.lift (index node.values index')
      let vs ← Eff.lift (setIndex node.values index' (some value))
      put (h.set a { node with values := vs })
      let old ← Eff.lift (deref oldValue)
      pure (self, Opt.some old)
    | none => do
      let rn ← Eff.lift (load h (some root))
      if rn.n = capacity then do
        -- 79-105
        let newRoot : BNode κ ν := blank false capacity 0
        let cs ← Eff.lift (setIndex newRoot.childs 0 (some root))
        let a := h.length
        let h := h ++ [{ newRoot with childs := cs }]
        let h ← Eff.lift (splitChild h a 0 root)
        put h
        let nr ← Eff.lift (load h (some a))
        let k ← Eff.lift (index nr.keys 0)
        let k ← Eff.lift (deref k)
        let order ← call (cmp k key)
        let i := if order = .lt then 1 else 0
        let c ← Eff.lift (index nr.childs i)
        let c ← Eff.lift (addr c)
        insertNonFull cmp key value (h.length + 1) c
        pure (⟨some a, usize (self.len + 1)⟩, Opt.none)
      else do
        insertNonFull cmp key value (h.length + 1) root
        pure (⟨some root, usize (self.len + 1)⟩, Opt.none)

/-- btree_map.go:120-127 ContainsKey. -/
def bContainsKey (self : BMap) (key : κ) : Eff (BStore κ ν × σ) Bool :=
  match self.root with
  | none => pure false
  | some root => do
    let h ← get
    let result ← search cmp key (h.length + 1) root
    pure result.isSome
/-- btree_map.go:163-174 Get. -/
def bGet (self : BMap) (key : κ) : Eff (BStore κ ν × σ) (Opt ν) :=
  match self.root with
  | none => pure Opt.none
  | some root => do
    let h ← get
    let result ← search cmp key (h.length + 1) root
    match result with
    | none => pure Opt.none
    | some (a, i) => do
      let node ← Eff.lift (load h (some a))
      let v ← Eff.lift (index node.values i)
      let v ← Eff.lift (deref v)
      pure (Opt.some v)

/-- btree_map.go:487-493, _FindKey: the loop (see `BTree.findKeyLoop`). -/
def findKeyLoop (key : κ) (n : Int) : List (Option κ) → Int → Eff (BStore κ ν × σ) Int
  | [], i => if i < n then Eff.lift (.error .indexOutOfRange) else pure i
  | none :: _, i => pure i
  | some k :: rest, i =>
    if i < n then do
      let order ← call (cmp k key)
      if order = .lt then findKeyLoop key n rest (i + 1) else pure i
    else pure i

/-- btree_map.go:554-585 _RemoveFromNonLeaf; `remove` is _Remove one level down. -/
def removeFromNonLeaf (remove : Nat → κ → Eff (BStore κ ν × σ) Unit) (a : Nat) (idx : Int) :
    Eff (BStore κ ν × σ) Unit := do
  let h ← get
  let self ← Eff.lift (load h (some a))
  let key ← Eff.lift (getAt self.keys idx)
  let n1 ← Eff.lift (childN h self idx)
  if n1 ≥ self.minDeg then do
    let p ← Eff.lift (getPred h self idx)
    let pred ← Eff.lift (load h (some p))
    let k ← Eff.lift (getAt pred.keys (pred.n - 1))
    let ks ← Eff.lift (setAt self.keys idx k)
    let v ← Eff.lift (getAt pred.values (pred.n - 1))
    let vs ← Eff.lift (setAt self.values idx v)
    put (h.set a { self with keys := ks, values := vs })
    let c ← Eff.lift (getAt self.childs idx)
    let c ← Eff.lift (addr c)
    let pk ← Eff.lift (deref k)
    remove c pk
  else do
    let n2 ← Eff.lift (childN h self (idx + 1))
    if n2 ≥ self.minDeg then do
      let s ← Eff.lift (getSucc h self idx)
      let succ ← Eff.lift (load h (some s))
      let k ← Eff.lift (getAt succ.keys 0)
      let ks ← Eff.lift (setAt self.keys idx k)
      let v ← Eff.lift (getAt succ.values 0)
      let vs ← Eff.lift (setAt self.values idx v)
      put (h.set a { self with keys := ks, values := vs })
      let c ← Eff.lift (getAt self.childs (idx + 1))
      let c ← Eff.lift (addr c)
      let sk ← Eff.lift (deref k)
      remove c sk
    else do
      let h ← Eff.lift (merge h a idx)
      put h
      let self ← Eff.lift (load h (some a))
      let c ← Eff.lift (getAt self.childs idx)
      let c ← Eff.lift (addr c)
      let k ← Eff.lift (deref key)
      remove c k

/-- btree_map.go:496-537 _Remove. -/
def removeNode : Nat → Nat → κ → Eff (BStore κ ν × σ) Unit
  | 0, _, _ => Eff.lift (.error .stackOverflow)
  | depth + 1, a, key => do
    let h ← get
    let self ← Eff.lift (load h (some a))
    let i ← findKeyLoop cmp key self.n self.keys 0
    -- 499-500
    let present ← (if i < self.n then do
        let k ← Eff.lift (getAt self.keys i)
        match k with
        | some k => do
          let order ← call (cmp k key)
          pure (decide (order = .eq))
        | none => pure false
      else pure false)
    if present then
      if self.leaf then do
        let h ← Eff.lift (removeFromLeaf h a i)
        put h
      else removeFromNonLeaf (removeNode depth) a i
    else if self.leaf then pure ()
    else do
      -- 514-520
      let flag := decide (i = self.n)
      let n ← Eff.lift (childN h self i)
      let h ← Eff.lift (if n < self.minDeg then fill h a i else .ok h)
      put h
      let self ← Eff.lift (load h (some a))
      if flag && decide (i > self.n) then do
        let c ← Eff.lift (getAt self.childs (i - 1))
        let c ← Eff.lift (addr c)
        removeNode depth c key
      else do
        let c ← Eff.lift (getAt self.childs i)
        let c ← Eff.lift (addr c)
        removeNode depth c key

/-- btree_map.go:182-208 Remove: new map and result. -/
def bRemove (self : BMap) (key : κ) : Eff (BStore κ ν × σ) (BMap × Opt ν) :=
  match self.root with
  | none => pure (self, Opt.none)
  | some root => do
    let h ← get
    let result ← search cmp key (h.length + 1) root
    removeNode cmp (h.length + 1) root key
    -- 192-200
    let h ← get
    let rn ← Eff.lift (load h (some root))
    let newRoot ← Eff.lift (if rn.n = 0 then
        if rn.leaf then .ok none else index rn.childs 0
      else .ok (some root))
    match result with
    | none => pure (⟨newRoot, self.len⟩, Opt.none)
    | some (a, i) => do
      -- 205-206
      let node ← Eff.lift (load h (some a))
      let v ← Eff.lift (index node.values i)
      let v ← Eff.lift (deref v)
      pure (⟨newRoot, usizeSub self.len 1⟩, Opt.some v)

end Unwind
end Gost
