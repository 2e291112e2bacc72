import Verif.Model.Vec
import Verif.Model.Misc
/-
Model of hash_map.go and hash_set.go, over a model of Go's built-in maps (part of the trusted base: what the
Go specification says about maps).

A Go map value is a reference: `HMap` holds an index into a heap of maps (or nil), so that copies of a
HashMap share their entries and Clone/Clear can be told apart from sharing.  The order in which `range` visits
the entries is an argument of every function that iterates; theorems quantify over all orders
(`HMap.Ranges`).  Element methods (Clone, Eq) are functions without effects.  Display is in `Model/Display.lean`.
-/
namespace Gost

/-- What Go's maps need of a key type: `==`, whether an assignment to an existing key also stores the new
key (run-time flag NeedKeyUpdate: floats, strings, interfaces), and which keys can be hashed (an interface
holding e.g. a slice can not).  `==` need not be reflexive: a float NaN differs from itself. -/
class GoKey (κ : Type) where
  eq : κ → κ → Bool
  keyUpdate : Bool
  hashable : κ → Bool

/-- The entries of a Go map, in any order. -/
abbrev GoMap (κ ν : Type) := List (κ × ν)

namespace GoMap
variable {κ ν : Type} [GoKey κ]

/-- The hash function panics for keys that can not be hashed. -/
def hash (k : κ) : Go Unit := if GoKey.hashable k then .ok () else .error .unhashable
/-- `v, ok := m[k]` (`none`: not ok). -/
def get (m : GoMap κ ν) (k : κ) : Go (Option ν) := do
  hash k
  .ok ((m.find? fun e => GoKey.eq k e.1).map (·.2))
/-- The entries after `m[k] = v`. -/
def put (k : κ) (v : ν) : GoMap κ ν → GoMap κ ν
  | [] => [(k, v)]
  | e :: m =>
    if GoKey.eq k e.1 then ((if GoKey.keyUpdate κ then k else e.1), v) :: m
    else e :: put k v m
/-- The entries after `delete(m, k)`. -/
def del (k : κ) (m : GoMap κ ν) : GoMap κ ν := m.eraseP fun e => GoKey.eq k e.1
end GoMap

/-- All maps of the program. -/
abbrev MapHeap (κ ν : Type) := List (GoMap κ ν)

/-- hash_map.go:9-11 `HashMap[K, V]`: nil or a reference. -/
structure HMap where
  data : Option Nat
  deriving DecidableEq, Repr

namespace HMap
variable {κ ν : Type} [GoKey κ]

/-- The entries a reference stands for; a nil map reads as empty. -/
def load (h : MapHeap κ ν) (self : HMap) : GoMap κ ν :=
  match self.data with
  | none => []
  | some r => h.getD r []
/-- `self.data[key] = value`: panics on a nil map. -/
def assign (h : MapHeap κ ν) (self : HMap) (key : κ) (value : ν) : Go (MapHeap κ ν) :=
  match self.data with
  | none => .error .nilMap
  | some r => do
    GoMap.hash key
    .ok (h.set r (GoMap.put key value (h.getD r [])))
/-- `delete(self.data, key)`: nothing happens on a nil map (the key is hashed all the same). -/
def delete (h : MapHeap κ ν) (self : HMap) (key : κ) : Go (MapHeap κ ν) := do
  GoMap.hash key
  match self.data with
  | none => .ok h
  | some r => .ok (h.set r (GoMap.del key (h.getD r [])))

/-- hash_map.go:14-16 HashMapNew. -/
def new (h : MapHeap κ ν) : MapHeap κ ν × HMap := (h ++ [[]], ⟨some h.length⟩)
/-- hash_map.go:19-21 HashMapWithCapacity; the capacity is a hint without observable effect. -/
def withCapacity (h : MapHeap κ ν) (_capacity : Nat) : MapHeap κ ν × HMap := (h ++ [[]], ⟨some h.length⟩)
/-- hash_map.go:24-26 AsMap: the reference itself. -/
def asMap (self : HMap) : Option Nat := self.data
/-- hash_map.go:35-37 Len. -/
def len (h : MapHeap κ ν) (self : HMap) : Nat := usize (self.load h).length
/-- hash_map.go:46-48 IsEmpty. -/
def isEmpty (h : MapHeap κ ν) (self : HMap) : Bool := self.len h == 0
/-- hash_map.go:56-64 Insert. -/
def insert (h : MapHeap κ ν) (self : HMap) (key : κ) (value : ν) : Go (MapHeap κ ν × Opt ν) := do
  let old ← (self.load h).get key
  let h ← self.assign h key value
  match old with
  | some old => .ok (h, Opt.some old)
  | none => .ok (h, Opt.none)
/-- hash_map.go:71-79 Remove. -/
def remove (h : MapHeap κ ν) (self : HMap) (key : κ) : Go (MapHeap κ ν × Opt ν) := do
  let old ← (self.load h).get key
  let h ← self.delete h key
  match old with
  | some old => .ok (h, Opt.some old)
  | none => .ok (h, Opt.none)
/-- hash_map.go:87-89 Clear: the handle gets a new map, the old map object keeps its entries. -/
def clear (h : MapHeap κ ν) (_self : HMap) : MapHeap κ ν × HMap := (h ++ [[]], ⟨some h.length⟩)
/-- hash_map.go:96-103 Get. -/
def get (h : MapHeap κ ν) (self : HMap) (key : κ) : Go (Opt ν) := do
  match ← (self.load h).get key with
  | some value => .ok (Opt.some value)
  | none => .ok Opt.none
/-- hash_map.go:111-114 ContainsKey. -/
def containsKey (h : MapHeap κ ν) (self : HMap) (key : κ) : Go Bool := do
  let r ← (self.load h).get key
  .ok r.isSome

/-- `ord` is a possible order of `range` over the map. -/
def Ranges (h : MapHeap κ ν) (self : HMap) (ord : List (κ × ν)) : Prop := ord.Perm (self.load h)

/-- hash_map.go:117-130 HashMapIter and IntoIter: the entries are pushed on a vector.  HashMapIter has the
fields of VecIter and, except for CollectToVec, the same methods (Next 133-142, Map 145-156, Filter 159-174,
Fold 177-187, Rev 190-203 are textually those of vec.go:539-609), so VecIter and its functions stand for it. -/
def intoIter (g : Growth) (ord : List (κ × ν)) : VecIter (Pair κ ν) :=
  ⟨ord.foldl (fun vec e => vec.push g ⟨e.1, e.2⟩) Vec.new, 0⟩
/-- hash_map.go:225-245 HashMapKeys and Keys; the methods (248-318) are again those of VecIter. -/
def keys (g : Growth) (ord : List (κ × ν)) : VecIter κ :=
  ⟨ord.foldl (fun vec e => vec.push g e.1) Vec.new, 0⟩
/-- hash_map.go:340-353 HashMapValues and Values; the methods (356-426) are again those of VecIter. -/
def values (g : Growth) (ord : List (κ × ν)) : VecIter ν :=
  ⟨ord.foldl (fun vec e => vec.push g e.2) Vec.new, 0⟩
/-- hash_map.go:206-208, 321-323, 429-431 and hash_set.go:421-423 CollectToVec: the whole vector, whatever
the position. -/
def collectToVec {α : Type} (self : VecIter α) : Vec α := self.vec

/-- hash_map.go:478-491, loop of Clone over the entries in the order `ord`. -/
def cloneLoop (cK : Option (κ → κ)) (cV : Option (ν → ν)) (newMap : HMap) :
    List (κ × ν) → MapHeap κ ν → Go (MapHeap κ ν)
  | [], h => .ok h
  | (key, value) :: rest, h =>
    match cK, cV with
    | none, _ => .error .explicit
    | some _, none => .error .explicit
    | some ck, some cv => do
      let (h, _) ← newMap.insert h (ck key) (cv value)
      cloneLoop cK cV newMap rest h
/-- hash_map.go:475-494 Clone. -/
def clone (cK : Option (κ → κ)) (cV : Option (ν → ν)) (h : MapHeap κ ν) (ord : List (κ × ν)) :
    Go (MapHeap κ ν × HMap) := do
  let (h, newMap) := new h
  let h ← cloneLoop cK cV newMap ord h
  .ok (h, newMap)

/-- hash_map.go:502-512, loop of Eq. -/
def eqLoop (eV : Option (ν → ν → Bool)) (h : MapHeap κ ν) (rhs : HMap) : List (κ × ν) → Go Bool
  | [] => .ok true
  | (key, value) :: rest => do
    match ← (rhs.load h).get key with
    | none => .ok false
    | some rhsValue => do
      let e ← deref eV
      if !e value rhsValue then .ok false else eqLoop eV h rhs rest
/-- hash_map.go:497-515 Eq; `ord` is the order of `range self.data`. -/
def eq (eV : Option (ν → ν → Bool)) (h : MapHeap κ ν) (self rhs : HMap) (ord : List (κ × ν)) : Go Bool :=
  if self.len h ≠ rhs.len h then .ok false else eqLoop eV h rhs ord
end HMap

/-- hash_set.go:9-11 `HashSet[K]`; `struct{}` is `Unit`. -/
structure HSet where
  hashMap : HMap
  deriving DecidableEq, Repr

/-- The maps behind all sets. -/
abbrev SetHeap (κ : Type) := MapHeap κ Unit

namespace HSet
variable {κ : Type} [GoKey κ] (g : Growth)

/-- hash_set.go:14-16 HashSetNew. -/
def new (h : SetHeap κ) : SetHeap κ × HSet := let (h, m) := HMap.new h; (h, ⟨m⟩)
/-- hash_set.go:19-21 HashSetWithCapacity. -/
def withCapacity (h : SetHeap κ) (capacity : Nat) : SetHeap κ × HSet :=
  let (h, m) := HMap.withCapacity h capacity; (h, ⟨m⟩)
/-- hash_set.go:24-31 AsSlice: the keys in the order of `range`, in a new slice. -/
def asSlice (ord : List (κ × Unit)) : List κ := ord.foldl (fun result e => result ++ [e.1]) []
/-- hash_set.go:49-51 Len. -/
def len (h : SetHeap κ) (self : HSet) : Nat := self.hashMap.len h
/-- hash_set.go:60-62 IsEmpty. -/
def isEmpty (h : SetHeap κ) (self : HSet) : Bool := self.hashMap.isEmpty h
/-- hash_set.go:72-75 Insert. -/
def insert (h : SetHeap κ) (self : HSet) (value : κ) : Go (SetHeap κ × Bool) := do
  let (h, result) ← self.hashMap.insert h value ()
  .ok (h, result.isNone)
/-- hash_set.go:85-88 Remove. -/
def remove (h : SetHeap κ) (self : HSet) (value : κ) : Go (SetHeap κ × Bool) := do
  let (h, result) ← self.hashMap.remove h value
  .ok (h, result.isSome)
/-- hash_set.go:97-99 Clear. -/
def clear (h : SetHeap κ) (self : HSet) : SetHeap κ × HSet :=
  let (h, m) := self.hashMap.clear h; (h, ⟨m⟩)
/-- hash_set.go:109-116 Get. -/
def get (h : SetHeap κ) (self : HSet) (value : κ) : Go (Opt κ) := do
  let result ← self.hashMap.get h value
  if result.isSome then .ok (Opt.some value) else .ok Opt.none
/-- hash_set.go:126-128 Contains. -/
def contains (h : SetHeap κ) (self : HSet) (value : κ) : Go Bool := self.hashMap.containsKey h value

/-- `set.Insert(value)` with the result dropped, as an effect on the heap. -/
def insertE (newSet : HSet) (value : κ) : Eff (SetHeap κ) HSet := fun h =>
  match newSet.insert h value with
  | .ok (h, _) => (.ok newSet, h)
  | .error e => (.error e, h)
/-- `set.Contains(value)`, as an effect on the heap (which it does not change). -/
def containsE (self : HSet) (value : κ) : Eff (SetHeap κ) Bool := fun h => (self.contains h value, h)
/-- `HashSetNew()`, as an effect on the heap. -/
def newE : Eff (SetHeap κ) HSet := fun h => (.ok (new h).2, (new h).1)

/-- hash_set.go:36-38, loop of HashSetFromSlice. -/
def fromSliceLoop : List κ → HSet → Eff (SetHeap κ) HSet
  | [], result => pure result
  | value :: slice, result => do
    let result ← result.insertE value
    fromSliceLoop slice result
/-- hash_set.go:34-41 HashSetFromSlice. -/
def fromSlice (slice : List κ) : Eff (SetHeap κ) HSet := do
  let result ← newE
  fromSliceLoop slice result

/-- hash_set.go:332-345 HashSetIter and IntoIter; the methods (Next 348-357, Map 360-371, Filter 374-389,
Fold 392-402, Rev 405-418) are textually those of VecIter; CollectToVec (421-423) is `HMap.collectToVec`. -/
def intoIter (ord : List (κ × Unit)) : VecIter κ :=
  ⟨ord.foldl (fun vec e => vec.push g e.1) Vec.new, 0⟩

/-- hash_set.go:149-159, loop of IsSubset; `none` = still running. -/
def subsetLoop (h : SetHeap κ) (other : HSet) : Nat → VecIter κ → Go (Option Bool)
  | 0, _ => .ok none
  | fuel + 1, iter => do
    let (iter, value) ← iter.next
    if value.isNone then .ok (some true)
    else do
      let v ← value.unwrap
      let c ← other.contains h v
      if !c then .ok (some false) else subsetLoop h other fuel iter
/-- hash_set.go:143-160 IsSubset; `ord` is the order of the range in `self.IntoIter()`. -/
def isSubset (h : SetHeap κ) (self other : HSet) (ord : List (κ × Unit)) : Go (Option Bool) :=
  if self.len h > other.len h then .ok (some false)
  else subsetLoop h other (intoIter g ord).rounds (intoIter g ord)
/-- hash_set.go:175-177 IsSuperset; `ord` is the order of the range over `other`. -/
def isSuperset (h : SetHeap κ) (self other : HSet) (ord : List (κ × Unit)) : Go (Option Bool) :=
  isSubset g h other self ord
/-- hash_set.go:225-235, loop of IsDisjoint. -/
def disjointLoop (h : SetHeap κ) (other : HSet) : Nat → VecIter κ → Go (Option Bool)
  | 0, _ => .ok none
  | fuel + 1, iter => do
    let (iter, value) ← iter.next
    if value.isNone then .ok (some true)
    else do
      let v ← value.unwrap
      let c ← other.contains h v
      if c then .ok (some false) else disjointLoop h other fuel iter
/-- hash_set.go:223-236 IsDisjoint. -/
def isDisjoint (h : SetHeap κ) (other : HSet) (ord : List (κ × Unit)) : Go (Option Bool) :=
  disjointLoop h other (intoIter g ord).rounds (intoIter g ord)

/-- hash_set.go:195-210 Intersection; `ord` is the order of the range over self. -/
def intersection (other : HSet) (ord : List (κ × Unit)) : Eff (SetHeap κ) (Option HSet) := do
  let newSet ← newE
  VecIter.drain (fun (newSet : HSet) v => do
    let c ← other.containsE v
    if c then newSet.insertE v else pure newSet) (intoIter g ord).rounds (intoIter g ord) newSet
/-- hash_set.go:255-281 Union; `ord1`, `ord2` are the orders of the ranges over self and other. -/
def union (ord1 ord2 : List (κ × Unit)) : Eff (SetHeap κ) (Option HSet) := do
  let newSet ← newE
  let r ← VecIter.drain (fun (newSet : HSet) v => newSet.insertE v)
    (intoIter g ord1).rounds (intoIter g ord1) newSet
  match r with
  | none => pure none
  | some newSet =>
    VecIter.drain (fun (newSet : HSet) v => newSet.insertE v)
      (intoIter g ord2).rounds (intoIter g ord2) newSet
/-- hash_set.go:299-329 SymmetricDifference. -/
def symmetricDifference (self other : HSet) (ord1 ord2 : List (κ × Unit)) :
    Eff (SetHeap κ) (Option HSet) := do
  let newSet ← newE
  let r ← VecIter.drain (fun (newSet : HSet) v => do
      let c ← other.containsE v
      if !c then newSet.insertE v else pure newSet) (intoIter g ord1).rounds (intoIter g ord1) newSet
  match r with
  | none => pure none
  | some newSet =>
    VecIter.drain (fun (newSet : HSet) v => do
      let c ← self.containsE v
      if !c then newSet.insertE v else pure newSet) (intoIter g ord2).rounds (intoIter g ord2) newSet

/-- hash_set.go:469-478, loop of Clone. -/
def cloneLoop (cK : Option (κ → κ)) : List (κ × Unit) → HSet → Eff (SetHeap κ) HSet
  | [], result => pure result
  | (key, _) :: rest, result =>
    match cK with
    | some ck => do
      let result ← result.insertE (ck key)
      cloneLoop cK rest result
    | none => Eff.panic .explicit
/-- hash_set.go:467-481 Clone. -/
def clone (cK : Option (κ → κ)) (ord : List (κ × Unit)) : Eff (SetHeap κ) HSet := do
  let result ← newE
  cloneLoop cK ord result

/-- hash_set.go:489-493, loop of Eq. -/
def eqLoop (h : SetHeap κ) (rhs : HSet) : List (κ × Unit) → Go Bool
  | [] => .ok true
  | (key, _) :: rest => do
    let c ← rhs.contains h key
    if !c then .ok false else eqLoop h rhs rest
/-- hash_set.go:484-496 Eq. -/
def eq (h : SetHeap κ) (self rhs : HSet) (ord : List (κ × Unit)) : Go Bool :=
  if self.hashMap.len h ≠ rhs.hashMap.len h then .ok false else eqLoop h rhs ord
end HSet
end Gost
