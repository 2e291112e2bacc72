import Verif.Model.Cmp
/-
The Clone and Eq methods on values built by nesting the types of the package (a Vec of HashMaps of Options ...), with
all pointers and the dispatch on the element's methods: clone.go, the Eq interface of cmp.go, and the Clone and Eq
methods of option.go, result.go, pair.go, vec.go, vec_deque.go, linked_list.go, hash_map.go, hash_set.go.

The other model files have the single containers with arbitrary element methods that neither allocate nor panic;
here the element methods are those of the element type, down to the primitive types.

Simplifications.  A new array, list or map is allocated when all its elements are there (nobody can see it before).
`prev` of list nodes is left out, as is capacity; only the living elements of a deque's buffer are kept, in order
(Get is in Model/VecDeque.lean).  The keys of maps and sets are primitive.  The contents of a BTreeSet stand for the
set (C76 is about its methods); the contents of a BTreeMap are left out, as it has neither method.  An F32 is
represented by the F64 of the same value.  `self.err == rhs.err` compares error values that are comparable.
-/
namespace Gost.Nested

/-- primitive.go: the primitive types. -/
inductive Kind where
  | ISize | I8 | I16 | I32 | I64 | I128 | USize | U8 | U16 | U32 | U64 | U128 | F32 | F64 | Byte | Char | String
  | Bool | Complex64 | Complex128
  deriving DecidableEq, Repr

/-- The types. -/
inductive Ty where
  | prim (k : Kind)
  | option (t : Ty)
  | result (t : Ty)
  | pair (k v : Ty)
  | vec (t : Ty)
  | deque (t : Ty)
  | list (t : Ty)
  | hashMap (k : Kind) (v : Ty)
  | hashSet (k : Kind)
  | btreeMap (k : Kind) (v : Ty)
  | btreeSet (k : Kind)
  deriving DecidableEq, Repr

/-- A value of a primitive type. -/
inductive PVal where
  | num (n : Int)
  | float (x : GoFloat 11 52)
  | str (s : GoStr)
  | complex (re im : GoFloat 11 52)
  deriving DecidableEq, Repr

/-- Go's `==`. -/
def PVal.eq : PVal → PVal → Bool
  | .num a, .num b => a == b
  | .float a, .float b => a.eq b
  | .str a, .str b => a == b
  | .complex a b, .complex c d => a.eq c && b.eq d
  | _, _ => false

/-- A value as it lies in a variable; addresses are numbers.  option.go:7-9 `Option` and result.go:11-14 `Result` hold
pointers, slices and maps are references, a LinkedList (linked_list.go:6-10) has the address of its first node. -/
inductive V where
  | prim (x : PVal)
  | option (p : Option Nat)
  | result (p : Option Nat) (err : Option Nat)
  | pair (a b : V)
  | vec (arr : Nat)
  | deque (arr : Nat)
  | list (head : Option Nat) (len : Nat)
  | hashMap (m : Option Nat)
  | hashSet (m : Option Nat)
  | btreeMap
  | btreeSet (keys : List PVal)
  deriving Repr, Inhabited

/-- What is at an address: a variable, the elements of an array, a node of a list, the entries of a map, the keys of
a set (a map without values). -/
inductive Obj where
  | cell (v : V)
  | arr (vs : List V)
  | node (v : V) (next : Option Nat)
  | map (es : List (PVal × V))
  | keys (ks : List PVal)
  deriving Repr

/-- All that has been allocated. -/
abbrev Heap := List Obj

/-- A call does not return: it panics or goes on forever. -/
inductive Stop where
  | panic (p : Panic)
  | hang
  deriving DecidableEq, Repr
abbrev End (α : Type) := Except Stop α

/-- Reading through a pointer; the second argument says what is expected there (what Go's types guarantee). -/
def read {β : Type} (h : Heap) (f : Obj → Option β) (p : Option Nat) : End β :=
  match p with
  | none => .error (.panic .nilDeref)
  | some i =>
    match h[i]? with
    | none => .error (.panic .nilDeref)
    | some o =>
      match f o with
      | none => .error (.panic .nilDeref)
      | some b => .ok b
def Obj.cell? : Obj → Option V
  | .cell v => some v
  | _ => none
def Obj.arr? : Obj → Option (List V)
  | .arr vs => some vs
  | _ => none
def Obj.map? : Obj → Option (List (PVal × V))
  | .map es => some es
  | _ => none
def Obj.keys? : Obj → Option (List PVal)
  | .keys ks => some ks
  | _ => none

/-- linked_list.go:237-262 the iterator of a list, used up: the values of the nodes; `none`: it goes around forever
(no more values than nodes can come otherwise). -/
def walk (h : Heap) : Nat → Option Nat → Option (List V)
  | _, none => some []
  | 0, some _ => none
  | fuel + 1, some i =>
    match h[i]? with
    | some (.node v next) => (walk h fuel next).map (v :: ·)
    | _ => none
def listValues (h : Heap) (head : Option Nat) : End (List V) :=
  match walk h h.length head with
  | some vs => .ok vs
  | none => .error .hang

/-- clone.go:20-90: the primitive types with a method Clone (I128 and U128 have none). -/
def Kind.hasClone : Kind → _root_.Bool
  | .I128 | .U128 => false
  | _ => true
/-- cmp.go:213-283: the primitive types with a method Eq. -/
def Kind.hasEq : Kind → _root_.Bool
  | .Complex64 | .Complex128 => false
  | _ => true
/-- clone.go:6-8, 10-18 castToClone finds a method `Clone() T`: option.go:372, result.go:347, pair.go:45, vec.go:673,
linked_list.go:409, hash_map.go:475, hash_set.go:467, btree_set.go:437.  vec_deque.go:828 returns a pointer;
BTreeMap has no Clone. -/
def Ty.hasClone : Ty → Bool
  | .prim k => k.hasClone
  | .deque _ | .btreeMap _ _ => false
  | _ => true
/-- cmp.go:209-211, 285-293 castToEq finds a method `Eq(T) Bool`: option.go:381, result.go:356, pair.go:56, vec.go:685,
vec_deque.go:839, linked_list.go:435, hash_map.go:497, hash_set.go:484, btree_set.go:461.  btree_map.go:1130 takes a
pointer. -/
def Ty.hasEq : Ty → Bool
  | .prim k => k.hasEq
  | .btreeMap _ _ => false
  | _ => true

/-- clone.go:10-18 castToClone, option.go:391-413 _InternalOption: the method, or nil. -/
def castToClone {α : Type} (has : Bool) (method : α) : Option α := if has then some method else none
/-- cmp.go:285-293 castToEq. -/
def castToEq {α : Type} (has : Bool) (method : α) : Option α := if has then some method else none
/-- option.go:403-405 _InternalOption.Unwrap. -/
def unwrap {α : Type} : Option α → End α
  | some x => .ok x
  | none => .error (.panic .nilDeref)
/-- `if x.IsSome() { ... } else { panic(...) }` (linked_list.go:421-428, 457-466, hash_map.go:482-488,
hash_set.go:472-477).  The message is made with utils.go:5-7 getTypeName, which panics itself unless the value is a
pointer; either way the call panics. -/
def orPanic {α : Type} : Option α → End α
  | some x => .ok x
  | none => .error (.panic .explicit)

/-- The loops of Clone over the elements: the method is looked up for every element. -/
def cloneEach (method : End (Heap → V → End (Heap × V))) : Heap → List V → End (Heap × List V)
  | h, [] => .ok (h, [])
  | h, v :: vs => do
    let c ← method
    let (h, v) ← c h v
    let (h, vs) ← cloneEach method h vs
    .ok (h, v :: vs)
/-- hash_map.go:478-491 the loop of Clone; a clone of a primitive key is the key. -/
def cloneEntries (key : End Unit) (value : End (Heap → V → End (Heap × V))) :
    Heap → List (PVal × V) → End (Heap × List (PVal × V))
  | h, [] => .ok (h, [])
  | h, (k, v) :: es => do
    key
    let c ← value
    let (h, v) ← c h v
    let (h, es) ← cloneEntries key value h es
    .ok (h, (k, v) :: es)
/-- linked_list.go:410, 423 (PushBack, 67-87): the nodes of the new list. -/
def pushNodes : Heap → List V → Heap × Option Nat
  | h, [] => (h, none)
  | h, v :: vs => (fun (r : Heap × Option Nat) => (r.1 ++ [.node v r.2], some r.1.length)) (pushNodes h vs)

/-- The order in which `range` visits the entries of a map: any. -/
structure RangeOrder where
  order : {β : Type} → Heap → List β → List β
  perm : ∀ {β : Type} (h : Heap) (l : List β), (order h l).Perm l

/-- Clone. -/
def clone (rng : RangeOrder) : Ty → Heap → V → End (Heap × V)
  /- clone.go:20-90 -/
  | .prim _, h, .prim x => .ok (h, .prim x)
  /- option.go:372-378 -/
  | .option t, h, .option p =>
    match p with
    | none => .ok (h, .option none)
    | some _ => do
      let c ← unwrap (castToClone t.hasClone (clone rng t))
      let v ← read h Obj.cell? p
      let (h, v) ← c h v
      .ok (h ++ [.cell v], .option (some h.length))
  /- result.go:347-353 -/
  | .result t, h, .result p err =>
    match p with
    | none => .ok (h, .result none err)
    | some _ => do
      let c ← unwrap (castToClone t.hasClone (clone rng t))
      let v ← read h Obj.cell? p
      let (h, v) ← c h v
      .ok (h ++ [.cell v], .result (some h.length) none)
  /- pair.go:45-53 -/
  | .pair k v, h, .pair a b => do
    let ck ← unwrap (castToClone k.hasClone (clone rng k))
    let (h, a) ← ck h a
    let cv ← unwrap (castToClone v.hasClone (clone rng v))
    let (h, b) ← cv h b
    .ok (h, .pair a b)
  /- vec.go:673-682 -/
  | .vec t, h, .vec arr => do
    let vs ← read h Obj.arr? (some arr)
    let (h, vs) ← cloneEach (unwrap (castToClone t.hasClone (clone rng t))) h vs
    .ok (h ++ [.arr vs], .vec h.length)
  /- linked_list.go:409-432 -/
  | .list t, h, .list head _ => do
    let vs ← listValues h head
    let (h, vs) ← cloneEach (orPanic (castToClone t.hasClone (clone rng t))) h vs
    .ok ((pushNodes h vs).1, .list (pushNodes h vs).2 vs.length)
  /- hash_map.go:475-494; `range` over a nil map does nothing -/
  | .hashMap k v, h, .hashMap m => do
    let es ← (if m.isNone then .ok [] else read h Obj.map? m)
    let (h, es) ← cloneEntries (orPanic (castToClone k.hasClone ())) (orPanic (castToClone v.hasClone (clone rng v))) h
      (rng.order h es)
    .ok (h ++ [.map es], .hashMap (some h.length))
  /- hash_set.go:467-481 -/
  | .hashSet k, h, .hashSet m => do
    let ks ← (if m.isNone then .ok [] else read h Obj.keys? m)
    let ks := rng.order h ks
    if ks.isEmpty || k.hasClone then .ok (h ++ [.keys ks], .hashSet (some h.length))
    else .error (.panic .explicit)
  /- btree_set.go:437-458: a new iterator in every round, so that a set with an element is never used up (C76) -/
  | .btreeSet k, h, .btreeSet ks =>
    if ks.isEmpty then .ok (h, .btreeSet [])
    else if k.hasClone then .error .hang
    else .error (.panic .explicit)
  | _, _, _ => .error (.panic .nilDeref)

/-- vec_deque.go:828-836 VecDeque.Clone: the elements are copied. -/
def dequeClone (h : Heap) : V → End (Heap × V)
  | .deque arr => do
    let vs ← read h Obj.arr? (some arr)
    .ok (h ++ [.arr vs], .deque h.length)
  | _ => .error (.panic .nilDeref)

/-- The loops of Eq over two sequences (of the same length). -/
def eqEach (method : End (V → V → End Bool)) : List V → List V → End Bool
  | v :: vs, w :: ws => do
    let e ← method
    if !(← e v w) then .ok false else eqEach method vs ws
  | _, _ => .ok true
/-- hash_map.go:502-512 the loop of Eq. -/
def eqEntries (method : End (V → V → End Bool)) (rhs : List (PVal × V)) : List (PVal × V) → End Bool
  | [] => .ok true
  | (k, v) :: es =>
    match rhs.find? fun e => k.eq e.1 with
    | none => .ok false
    | some e => do
      let eq ← method
      if !(← eq v e.2) then .ok false else eqEntries method rhs es

/-- Eq. -/
def eq (rng : RangeOrder) (h : Heap) : Ty → V → V → End Bool
  /- cmp.go:213-283 -/
  | .prim _, .prim x, .prim y => .ok (x.eq y)
  /- option.go:381-389 -/
  | .option t, .option p, .option q =>
    match p, q with
    | none, none => .ok true
    | some _, some _ => do
      let a ← read h Obj.cell? p
      let e ← unwrap (castToEq t.hasEq (eq rng h t))
      let b ← read h Obj.cell? q
      e a b
    | _, _ => .ok false
  /- result.go:356-364 -/
  | .result t, .result p err, .result q err' =>
    match p, q with
    | none, none => .ok (err == err')
    | some _, some _ => do
      let a ← read h Obj.cell? p
      let e ← unwrap (castToEq t.hasEq (eq rng h t))
      let b ← read h Obj.cell? q
      e a b
    | _, _ => .ok false
  /- pair.go:56-61 -/
  | .pair k v, .pair a b, .pair c d => do
    let ek ← unwrap (castToEq k.hasEq (eq rng h k))
    let keyEq ← ek a c
    let ev ← unwrap (castToEq v.hasEq (eq rng h v))
    let valueEq ← ev b d
    .ok (keyEq && valueEq)
  /- vec.go:685-697 -/
  | .vec t, .vec x, .vec y => do
    let vs ← read h Obj.arr? (some x)
    let ws ← read h Obj.arr? (some y)
    if vs.length ≠ ws.length then .ok false else eqEach (unwrap (castToEq t.hasEq (eq rng h t))) vs ws
  /- vec_deque.go:839-851 -/
  | .deque t, .deque x, .deque y => do
    let vs ← read h Obj.arr? (some x)
    let ws ← read h Obj.arr? (some y)
    if vs.length ≠ ws.length then .ok false else eqEach (unwrap (castToEq t.hasEq (eq rng h t))) vs ws
  /- linked_list.go:435-470 -/
  | .list t, .list x m, .list y n =>
    if m ≠ n then .ok false
    else do
      let vs ← listValues h x
      let ws ← listValues h y
      eqEach (orPanic (castToEq t.hasEq (eq rng h t))) vs ws
  /- hash_map.go:497-515 -/
  | .hashMap _ v, .hashMap m, .hashMap n => do
    let es ← (if m.isNone then .ok [] else read h Obj.map? m)
    let fs ← (if n.isNone then .ok [] else read h Obj.map? n)
    if es.length ≠ fs.length then .ok false
    else eqEntries (unwrap (castToEq v.hasEq (eq rng h v))) fs (rng.order h es)
  /- hash_set.go:484-496 -/
  | .hashSet _, .hashSet m, .hashSet n => do
    let ks ← (if m.isNone then .ok [] else read h Obj.keys? m)
    let ls ← (if n.isNone then .ok [] else read h Obj.keys? n)
    if ks.length ≠ ls.length then .ok false
    else .ok ((rng.order h ks).all fun k => ls.any fun l => k.eq l)
  /- btree_set.go:461-480 -/
  | .btreeSet _, .btreeSet ks, .btreeSet ls =>
    if ks.length ≠ ls.length then .ok false else .ok (ks.all fun k => ls.any fun l => k.eq l)
  | _, _, _ => .error (.panic .nilDeref)

end Gost.Nested
