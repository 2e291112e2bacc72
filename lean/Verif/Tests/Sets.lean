import Verif.Props.BTreeSet
import Verif.Props.HashSet
/-
The assertions of /repo/btree_set_test.go and /repo/hash_set_test.go, about the model.  These are tests that the model
agrees with the code where the repository itself says what the code does; they prove no property.
-/
namespace Gost.Tests

/-! ### btree_set_test.go -/

/-- set := BTreeSetNew[I32](); set.Insert(…) … -/
def bset (xs : List Int) (h : BSet.Store Int) : Go (BSet.Store Int × BSet) :=
  xs.foldlM (fun r x => do let (h, s, _) ← r.2.insert compare r.1 x; pure (h, s)) (h, BSet.new)

/-- Two sets in one store and a question about them. -/
def bask {β : Type} (xs ys : List Int) (f : BSet.Store Int → BSet → BSet → Go β) : Option β := (do
  let (h, a) ← bset xs []
  let (h, b) ← bset ys h
  f h a b : Go β).toOption

/-- Len and Contains of the outcome of an operation. -/
def bres (f : BSet → BSet → Eff (BSet.Store Int) (Option BSet)) (ks : List Int) (h : BSet.Store Int) (a b : BSet) :
    Go (Option (Nat × List Bool)) :=
  match f a b h with
  | (.ok (some s), h) => do
    let l ← ks.mapM fun k => s.contains compare h k
    pure (some (s.treemap.length, l))
  | (.ok none, _) => .ok none
  | (.error p, _) => .error p

-- Test_BTreeSet_IsSubset
example : bask [1, 2] [1, 2, 3] (fun h a b => a.isSubset compare doubling h b) = some (some true) ∧
  bask [1, 2] [1, 2, 3] (fun h a b => b.isSubset compare doubling h a) = some (some false) := by decide +kernel
-- Test_BTreeSet_IsSuperset
example : bask [1, 2] [1, 2, 3] (fun h a b => b.isSuperset compare doubling h a) = some (some true) ∧
  bask [1, 2] [1, 2, 3] (fun h a b => a.isSuperset compare doubling h b) = some (some false) := by decide +kernel
-- Test_BTreeSet_Intersection
example : bask [1, 2, 5] [1, 2, 3] (bres (BSet.intersection compare doubling) [1, 2, 3, 5]) =
  some (some (2, [true, true, false, false])) := by decide +kernel
-- Test_BTreeSet_IsDisjoint
example : bask [1, 2] [3, 4] (fun h a b => a.isDisjoint compare doubling h b) = some (some true) ∧
  bask [1, 2] [3, 4] (fun h a b => b.isDisjoint compare doubling h a) = some (some true) ∧
  bask [1, 2] [3, 4, 2] (fun h a b => a.isDisjoint compare doubling h b) = some (some false) ∧
  bask [1, 2] [3, 4, 2] (fun h a b => b.isDisjoint compare doubling h a) = some (some false) := by decide +kernel
-- Test_BTreeSet_Union
example : bask [1, 2, 3] [3, 4] (bres (BSet.union compare doubling) [1, 2, 3, 4]) =
  some (some (4, [true, true, true, true])) := by decide +kernel
-- Test_BTreeSet_SymmetricDifference
example : bask [1, 2, 5] [1, 2, 3] (bres (BSet.symmetricDifference compare doubling) [3, 5]) =
  some (some (2, [true, true])) := by decide +kernel

/-! ### hash_set_test.go (ranging in order of insertion, and in the opposite order) -/

/-- set := HashSetNew[I32](); set.Insert(…) … -/
def hset (xs : List Int) (h : SetHeap Int) : Go (SetHeap Int × HSet) :=
  xs.foldlM (fun r x => do let (h, _) ← r.2.insert r.1 x; pure (h, r.2)) (HSet.new h)

def hask {β : Type} (xs ys : List Int) (f : SetHeap Int → HSet → HSet → Go β) : Option β := (do
  let (h, a) ← hset xs []
  let (h, b) ← hset ys h
  f h a b : Go β).toOption

def hres (f : HSet → HSet → Eff (SetHeap Int) (Option HSet)) (ks : List Int) (h : SetHeap Int) (a b : HSet) :
    Go (Option (Nat × List Bool)) :=
  match f a b h with
  | (.ok (some s), h) => do
    let l ← ks.mapM fun k => s.contains h k
    pure (some (s.len h, l))
  | (.ok none, _) => .ok none
  | (.error p, _) => .error p

abbrev ents (xs : List Int) : List (Int × Unit) := xs.map fun x => (x, ())

-- Test_HashSet_IsSubset
example : ∀ o ∈ [[1, 2], [2, 1]], hask [1, 2] [1, 2, 3] (fun h a b => a.isSubset doubling h b (ents o)) =
  some (some true) := by decide +kernel
example : ∀ o ∈ [[1, 2, 3], [3, 2, 1]], hask [1, 2] [1, 2, 3] (fun h a b => b.isSubset doubling h a (ents o)) =
  some (some false) := by decide +kernel
-- Test_HashSet_IsSuperset
example : ∀ o ∈ [[1, 2], [2, 1]], hask [1, 2] [1, 2, 3] (fun h a b => b.isSuperset doubling h a (ents o)) =
  some (some true) := by decide +kernel
example : ∀ o ∈ [[1, 2, 3], [3, 2, 1]], hask [1, 2] [1, 2, 3] (fun h a b => a.isSuperset doubling h b (ents o)) =
  some (some false) := by decide +kernel
-- Test_HashSet_Intersection
example : ∀ o ∈ [[1, 2, 5], [5, 2, 1]],
  hask [1, 2, 5] [1, 2, 3] (hres (fun _ b => HSet.intersection doubling b (ents o)) [1, 2, 3, 5]) =
  some (some (2, [true, true, false, false])) := by decide +kernel
-- Test_HashSet_IsDisjoint
example : ∀ o ∈ [[1, 2], [2, 1]],
  hask [1, 2] [3, 4] (fun h _ b => HSet.isDisjoint doubling h b (ents o)) = some (some true) ∧
  hask [1, 2] [3, 4, 2] (fun h _ b => HSet.isDisjoint doubling h b (ents o)) = some (some false) := by decide +kernel
example : ∀ o ∈ [[3, 4], [4, 3]],
  hask [1, 2] [3, 4] (fun h a _ => HSet.isDisjoint doubling h a (ents o)) = some (some true) ∧
  hask [1, 2] [3, 4, 2] (fun h a _ => HSet.isDisjoint doubling h a (ents (o ++ [2]))) = some (some false) := by
  decide +kernel
-- Test_HashSet_Union
example : ∀ o ∈ [[1, 2, 3], [3, 2, 1]], ∀ o' ∈ [[3, 4], [4, 3]],
  hask [1, 2, 3] [3, 4] (hres (fun _ _ => HSet.union doubling (ents o) (ents o')) [1, 2, 3, 4]) =
  some (some (4, [true, true, true, true])) := by decide +kernel
-- Test_HashSet_SymmetricDifference
example : ∀ o ∈ [[1, 2, 5], [5, 2, 1]], ∀ o' ∈ [[1, 2, 3], [3, 2, 1]],
  hask [1, 2, 5] [1, 2, 3] (hres (fun a b => HSet.symmetricDifference doubling a b (ents o) (ents o')) [3, 5]) =
  some (some (2, [true, true])) := by decide +kernel

end Gost.Tests
