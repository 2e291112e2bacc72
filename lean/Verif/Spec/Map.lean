import Verif.Model.HashMap
/-
Specification of finite maps and sets (used for HashMap, HashSet): partial functions that respect the
equality of the keys, and the operations on them.  Nothing here mentions how the library stores entries.
-/
namespace Gost

/-- A lawful key type: `==` is an equivalence relation and every key can be hashed. -/
class LawfulGoKey (κ : Type) [GoKey κ] : Prop where
  refl : ∀ a : κ, GoKey.eq a a = true
  symm : ∀ a b : κ, GoKey.eq a b = true → GoKey.eq b a = true
  trans : ∀ a b c : κ, GoKey.eq a b = true → GoKey.eq b c = true → GoKey.eq a c = true
  hash : ∀ a : κ, GoKey.hashable a = true

namespace Spec
variable {κ ν : Type} [GoKey κ]

/-- A finite map: what is stored for each key, and the number of entries. -/
structure FMap (κ ν : Type) where
  get : κ → Option ν
  size : Nat

namespace FMap
def empty : FMap κ ν := ⟨fun _ => none, 0⟩
def insert (f : FMap κ ν) (k : κ) (v : ν) : FMap κ ν :=
  ⟨fun k' => if GoKey.eq k' k then some v else f.get k',
    if (f.get k).isSome then f.size else f.size + 1⟩
def remove (f : FMap κ ν) (k : κ) : FMap κ ν :=
  ⟨fun k' => if GoKey.eq k' k then none else f.get k',
    if (f.get k).isSome then f.size - 1 else f.size⟩
end FMap

/-- A list lists the entries of `f`: no two keys are equal, each entry of `f` occurs and nothing else, and
the size of `f` is their number. -/
structure Enumerates (l : List (κ × ν)) (f : FMap κ ν) : Prop where
  distinct : l.Pairwise fun a b => GoKey.eq a.1 b.1 = false
  entries : ∀ k v, f.get k = some v ↔ ∃ e ∈ l, GoKey.eq k e.1 = true ∧ e.2 = v
  size : l.length = f.size

/-- A finite set: which keys belong to it, and how many there are. -/
structure FSet (κ : Type) where
  mem : κ → Bool
  size : Nat

/-- A set as a map to the one-element type. -/
def FSet.toMap (s : FSet κ) : FMap κ Unit := ⟨fun k => if s.mem k then some () else none, s.size⟩

namespace FSet
def empty : FSet κ := ⟨fun _ => false, 0⟩
def insert (s : FSet κ) (k : κ) : FSet κ :=
  ⟨fun k' => GoKey.eq k' k || s.mem k', if s.mem k then s.size else s.size + 1⟩
def remove (s : FSet κ) (k : κ) : FSet κ :=
  ⟨fun k' => !GoKey.eq k' k && s.mem k', if s.mem k then s.size - 1 else s.size⟩
end FSet
end Spec
end Gost
