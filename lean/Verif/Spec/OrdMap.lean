import Verif.Spec.Order
/-
Specification of ordered finite maps: association lists in strictly ascending order of their keys.
Nothing here mentions nodes or slots.
-/
namespace Gost.Spec
variable {κ ν : Type}

/-- A three-way comparison that is a total preorder (the contract of the Cmp method of `Ord`). -/
structure LawfulCmp (cmp : κ → κ → Ordering) : Prop where
  swap : ∀ a b, cmp b a = (cmp a b).swap
  trans : ∀ a b c, cmp a b ≠ .gt → cmp b c ≠ .gt → cmp a c ≠ .gt

theorem LawfulOrd.lawfulCmp {cmp : κ → κ → Ordering} {eq : κ → κ → Bool} (h : LawfulOrd cmp eq) :
    LawfulCmp cmp := ⟨h.swap, h.trans⟩

/-- The entries are in strictly ascending order of their keys. -/
def Ascending (cmp : κ → κ → Ordering) (l : List (κ × ν)) : Prop :=
  l.Pairwise fun a b => cmp a.1 b.1 = .lt

namespace OMap
variable (cmp : κ → κ → Ordering)

/-- The value stored for a key. -/
def lookup (l : List (κ × ν)) (k : κ) : Option ν := (l.find? fun e => cmp k e.1 == .eq).map (·.2)
/-- Is there an entry for the key? -/
def mem (l : List (κ × ν)) (k : κ) : Bool := l.any fun e => cmp k e.1 == .eq
/-- The entries below and above a key. -/
def below (l : List (κ × ν)) (k : κ) : List (κ × ν) := l.filter fun e => cmp e.1 k == .lt
def above (l : List (κ × ν)) (k : κ) : List (κ × ν) := l.filter fun e => cmp e.1 k == .gt
/-- Replace the value of an existing key (the key itself is kept), or add a new entry. -/
def insert (l : List (κ × ν)) (k : κ) (v : ν) : List (κ × ν) :=
  if mem cmp l k then l.map fun e => if cmp k e.1 == .eq then (e.1, v) else e
  else below cmp l k ++ (k, v) :: above cmp l k
/-- Drop the entry of a key. -/
def remove (l : List (κ × ν)) (k : κ) : List (κ × ν) := l.filter fun e => cmp k e.1 != .eq
end OMap
end Gost.Spec
