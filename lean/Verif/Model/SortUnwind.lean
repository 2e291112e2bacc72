import Verif.Model.Unwind
/-
The sorting methods with comparisons that may have effects, give inconsistent answers, or panic, and the state the
container is in when one of them panics and the panic is recovered by the caller.

`sort.SliceStable(x, less)` and `sort.Slice(x, less)` change x only by exchanging two of its elements, and look at the
elements only through `less`, which they call with indices of x.  So a call is a finite tree of comparisons and
exchanges, which depends on the length of x only (contract, see DESIGN.md).  Model/Vec.lean has the results for comparisons that
are pure functions; Props/SortUnwind.lean shows that the two views agree.
-/
namespace Gost

/-- What package sort does with a slice of `n` elements: compare two elements and go on according to the answer, exchange
two elements, or return. -/
inductive SortSteps (n : Nat) : Type where
  | done : SortSteps n
  | less : (i j : Fin n) → (Bool → SortSteps n) → SortSteps n
  | swap : (i j : Fin n) → SortSteps n → SortSteps n

namespace SortSteps
variable {n : Nat}

/-- A run of package sort, given the `less` closure and the exchange of two elements of the slice. -/
def run {σ : Type} (less : Nat → Nat → Eff σ Bool) (swap : Nat → Nat → Eff σ Unit) : SortSteps n → Eff σ Unit
  | done => pure ()
  | .less i j k => do
    let b ← less i j
    run less swap (k b)
  | .swap i j k => do
    swap i j
    run less swap k

/-- The slice after a run, when the answers of `less` are those of a pure function. -/
def list {α : Type} (lt : α → α → Bool) : SortSteps n → List α → List α
  | done, l => l
  | .less i j k, l =>
    match l[i.val]?, l[j.val]? with
    | some a, some b => list lt (k (lt a b)) l
    | _, _ => l
  | .swap i j k, l =>
    match l[i.val]?, l[j.val]? with
    | some a, some b => list lt k ((l.set i b).set j a)
    | _, _ => l
end SortSteps

/-- The contract of package sort, with the steps: if `less` is a strict weak order the result is sorted, and for
SliceStable the elements equivalent to any given element keep their order. -/
structure SortTrees where
  stable : (n : Nat) → SortSteps n
  unstable : (n : Nat) → SortSteps n
  stable_sorted : ∀ {α : Type} (lt : α → α → Bool) (l : List α), StrictWeak lt →
    ((stable l.length).list lt l).Pairwise fun a b => lt b a = false
  unstable_sorted : ∀ {α : Type} (lt : α → α → Bool) (l : List α), StrictWeak lt →
    ((unstable l.length).list lt l).Pairwise fun a b => lt b a = false
  stable_stable : ∀ {α : Type} (lt : α → α → Bool) (l : List α), StrictWeak lt → ∀ x,
    ((stable l.length).list lt l).filter (fun a => !lt a x && !lt x a) = l.filter (fun a => !lt a x && !lt x a)

namespace Unwind
variable {σ α : Type}

/-- vec.go:472-477, 519-524: the `less` closure of SortBy and SortUnstableBy; it reads `self.data`. -/
def vecLess (compare : α → α → Eff σ Ordering) (i j : Nat) : Eff (Vec α × σ) Bool := do
  let self ← get
  let lhs ← Eff.lift (index self.data i)
  let rhs ← Eff.lift (index self.data j)
  let o ← call (compare lhs rhs)
  pure (o == .lt)
/-- An exchange in the slice `self.data` (package sort uses reflect.Swapper). -/
def vecSwap (i j : Nat) : Eff (Vec α × σ) Unit := do
  let self ← get
  let data ← Eff.lift (Vec.swapData self.data i j)
  put ⟨data, self.cap⟩
/-- vec.go:471-478 SortBy, vec.go:518-525 SortUnstableBy: they differ in the function of package sort only. -/
def sortBy (lib : (n : Nat) → SortSteps n) (compare : α → α → Eff σ Ordering) : Eff (Vec α × σ) Unit := do
  let self ← get
  (lib self.data.length).run (vecLess compare) vecSwap
/-- vec.go:442-449 Sort, vec.go:489-496 SortUnstable; `cmp` is the element's Cmp method, if it has one. -/
def sort (lib : (n : Nat) → SortSteps n) (cmp : Option (α → α → Eff σ Ordering)) : Eff (Vec α × σ) Unit :=
  sortBy lib fun lhs rhs =>
    match cmp with
    | some c => c lhs rhs
    | none => Eff.panic .nilDeref

/-- vec_deque.go:528-530, 577-579: the `less` closure of SortBy and SortUnstableBy; it reads `self.buffer`. -/
def dqLess (f : α → α → Eff σ Ordering) (i j : Nat) : Eff (VecDeque α × σ) Bool := do
  let self ← get
  let lhs ← Eff.lift (index self.buffer i)
  let rhs ← Eff.lift (index self.buffer j)
  let o ← call (f lhs rhs)
  pure (o == .lt)
/-- An exchange in the slice `self.buffer[:self.len]`; the indices are below `self.len`. -/
def dqSwap (i j : Nat) : Eff (VecDeque α × σ) Unit := do
  let self ← get
  let buffer ← Eff.lift (Vec.swapData self.buffer i j)
  put ⟨buffer, self.len, self.head⟩
/-- vec_deque.go:527-531 SortBy, vec_deque.go:576-580 SortUnstableBy. -/
def dqSortBy (lib : (n : Nat) → SortSteps n) (f : α → α → Eff σ Ordering) : Eff (VecDeque α × σ) Unit := do
  let self ← get
  if self.len ≤ self.buffer.length then (lib self.len).run (dqLess f) dqSwap
  else Eff.panic .sliceBounds
/-- vec_deque.go:493-505 Sort, vec_deque.go:542-554 SortUnstable. -/
def dqSort (lib : (n : Nat) → SortSteps n) (cmp : Option (α → α → Eff σ Ordering)) : Eff (VecDeque α × σ) Unit :=
  dqSortBy lib fun lhs rhs =>
    match cmp with
    | some c => c lhs rhs
    | none => Eff.panic .explicit
end Unwind
end Gost
