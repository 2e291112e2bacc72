import Verif.Model.SliceHeap
import Verif.Model.SortUnwind
/-
The methods of Vec and VecDeque that call a function of the user, when that function uses the container the method works
on: it may look at the elements and call methods that change the container.  (In Rust the borrow checker rules this out.)

Not modelled: FillWith, whose assignment `self.data[i] = f()` evaluates its operands in an order Go leaves open when f
changes self.data; a function of the user that recovers from a panic of one of these calls.
-/
namespace Gost

/-- What a function of the user does with the container: return, look at the elements, or call a method (`ω`). -/
inductive Use (ω α β : Type) where
  | done (b : β)
  | look (k : List α → Use ω α β)
  | op (o : ω) (k : Use ω α β)

/-- A run; `view` gives the elements of a container, `step` is the effect of a method. -/
def Use.run {ω α β γ : Type} (view : γ → List α) (step : ω → γ → Go γ) : Use ω α β → γ → Go (β × γ)
  | .done b, c => .ok (b, c)
  | .look k, c => (k (view c)).run view step c
  | .op o k, c => do
    let c ← step o c
    k.run view step c

namespace Reenter
variable {α β σ τ ω : Type} [Inhabited α]

/-- A Vec variable: the arrays and the slice. -/
abbrev VecVar (α : Type) := SHeap α × Slice
/-- The elements of a Vec variable. -/
def contents (c : VecVar α) : List α := c.2.view c.1
/-- A method called by the user's function on the Vec variable. -/
def perform (g : Growth) (S : SortLib) (o : MOp α) (c : VecVar α) : Go (VecVar α) := o.heap g S c.1 c.2

/-- vec.go:162-166, 185-191: the loops of Retain and DedupByKey, `n` rounds from `i` on.  `range` evaluates `self.data` once;
the element is read when its round begins.  `accept` says if an answer leads to an append; it keeps the map `seen` of
DedupByKey. -/
def collectLoop (g : Growth) (S : SortLib) (accept : β → τ → Bool × τ) (f : α → σ → Use (MOp α) α (β × σ)) (range : Slice) :
    Nat → Nat → τ → Slice → VecVar α → σ → Go (SHeap α × Slice × σ)
  | 0, _, _, newData, c, s => .ok (c.1, newData, s)
  | n + 1, i, t, newData, c, s => do
    let value ← index (range.view c.1) i
    let ((b, s), c) ← (f value s).run contents (perform g S) c
    if (accept b t).1 then
      let (h, newData) := newData.goAppend g c.1 [value]
      collectLoop g S accept f range n (i + 1) (accept b t).2 newData (h, c.2) s
    else collectLoop g S accept f range n (i + 1) (accept b t).2 newData c s

/-- vec.go:160-168 Retain; the assignment at the end replaces whatever the variable holds by then. -/
def retain (g : Growth) (S : SortLib) (predicate : α → σ → Use (MOp α) α (Bool × σ)) (c : VecVar α) (s : σ) :
    Go (VecVar α × σ) := do
  let (h, newData) := Slice.make c.1 0 c.2.len
  let (h, newData, s) ← collectLoop g S (fun b (_ : Unit) => (b, ())) predicate c.2 c.2.len 0 () newData (h, c.2) s
  .ok ((h, newData), s)

/-- vec.go:182-193 DedupByKey; `keq` compares keys (see `Vec.dedupByKey`). -/
def dedupByKey {κ : Type} (g : Growth) (S : SortLib) (keq : κ → κ → Bool) (key : α → σ → Use (MOp α) α (κ × σ)) (c : VecVar α) (s : σ) :
    Go (VecVar α × σ) := do
  let (h, newData) := Slice.make c.1 0 c.2.len
  let (h, newData, s) ← collectLoop g S (fun k seen => (!seen.any (keq k), if seen.any (keq k) then seen else k :: seen)) key c.2
    c.2.len 0 [] newData (h, c.2) s
  .ok ((h, newData), s)

/-- vec.go:472-477, 519-524: package sort works on the slice `range` it was given; the `less` closure reads `self.data`, that
is the slice the variable holds when it is called. -/
def sortSteps {n : Nat} (g : Growth) (S : SortLib) (compare : α → α → σ → Use (MOp α) α (Ordering × σ)) (range : Slice) :
    SortSteps n → VecVar α → σ → Go (VecVar α × σ)
  | .done, c, s => .ok (c, s)
  | .less i j k, c, s => do
    let lhs ← index (c.2.view c.1) i
    let rhs ← index (c.2.view c.1) j
    let ((o, s), c) ← (compare lhs rhs s).run contents (perform g S) c
    sortSteps g S compare range (k (o == .lt)) c s
  | .swap i j k, c, s => do
    let d ← Vec.swapData (range.view c.1) i j
    sortSteps g S compare range k (range.writeBack c.1 d, c.2) s

/-- vec.go:471-478 SortBy, vec.go:518-525 SortUnstableBy. -/
def sortBy (g : Growth) (S : SortLib) (lib : (n : Nat) → SortSteps n) (compare : α → α → σ → Use (MOp α) α (Ordering × σ))
    (c : VecVar α) (s : σ) : Go (VecVar α × σ) :=
  sortSteps g S compare c.2 (lib c.2.len) c s

/-- vec_deque.go:199-205 Retain: the loop; `self.Len()` is read before each round; `none` when the rounds do not suffice. -/
def dqRetainLoop (step : ω → VecDeque α → Go (VecDeque α)) (view : VecDeque α → List α)
    (f : α → σ → Use ω α (Bool × σ)) : Nat → Nat → Nat → VecDeque α → σ → Go (Option (VecDeque α × Nat × σ))
  | 0, _, _, _, _ => .ok none
  | fuel + 1, i, newLen, self, s =>
    if i < self.len then do
      let value ← self.getUnchecked i
      let ((keep, s), self) ← (f value s).run view step self
      if keep then
        let self ← self.setUnchecked newLen value
        dqRetainLoop step view f fuel (i + 1) (newLen + 1) self s
      else dqRetainLoop step view f fuel (i + 1) newLen self s
    else .ok (some (self, newLen, s))

/-- vec_deque.go:196-208 Retain. -/
def dqRetain (step : ω → VecDeque α → Go (VecDeque α)) (view : VecDeque α → List α) (f : α → σ → Use ω α (Bool × σ)) (fuel : Nat)
    (self : VecDeque α) (s : σ) : Go (Option (VecDeque α × σ)) := do
  match ← dqRetainLoop step view f fuel 0 0 self s with
  | none => .ok none
  | some (self, newLen, s) => .ok (some ({ self with len := newLen }, s))
end Reenter
end Gost
