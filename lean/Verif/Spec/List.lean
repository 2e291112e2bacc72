import Verif.Go
/-
Specifications over plain lists, used for the containers.
-/
namespace Gost.Spec
variable {σ α β : Type}

/-- Run `f` once on every element, first to last, and collect the results; a panic stops. -/
def mapE (f : α → Eff σ β) : List α → Eff σ (List β)
  | [] => pure []
  | a :: l => do
    let b ← f a
    let bs ← mapE f l
    pure (b :: bs)

/-- Run `f` on the accumulator and every element, first to last. -/
def foldE (f : β → α → Eff σ β) : β → List α → Eff σ β
  | b, [] => pure b
  | b, a :: l => do
    let b ← f b a
    foldE f b l

/-- The elements whose mark is true, in order. -/
def select (l : List α) (marks : List Bool) : List α :=
  ((l.zip marks).filter (·.2)).map (·.1)

/-- The elements that differ from their predecessor: the first element of every run. -/
def runHeads (eq : α → α → Bool) : List α → List α
  | [] => []
  | a :: l => a :: go a l
where
  go (prev : α) : List α → List α
    | [] => []
    | b :: l => if eq prev b then go b l else b :: go b l

/-- `eq` is an equivalence relation. -/
structure Equiv (eq : α → α → Bool) : Prop where
  refl : ∀ a, eq a a = true
  symm : ∀ a b, eq a b = true → eq b a = true
  trans : ∀ a b c, eq a b = true → eq b c = true → eq a c = true

/-- `eq` is symmetric and transitive, as equality of floats is, where NaN is not equal to itself. -/
structure PEquiv (eq : α → α → Bool) : Prop where
  symm : ∀ a b, eq a b = true → eq b a = true
  trans : ∀ a b c, eq a b = true → eq b c = true → eq a c = true

theorem Equiv.toPEquiv {eq : α → α → Bool} (h : Equiv eq) : PEquiv eq := ⟨h.symm, h.trans⟩

/-- Insert at position `i ≤ length`. -/
def insertAt (l : List α) (i : Nat) (v : α) : List α := l.take i ++ v :: l.drop i

/-- Exchange two positions. -/
def swapAt (l : List α) (i j : Nat) : Option (List α) :=
  match l[i]?, l[j]? with
  | some x, some y => some ((l.set i y).set j x)
  | _, _ => none

@[simp] theorem mapE_pure (f : α → β) (l : List α) :
    mapE (fun a => (pure (f a) : Eff σ β)) l = pure (l.map f) := by
  induction l with
  | nil => rfl
  | cons a l ih => simp [mapE, ih]

@[simp] theorem foldE_pure (f : β → α → β) (b : β) (l : List α) :
    foldE (fun b a => (pure (f b a) : Eff σ β)) b l = pure (l.foldl f b) := by
  induction l generalizing b with
  | nil => rfl
  | cons a l ih => simp [foldE, ih]

@[simp] theorem select_nil (m : List Bool) : select ([] : List α) m = [] := rfl
@[simp] theorem select_cons (a : α) (l : List α) (b : Bool) (m : List Bool) :
    select (a :: l) (b :: m) = if b then a :: select l m else select l m := by
  cases b <;> simp [select]
theorem select_map (p : α → Bool) (l : List α) : select l (l.map p) = l.filter p := by
  induction l with
  | nil => rfl
  | cons a l ih => simp [List.filter_cons, ih]

/-- Two lists are equal element by element, with the given equality. -/
def listEq {α : Type} (e : α → α → Bool) : List α → List α → Bool
  | [], [] => true
  | a :: as, b :: bs => e a b && listEq e as bs
  | _, _ => false

theorem listEq_length {α : Type} (e : α → α → Bool) (l m : List α) (h : listEq e l m = true) :
    l.length = m.length := by
  induction l generalizing m with
  | nil => cases m <;> simp_all [listEq]
  | cons a l ih =>
    cases m with
    | nil => simp [listEq] at h
    | cons b m =>
      simp only [listEq, Bool.and_eq_true] at h
      simp [ih m h.2]

end Gost.Spec
