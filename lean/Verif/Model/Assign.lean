import Verif.Model.Ints
import Verif.Model.Int128
/-
Model of the assignment operators of /repo/ops.go: `x.AddAssign(y)` and so on.

The receiver is a pointer to a variable: `vars` are the variables of one type, a pointer is nil or the index of
a variable.  The argument is a value.  What the operator does to the value is the plain operator (`op`), which
for the 128-bit types is the method Add, Sub, ... and for all other types Go's operator.
-/
namespace Gost

/-- The operators of a type; division and remainder can panic. -/
structure Operators (α : Type) where
  add : α → α → Go α
  sub : α → α → Go α
  mul : α → α → Go α
  div : α → α → Go α
  rem : α → α → Go α

/-- Signed types of width w: ops.go:64-82 Add, 173-191 Sub, 258-276 Mul, 375-393 Div, 524-542 Rem. -/
def Operators.signed (w : Nat) : Operators (BitVec w) :=
  ⟨fun a b => .ok (Ints.add a b), fun a b => .ok (Ints.sub a b), fun a b => .ok (Ints.mul a b), Ints.sDivM, Ints.sRemM⟩
/-- Unsigned types of width w: ops.go:108-126 Add, 199-217 Sub, 312-330 Mul, 445-463 Div, 599-617 Rem; Byte
(uint8) has the same operators but no Rem: 152-154, 241-243, 358-360, 507-509; Char (int32) has those of a signed
type, no Rem: 156-158, 245-247, 362-364, 511-513. -/
def Operators.unsigned (w : Nat) : Operators (BitVec w) :=
  ⟨fun a b => .ok (Ints.add a b), fun a b => .ok (Ints.sub a b), fun a b => .ok (Ints.mul a b), Ints.uDivM, Ints.uRemM⟩
/-- I128: ops.go:84-106 Add, 193-197 Sub, 278-310 Mul, 395-442 Div, 544-597 Rem. -/
def Operators.i128 : Operators I128 :=
  ⟨fun a b => .ok (a.add b), fun a b => .ok (a.sub b), fun a b => .ok (a.mul b), I128.div, I128.rem⟩
/-- U128: ops.go:128-142 Add, 219-231 Sub, 332-348 Mul, 465-496 Div, 619-651 Rem. -/
def Operators.u128 : Operators U128 :=
  ⟨fun a b => .ok (a.add b), fun a b => .ok (a.sub b), fun a b => .ok (a.mul b), U128.div, U128.rem⟩

/-- `*self op= rhs` and `*self = self.Op(rhs)`: load through the pointer, compute, store. -/
def opAssign {α : Type} (op : α → α → Go α) (vars : List α) (self : Option Nat) (rhs : α) : Go (List α) := do
  let p ← deref self
  let v ← index vars p
  let v ← op v rhs
  setIndex vars p v

variable {α : Type} (o : Operators α)
/-- ops.go:655-729 AddAssign, for all types; for floating-point and complex types (144-150, 164-170 Add) and
strings (160-162 Add: concatenation) `o.add` is Go's operator `+`. -/
def addAssign (vars : List α) (self : Option Nat) (rhs : α) : Go (List α) := opAssign o.add vars self rhs
/-- ops.go:732-802 SubAssign (floating-point and complex Sub: 233-239, 249-255). -/
def subAssign (vars : List α) (self : Option Nat) (rhs : α) : Go (List α) := opAssign o.sub vars self rhs
/-- ops.go:805-875 MulAssign (floating-point and complex Mul: 350-356, 366-372). -/
def mulAssign (vars : List α) (self : Option Nat) (rhs : α) : Go (List α) := opAssign o.mul vars self rhs
/-- ops.go:878-948 DivAssign (floating-point and complex Div: 499-505, 515-521). -/
def divAssign (vars : List α) (self : Option Nat) (rhs : α) : Go (List α) := opAssign o.div vars self rhs
/-- ops.go:951-997 RemAssign. -/
def remAssign (vars : List α) (self : Option Nat) (rhs : α) : Go (List α) := opAssign o.rem vars self rhs

/-- ops.go:2734-2740 I128.Abs. -/
def I128.abs (self : I128) : I128 := if Ints.slt self.high 0#64 then self.neg else self
end Gost
