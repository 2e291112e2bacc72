/-
What it means for a pair of methods `Cmp`, `Eq` to be a lawful order (the contract of the `Ord`
interface, /repo/cmp.go:12-16).
-/
namespace Gost.Spec

variable {α : Type u}

/-- A total preorder given by a three-way comparison, with an equality test that agrees with it. -/
structure LawfulOrd (cmp : α → α → Ordering) (eq : α → α → Bool) : Prop where
  /-- comparing the other way round gives the opposite answer -/
  swap : ∀ a b, cmp b a = (cmp a b).swap
  /-- `≤` is transitive -/
  trans : ∀ a b c, cmp a b ≠ .gt → cmp b c ≠ .gt → cmp a c ≠ .gt
  /-- `Eq` agrees with `Cmp` -/
  eq_iff : ∀ a b, eq a b = true ↔ cmp a b = .eq

/-- `cmp` orders by the values `v : α → Int`, and `eq` is equality. -/
structure OrdersByValue (v : α → Int) (cmp : α → α → Ordering) (eq : α → α → Bool) : Prop where
  lt_iff : ∀ a b, cmp a b = .lt ↔ v a < v b
  eq_iff : ∀ a b, cmp a b = .eq ↔ a = b
  gt_iff : ∀ a b, cmp a b = .gt ↔ v b < v a
  eqb_iff : ∀ a b, eq a b = true ↔ a = b

/-- Ordering by values is a lawful order. -/
theorem OrdersByValue.lawful {v : α → Int} {cmp : α → α → Ordering} {eq : α → α → Bool}
    (h : OrdersByValue v cmp eq) : LawfulOrd cmp eq where
  swap a b := by
    cases hc : cmp a b with
    | lt => exact (h.gt_iff b a).2 ((h.lt_iff a b).1 hc)
    | gt => exact (h.lt_iff b a).2 ((h.gt_iff a b).1 hc)
    | eq => exact (h.eq_iff b a).2 ((h.eq_iff a b).1 hc).symm
  trans a b c h1 h2 h3 := by
    rw [h.gt_iff] at h3
    rw [Ne, h.gt_iff] at h1 h2
    omega
  eq_iff a b := by rw [h.eqb_iff, h.eq_iff]

end Gost.Spec
