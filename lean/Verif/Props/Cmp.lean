import Verif.Model.Cmp
import Verif.Spec.Order
import Verif.Spec.Int128
import Verif.Lemmas.Ints
/-
Properties C23 and C24: the comparison methods of the primitive types.
-/
namespace Gost
open Gost.Ints Gost.Spec Gost.Cmp

variable {w : Nat}

theorem ordersByValue_of_lt {α : Type u} {v : α → Int} {cmp : α → α → Ordering}
    {eq : α → α → Bool} (inj : ∀ a b, v a = v b → a = b)
    (h : ∀ a b, cmp a b = if v a < v b then .lt else if v b < v a then .gt else .eq)
    (he : ∀ a b, eq a b = true ↔ a = b) : OrdersByValue v cmp eq where
  lt_iff a b := by
    rw [h]; split
    · simp [*]
    · split <;> simp [*]
  eq_iff a b := by
    rw [h]; split
    · simp only [reduceCtorEq, false_iff]; rintro rfl; omega
    · split
      · simp only [reduceCtorEq, false_iff]; rintro rfl; omega
      · simp only [true_iff]; exact inj a b (by omega)
  gt_iff a b := by
    rw [h]; split
    · simp only [reduceCtorEq, false_iff]; omega
    · split <;> simp [*]
  eqb_iff := he

theorem lex_if {h1 h2 l1 l2 : Int} (a1 : 0 ≤ l1) (a2 : l1 < 2 ^ 64) (b1 : 0 ≤ l2) (b2 : l2 < 2 ^ 64) :
    (if h1 < h2 then Ordering.lt else if h2 < h1 then .gt else
      if l1 < l2 then .lt else if l2 < l1 then .gt else .eq) =
    if h1 * 2 ^ 64 + l1 < h2 * 2 ^ 64 + l2 then .lt
    else if h2 * 2 ^ 64 + l2 < h1 * 2 ^ 64 + l1 then .gt else .eq := by
  by_cases c1 : h1 < h2
  · rw [if_pos c1, if_pos (by omega)]
  · by_cases c2 : h2 < h1
    · rw [if_neg c1, if_pos c2, if_neg (by omega), if_pos (by omega)]
    · rw [if_neg c1, if_neg c2]
      by_cases c3 : l1 < l2
      · rw [if_pos c3, if_pos (by omega)]
      · by_cases c4 : l2 < l1
        · rw [if_neg c3, if_pos c4, if_neg (by omega), if_pos (by omega)]
        · rw [if_neg c3, if_neg c4, if_neg (by omega), if_neg (by omega)]

/-- C23, signed integer types: `Cmp` orders by value, `Eq` is equality. -/
theorem C23_cmp_signed : OrdersByValue (fun a : BitVec w => a.toInt) sCmp intEq := by
  refine ordersByValue_of_lt (fun a b h => BitVec.eq_of_toInt_eq h) (fun a b => ?_) (fun a b => ?_)
  · simp only [sCmp, slt_iff]
  · simp [intEq]

/-- C23, unsigned integer types. -/
theorem C23_cmp_unsigned : OrdersByValue (fun a : BitVec w => (a.toNat : Int)) uCmp intEq := by
  refine ordersByValue_of_lt (fun a b h => BitVec.eq_of_toNat_eq (by omega)) (fun a b => ?_)
    (fun a b => ?_)
  · simp only [uCmp, ult_iff, Int.ofNat_lt]
  · simp [intEq]

example : sCmp (-1#8) 1#8 = .lt ∧ uCmp (-1#8) 1#8 = .gt ∧ sCmp 5#8 5#8 = .eq := by decide

/-- C23, I128. -/
theorem C23_cmp_i128 : OrdersByValue I128.val i128Cmp i128Eq := by
  refine ordersByValue_of_lt (fun a b h => ?_) (fun a b => ?_) (fun a b => ?_)
  · have ha := a.low.isLt
    have hb := b.low.isLt
    obtain ⟨ah, al⟩ := a
    obtain ⟨bh, bl⟩ := b
    simp only [I128.val] at *
    have h1 : ah.toInt = bh.toInt := by omega
    have h2 : al.toNat = bl.toNat := by omega
    rw [BitVec.eq_of_toInt_eq h1, BitVec.eq_of_toNat_eq h2]
  · have ha := a.low.isLt
    have hb := b.low.isLt
    have h := lex_if (h1 := a.high.toInt) (h2 := b.high.toInt) (l1 := a.low.toNat) (l2 := b.low.toNat)
      (by omega) (by omega) (by omega) (by omega)
    refine Eq.trans ?_ h
    simp only [i128Cmp, uCmp, slt_iff, ult_iff, Int.ofNat_lt]
  · obtain ⟨ah, al⟩ := a
    obtain ⟨bh, bl⟩ := b
    simp [i128Eq]

/-- C23, U128. -/
theorem C23_cmp_u128 : OrdersByValue (fun a : U128 => (a.val : Int)) u128Cmp u128Eq := by
  refine ordersByValue_of_lt (fun a b h => ?_) (fun a b => ?_) (fun a b => ?_)
  · have ha := a.low.isLt
    have hb := b.low.isLt
    obtain ⟨ah, al⟩ := a
    obtain ⟨bh, bl⟩ := b
    simp only [U128.val] at *
    have h1 : ah.toNat = bh.toNat := by omega
    have h2 : al.toNat = bl.toNat := by omega
    rw [BitVec.eq_of_toNat_eq h1, BitVec.eq_of_toNat_eq h2]
  · have ha := a.low.isLt
    have hb := b.low.isLt
    simp only [u128Cmp, uCmp, ult_iff, U128.val]
    have h := lex_if (h1 := a.high.toNat) (h2 := b.high.toNat) (l1 := a.low.toNat) (l2 := b.low.toNat)
      (by omega) (by omega) (by omega) (by omega)
    simp only [Int.ofNat_lt] at h
    rw [h]
    simp only [Int.natCast_add, Int.natCast_mul, Int.natCast_pow]
    rfl
  · obtain ⟨ah, al⟩ := a
    obtain ⟨bh, bl⟩ := b
    simp [u128Eq]

example : i128Cmp ⟨-1#64, 0#64⟩ ⟨0#64, 5#64⟩ = .lt ∧ u128Cmp ⟨-1#64, 0#64⟩ ⟨0#64, 5#64⟩ = .gt ∧
    i128Cmp ⟨3#64, -1#64⟩ ⟨3#64, 1#64⟩ = .gt := by decide

/-- C23, Byte and Char. -/
theorem C23_cmp_byte_char :
    OrdersByValue (fun a : BitVec 8 => (a.toNat : Int)) byteCmp intEq ∧
    OrdersByValue (fun a : BitVec 32 => a.toInt) charCmp intEq := by
  constructor
  · refine ordersByValue_of_lt (fun a b h => BitVec.eq_of_toNat_eq (by omega)) (fun a b => ?_)
      (fun a b => by simp [intEq])
    have e : a = b ↔ a.toNat = b.toNat := ⟨fun h => by rw [h], BitVec.eq_of_toNat_eq⟩
    simp only [byteCmp, ult_iff, beq_iff_eq, e]
    repeat' split
    all_goals first | rfl | (exfalso; omega)
  · refine ordersByValue_of_lt (fun a b h => BitVec.eq_of_toInt_eq h) (fun a b => ?_)
      (fun a b => by simp [intEq])
    have e : a = b ↔ a.toInt = b.toInt := ⟨fun h => by rw [h], BitVec.eq_of_toInt_eq⟩
    simp only [charCmp, slt_iff, beq_iff_eq, e]
    repeat' split
    all_goals first | rfl | (exfalso; omega)

/-- C23, Bool: `false < true`. -/
theorem C23_cmp_bool :
    OrdersByValue (fun b : Bool => if b then 1 else 0) boolCmp boolEq := by
  refine ⟨?_, ?_, ?_, ?_⟩ <;> decide

/-- The bytewise lexicographic order on strings, as a relation: `s` is a proper prefix of `t`, or they
agree up to a position where `s` has the smaller byte. -/
def StrBefore (s t : GoStr) : Prop :=
  (∃ b u, t = s ++ b :: u) ∨ ∃ p x y u v, s = p ++ x :: u ∧ t = p ++ y :: v ∧ x.toNat < y.toNat

theorem strLt_iff (s t : GoStr) : strLt s t = true ↔ StrBefore s t := by
  induction s generalizing t with
  | nil =>
    cases t with
    | nil =>
      simp only [strLt, Bool.false_eq_true, false_iff]
      rintro (⟨b, u, h⟩ | ⟨p, x, y, u, v, h, _⟩) <;> simp at h
    | cons b t => simp only [strLt, true_iff]; exact Or.inl ⟨b, t, rfl⟩
  | cons a s ih =>
    cases t with
    | nil =>
      simp only [strLt, Bool.false_eq_true, false_iff]
      rintro (⟨b, u, h⟩ | ⟨p, x, y, u, v, _, h, _⟩) <;> simp at h
    | cons b t =>
      simp only [strLt]
      by_cases h1 : a < b
      · simp only [h1, if_true, true_iff]
        exact Or.inr ⟨[], a, b, s, t, rfl, rfl, h1⟩
      · by_cases h2 : b < a
        · simp only [h1, h2, if_true, if_false, Bool.false_eq_true, false_iff]
          have h2' : b.toNat < a.toNat := h2
          rintro (⟨c, u, h⟩ | ⟨p, x, y, u, v, hs, ht, h⟩)
          · simp only [List.cons_append, List.cons.injEq] at h
            rw [h.1] at h2'; omega
          · cases p with
            | nil =>
              simp only [List.nil_append, List.cons.injEq] at hs ht
              rw [hs.1, ht.1] at h2'; omega
            | cons c p =>
              simp only [List.cons_append, List.cons.injEq] at hs ht
              rw [hs.1, ht.1] at h2'; omega
        · have hab : a = b := by
            have h1' : ¬ a.toNat < b.toNat := h1
            have h2' : ¬ b.toNat < a.toNat := h2
            exact UInt8.toNat_inj.1 (by omega)
          subst hab
          simp only [h1, if_false, ih]
          constructor
          · rintro (⟨c, u, h⟩ | ⟨p, x, y, u, v, hs, ht, h⟩)
            · exact Or.inl ⟨c, u, by rw [h]; rfl⟩
            · exact Or.inr ⟨a :: p, x, y, u, v, by rw [hs]; rfl, by rw [ht]; rfl, h⟩
          · rintro (⟨c, u, h⟩ | ⟨p, x, y, u, v, hs, ht, h⟩)
            · simp only [List.cons_append, List.cons.injEq] at h
              exact Or.inl ⟨c, u, h.2⟩
            · cases p with
              | nil =>
                simp only [List.nil_append, List.cons.injEq] at hs ht
                rw [← hs.1, ← ht.1] at h; omega
              | cons c p =>
                simp only [List.cons_append, List.cons.injEq] at hs ht
                exact Or.inr ⟨p, x, y, u, v, hs.2, ht.2, h⟩

theorem strLt_trichotomy (s t : GoStr) :
    (strLt s t = true ∧ strLt t s = false ∧ s ≠ t) ∨ (strLt s t = false ∧ strLt t s = true ∧ s ≠ t) ∨
      (strLt s t = false ∧ strLt t s = false ∧ s = t) := by
  induction s generalizing t with
  | nil => cases t <;> simp [strLt]
  | cons a s ih =>
    cases t with
    | nil => simp [strLt]
    | cons b t =>
      simp only [strLt]
      by_cases h1 : a < b
      · have h2 : ¬ b < a := fun h2 => absurd (show a.toNat < b.toNat from h1)
          (Nat.not_lt_of_lt (show b.toNat < a.toNat from h2))
        have h3 : a ≠ b := by rintro rfl; exact h2 h1
        simp [h1, h2, h3]
      · by_cases h2 : b < a
        · have h3 : a ≠ b := by rintro rfl; exact h1 h2
          simp [h1, h2, h3]
        · have hab : a = b := by
            have h1' : ¬ a.toNat < b.toNat := h1
            have h2' : ¬ b.toNat < a.toNat := h2
            exact UInt8.toNat_inj.1 (by omega)
          subst hab
          simpa [h1] using ih t

theorem strLt_trans (s t u : GoStr) (h1 : strLt s t = true) (h2 : strLt t u = true) :
    strLt s u = true := by
  induction s generalizing t u with
  | nil => cases t with
    | nil => simp [strLt] at h1
    | cons b t => cases u with
      | nil => simp [strLt] at h2
      | cons c u => rfl
  | cons a s ih =>
    cases t with
    | nil => simp [strLt] at h1
    | cons b t =>
      cases u with
      | nil => simp [strLt] at h2
      | cons c u =>
        have lt_iff : ∀ x y : UInt8, x < y ↔ x.toNat < y.toNat := fun _ _ => Iff.rfl
        simp only [strLt, lt_iff] at *
        split at h1
        · split at h2
          · rw [if_pos (by omega)]
          · split at h2
            · simp at h2
            · rw [if_pos (by omega)]
        · split at h1
          · simp at h1
          · split at h2
            · rw [if_pos (by omega)]
            · split at h2
              · simp at h2
              · rw [if_neg (by omega), if_neg (by omega)]
                exact ih t u h1 h2

/-- C23, String: `Cmp` is the bytewise lexicographic order and `Eq` is equality. -/
theorem C23_cmp_string :
    LawfulOrd strCmp strEq ∧
    (∀ s t, strCmp s t = .lt ↔ StrBefore s t) ∧ (∀ s t, strCmp s t = .gt ↔ StrBefore t s) ∧
    (∀ s t, strCmp s t = .eq ↔ s = t) := by
  have hlt : ∀ s t, strCmp s t = .lt ↔ strLt s t = true := by
    intro s t
    rcases strLt_trichotomy s t with ⟨h1, h2, h3⟩ | ⟨h1, h2, h3⟩ | ⟨h1, h2, h3⟩ <;>
      simp [strCmp, h1, h2]
  have hgt : ∀ s t, strCmp s t = .gt ↔ strLt t s = true := by
    intro s t
    rcases strLt_trichotomy s t with ⟨h1, h2, h3⟩ | ⟨h1, h2, h3⟩ | ⟨h1, h2, h3⟩ <;>
      simp [strCmp, h1, h2]
  have heq : ∀ s t, strCmp s t = .eq ↔ s = t := by
    intro s t
    rcases strLt_trichotomy s t with ⟨h1, h2, h3⟩ | ⟨h1, h2, h3⟩ | ⟨h1, h2, h3⟩
    · simp [strCmp, h1, h3]
    · simp [strCmp, h1, h2, h3]
    · subst h3; simp [strCmp, h1]
  refine ⟨⟨?_, ?_, ?_⟩, ?_, ?_, heq⟩
  · intro s t
    cases hc : strCmp s t with
    | lt => exact (hgt t s).2 ((hlt s t).1 hc)
    | gt => exact (hlt t s).2 ((hgt s t).1 hc)
    | eq => exact (heq t s).2 ((heq s t).1 hc).symm
  · intro s t u h1 h2 h3
    rw [hgt] at h3
    rw [Ne, hgt] at h1 h2
    rcases strLt_trichotomy s t with ⟨a1, a2, a3⟩ | ⟨a1, a2, a3⟩ | ⟨a1, a2, a3⟩
    · exact h2 (strLt_trans u s t h3 a1)
    · exact h1 a2
    · subst a3; exact h2 h3
  · intro s t
    rw [heq]; simp [strEq]
  · intro s t; rw [hlt, strLt_iff]
  · intro s t; rw [hgt, strLt_iff]

example : strCmp [104, 105] [104, 105, 33] = .lt ∧ strCmp [200] [104, 105, 33] = .gt := by decide

/-- C23: all these comparisons are total orders consistent with `Eq`. -/
theorem C23_cmp_lawful :
    LawfulOrd (sCmp (w := w)) intEq ∧ LawfulOrd (uCmp (w := w)) intEq ∧
    LawfulOrd i128Cmp i128Eq ∧ LawfulOrd u128Cmp u128Eq ∧ LawfulOrd byteCmp intEq ∧
    LawfulOrd charCmp intEq ∧ LawfulOrd boolCmp boolEq ∧ LawfulOrd strCmp strEq :=
  ⟨C23_cmp_signed.lawful, C23_cmp_unsigned.lawful, C23_cmp_i128.lawful, C23_cmp_u128.lawful,
    C23_cmp_byte_char.1.lawful, C23_cmp_byte_char.2.lawful, C23_cmp_bool.lawful, C23_cmp_string.1⟩

/-! ### C24 floats -/

section floats
variable {e m : Nat}

/-- C24, full property `LawfulOrd fCmp fEq` on all floats.  Proved: on the floats other than NaN
(infinities and both zeros included) `Cmp` orders by value and agrees with `Eq`, and any triple of
such floats satisfies the order laws.  Missing: NaN, see `C24_float_cmp_fails`. -/
theorem C24_float_cmp_partial :
    (∀ a b : GoFloat e m, a.isNaN = false → b.isNaN = false →
      (fCmp a b = .lt ↔ a.val < b.val) ∧ (fCmp a b = .gt ↔ b.val < a.val) ∧
      (fCmp a b = .eq ↔ a.val = b.val) ∧ (fEq a b = true ↔ fCmp a b = .eq)) ∧
    LawfulOrd (fun a b : {x : GoFloat e m // x.isNaN = false} => fCmp a.1 b.1)
      (fun a b => fEq a.1 b.1) := by
  have h : ∀ a b : GoFloat e m, a.isNaN = false → b.isNaN = false →
      fCmp a b = if a.val < b.val then .lt else if b.val < a.val then .gt else .eq := by
    intro a b ha hb
    simp [fCmp, GoFloat.lt, ha, hb]
  have he : ∀ a b : GoFloat e m, a.isNaN = false → b.isNaN = false →
      (fEq a b = true ↔ a.val = b.val) := by
    intro a b ha hb
    simp [fEq, GoFloat.eq, ha, hb]
  have key : ∀ a b : GoFloat e m, a.isNaN = false → b.isNaN = false →
      (fCmp a b = .lt ↔ a.val < b.val) ∧ (fCmp a b = .gt ↔ b.val < a.val) ∧
      (fCmp a b = .eq ↔ a.val = b.val) := by
    intro a b ha hb
    rw [h a b ha hb]
    refine ⟨?_, ?_, ?_⟩
    all_goals
      repeat' split
      all_goals (simp only [reduceCtorEq, false_iff, true_iff]; omega)
  refine ⟨fun a b ha hb => ⟨(key a b ha hb).1, (key a b ha hb).2.1, (key a b ha hb).2.2, ?_⟩, ?_⟩
  · rw [he a b ha hb, (key a b ha hb).2.2]
  · constructor
    · intro a b
      have k1 := key a.1 b.1 a.2 b.2
      have k2 := key b.1 a.1 b.2 a.2
      cases hc : fCmp a.1 b.1 with
      | lt => exact k2.2.1.2 (k1.1.1 hc)
      | gt => exact k2.1.2 (k1.2.1.1 hc)
      | eq => exact k2.2.2.2 (k1.2.2.1 hc).symm
    · intro a b c h1 h2 h3
      have k1 := key a.1 b.1 a.2 b.2
      have k2 := key b.1 c.1 b.2 c.2
      have k3 := key a.1 c.1 a.2 c.2
      rw [k3.2.1] at h3
      rw [Ne, k1.2.1] at h1
      rw [Ne, k2.2.1] at h2
      omega
    · intro a b
      show fEq a.1 b.1 = true ↔ fCmp a.1 b.1 = .eq
      rw [he a.1 b.1 a.2 b.2, (key a.1 b.1 a.2 b.2).2.2]

/-- C24 is violated: every NaN compares `Equal` to every float (also to itself) while `Eq` says
"different"; with a NaN in the middle `Cmp` is not transitive as soon as there are two different
values. -/
theorem C24_float_cmp_fails :
    (∀ a b : GoFloat e m, a.isNaN = true → fCmp a b = .eq ∧ fCmp b a = .eq ∧ fEq a b = false) ∧
    (∀ a b n : GoFloat e m, n.isNaN = true → fCmp a b = .gt →
      fCmp a n ≠ .gt ∧ fCmp n b ≠ .gt ∧ ¬ fCmp a b ≠ .gt) ∧
    ¬ LawfulOrd (fCmp (e := 11) (m := 52)) fEq ∧ ¬ LawfulOrd (fCmp (e := 8) (m := 23)) fEq := by
  have key : ∀ {e m : Nat} (a b : GoFloat e m), a.isNaN = true →
      fCmp a b = .eq ∧ fCmp b a = .eq ∧ fEq a b = false := by
    intro e m a b ha
    simp [fCmp, fEq, GoFloat.lt, GoFloat.eq, ha]
  refine ⟨key, ?_, ?_, ?_⟩
  · intro a b n hn hab
    simp [key n a hn, key n b hn, hab]
  · intro h
    have := (h.eq_iff ⟨false, BitVec.allOnes 11, 1#52⟩ ⟨false, BitVec.allOnes 11, 1#52⟩).2
      (key _ _ (by decide)).1
    rw [(key _ _ (by decide)).2.2] at this
    cases this
  · intro h
    have := (h.eq_iff ⟨false, BitVec.allOnes 8, 1#23⟩ ⟨false, BitVec.allOnes 8, 1#23⟩).2
      (key _ _ (by decide)).1
    rw [(key _ _ (by decide)).2.2] at this
    cases this

/-- Two small positive floats, and -0.0 = 0.0, in F64, as instances of the partial theorem. -/
example : fCmp (⟨false, 3#11, 5#52⟩ : GoFloat 11 52) ⟨false, 4#11, 1#52⟩ = .lt ∧
    fCmp (⟨true, 0#11, 0#52⟩ : GoFloat 11 52) ⟨false, 0#11, 0#52⟩ = .eq := by
  have h := (C24_float_cmp_partial (e := 11) (m := 52)).1
  constructor
  · exact (h _ _ (by decide) (by decide)).1.2 (by decide)
  · exact (h _ _ (by decide) (by decide)).2.2.1.2 (by decide)

end floats
end Gost
