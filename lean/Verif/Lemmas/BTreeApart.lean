import Verif.Lemmas.BTreeAny
/-
After any history of calls that returned, the children of a node of a BTreeMap are different nodes.
-/
namespace Gost.BTree
open Unwind (load_inv)
variable {κ ν : Type} {cmp : κ → κ → Ordering} {P : κ → ν → Prop}

/-- The children in use are different nodes. -/
structure Apart (n : Int) (cs : List (Option Nat)) : Prop where
  nonneg : 0 ≤ n
  distinct : ∀ (i j c : Nat), (i : Int) ≤ n → (j : Int) ≤ n → cs[i]? = some (some c) → cs[j]? = some (some c) → i = j

/-- So for all internal nodes. -/
def Sep (h : BStore κ ν) : Prop := ∀ (a : Nat) node, h[a]? = some node → node.leaf = false → Apart node.n node.childs

theorem Sep.set {h : BStore κ ν} (hs : Sep h) {a : Nat} {node : BNode κ ν} (hn : node.leaf = false → Apart node.n node.childs) :
    Sep (h.set a node) := by
  intro b n hb hl
  by_cases hab : a = b
  · subst hab
    by_cases ha : a < h.length
    · rw [List.getElem?_set_self ha] at hb; cases hb; exact hn hl
    · rw [List.getElem?_eq_none (by simpa using ha)] at hb; cases hb
  · rw [List.getElem?_set_ne hab] at hb
    exact hs b n hb hl
theorem Sep.push {h : BStore κ ν} (hs : Sep h) {node : BNode κ ν} (hn : node.leaf = false → Apart node.n node.childs) :
    Sep (h ++ [node]) := by
  intro b n hb hl
  by_cases hlt : b < h.length
  · rw [List.getElem?_append_left hlt] at hb
    exact hs b n hb hl
  · rw [List.getElem?_append_right (by omega)] at hb
    have := List.mem_of_getElem? hb
    simp only [List.mem_singleton] at this
    subst this
    exact hn hl

theorem Apart.ne {n : Int} {cs : List (Option Nat)} (h : Apart n cs) {i j : Int} {c : Nat} (hi : i ≤ n) (hj : j ≤ n) (hij : i ≠ j)
    (hc : getAt cs i = .ok (some c)) : getAt cs j ≠ .ok (some c) := by
  intro hd
  obtain ⟨h1, h2⟩ := getAt_slot hc
  obtain ⟨h3, h4⟩ := getAt_slot hd
  have := h.distinct _ _ c (by omega) (by omega) h2 h4
  omega

/-! ### The moves -/

theorem shiftR_get {α : Type} {j : Int} {s s' : List α} (h : shiftR j s = .ok s') :
    0 ≤ j ∧ ∀ (i : Nat), s'[i]? = if (i : Int) = j + 1 then s[i - 1]? else s[i]? := by
  unfold shiftR at h
  obtain ⟨c, hc, h⟩ := bind_ok_inv h
  obtain ⟨h1, h2⟩ := getAt_slot hc
  obtain ⟨_, hl, rfl⟩ := setAt_inv h
  refine ⟨h1, fun i => ?_⟩
  by_cases hi : (i : Int) = j + 1
  · rw [if_pos hi]
    have e : (j + 1).toNat = i := by omega
    have e2 : j.toNat = i - 1 := by omega
    rw [e, List.getElem?_set_self (by omega), ← h2, e2]
  · rw [if_neg hi, List.getElem?_set_ne (by omega)]

theorem forDown_get {α : Type} (m : Nat) : ∀ {j : Int} {s s' : List α}, forDown shiftR m j s = .ok s' → ∀ (i : Nat),
    s'[i]? = if j - m + 1 < i ∧ (i : Int) ≤ j + 1 then s[i - 1]? else s[i]? := by
  induction m with
  | zero =>
    intro j s s' h i
    cases h
    rw [if_neg (by omega)]
  | succ m ih =>
    intro j s s' h i
    obtain ⟨s1, h1, h⟩ := bind_ok_inv h
    obtain ⟨h0, hg⟩ := shiftR_get h1
    rw [ih h i]
    by_cases hc : j - 1 - m + 1 < i ∧ (i : Int) ≤ j - 1 + 1
    · rw [if_pos hc, if_pos (by omega), hg, if_neg (by omega)]
    · rw [if_neg hc, hg]
      by_cases he : (i : Int) = j + 1
      · rw [if_pos he, if_pos (by omega)]
      · rw [if_neg he, if_neg (by omega)]

theorem shiftL_get {α : Type} {j : Int} {s s' : List α} (h : shiftL j s = .ok s') :
    ∀ (i : Nat), s'[i]? = if (i : Int) = j - 1 then s[i + 1]? else s[i]? := by
  unfold shiftL at h
  obtain ⟨c, hc, h⟩ := bind_ok_inv h
  obtain ⟨h1, h2⟩ := getAt_slot hc
  obtain ⟨h0, hl, rfl⟩ := setAt_inv h
  intro i
  by_cases hi : (i : Int) = j - 1
  · rw [if_pos hi]
    have e : (j - 1).toNat = i := by omega
    have e2 : j.toNat = i + 1 := by omega
    rw [e, List.getElem?_set_self (by omega), ← h2, e2]
  · rw [if_neg hi, List.getElem?_set_ne (by omega)]

theorem forUp_get {α : Type} (m : Nat) : ∀ {j : Int} {s s' : List α}, forUp shiftL m j s = .ok s' → ∀ (i : Nat),
    s'[i]? = if j - 1 ≤ i ∧ (i : Int) < j - 1 + m then s[i + 1]? else s[i]? := by
  induction m with
  | zero =>
    intro j s s' h i
    cases h
    rw [if_neg (by omega)]
  | succ m ih =>
    intro j s s' h i
    obtain ⟨s1, h1, h⟩ := bind_ok_inv h
    have hg := shiftL_get h1
    rw [ih h i]
    by_cases hc : j + 1 - 1 ≤ i ∧ (i : Int) < j + 1 - 1 + m
    · rw [if_pos hc, if_pos (by omega), hg, if_neg (by omega)]
    · rw [if_neg hc, hg]
      by_cases he : (i : Int) = j - 1
      · rw [if_pos he, if_pos (by omega)]
      · rw [if_neg he, if_neg (by omega)]

/-! ### Insertion -/

theorem leafy_self {h : BStore κ ν} {a : Nat} {n : BNode κ ν} (hl : Leafy h a) (ha : h[a]? = some n) : n.leaf = true := by
  obtain ⟨n', hn', hl'⟩ := hl
  rw [ha] at hn'; cases hn'; exact hl'

theorem splitChild_sep {h h' : BStore κ ν} {a y : Nat} {i : Int} {self : BNode κ ν} (ho : HeapOk P h) (hs : Sep h)
    (ha : h[a]? = some self) (hl : self.leaf = false) (hy : Leafy h y) (h0 : 0 ≤ i) (hi : i ≤ self.n)
    (he : splitChild h a i y = .ok h') : Sep h' := by
  unfold splitChild at he
  obtain ⟨self', hl1, he⟩ := bind_ok_inv he
  have hl1 := load_inv hl1
  rw [ha] at hl1; cases hl1
  obtain ⟨yn, hyn, he⟩ := bind_ok_inv he
  have hyn := load_inv hyn
  have hyl := leafy_self hy hyn
  obtain ⟨⟨zk, zv⟩, _, he⟩ := bind_ok_inv he
  obtain ⟨zc, _, he⟩ := bind_ok_inv he
  obtain ⟨s2, hs2, he⟩ := bind_ok_inv he
  have hs2 := load_inv hs2
  obtain ⟨cs, hcs, he⟩ := bind_ok_inv he
  obtain ⟨cs2, hcs2, he⟩ := bind_ok_inv he
  obtain ⟨⟨ks, vs⟩, _, he⟩ := bind_ok_inv he
  obtain ⟨k, _, he⟩ := bind_ok_inv he
  obtain ⟨ks2, _, he⟩ := bind_ok_inv he
  obtain ⟨v, _, he⟩ := bind_ok_inv he
  obtain ⟨vs2, _, he⟩ := bind_ok_inv he
  cases he
  have hya : y ≠ a := by
    rintro rfl
    rw [ha] at hyn; cases hyn
    rw [hl] at hyl; cases hyl
  rw [List.getElem?_set_ne hya, List.getElem?_append_left (List.getElem?_eq_some_iff.1 ha).1, ha] at hs2
  cases hs2
  refine ((hs.push ?_).set ?_).set fun _ => ?_
  · intro hf; exact absurd hf (by simp [blank, hyl])
  · intro hf; exact absurd hf (by simp [hyl])
  have hap := hs a self ha hl
  have hin : ∀ (j c : Nat), self.childs[j]? = some (some c) → c < h.length := by
    intro j c hc
    obtain ⟨n, hn, _⟩ := (ho a self ha).kids hl j c hc
    exact (List.getElem?_eq_some_iff.1 hn).1
  have hg : ∀ (j : Nat), cs2[j]? = if (j : Int) = i + 1 then some (some h.length) else
      if i + 1 < j ∧ (j : Int) ≤ self.n + 1 then self.childs[j - 1]? else self.childs[j]? := by
    intro j
    obtain ⟨_, hlen, rfl⟩ := setAt_inv hcs2
    by_cases hj : (j : Int) = i + 1
    · have e : (i + 1).toNat = j := by omega
      rw [if_pos hj, e, List.getElem?_set_self (by omega)]
    · rw [if_neg hj, List.getElem?_set_ne (by omega), forDown_get _ hcs j]
      have e : ((self.n - i).toNat : Int) = self.n - i := by omega
      rw [e]
      congr 1
      have : self.n - (self.n - i) = i := by omega
      rw [this]
  refine ⟨by have := hap.nonneg; simp only; omega, ?_⟩
  intro j j' c hj hj' hc hc'
  simp only at hj hj' hc hc'
  rw [hg] at hc hc'
  split at hc
  · split at hc'
    · omega
    · cases hc
      split at hc' <;> exact absurd (hin _ _ hc') (by omega)
  · split at hc'
    · cases hc'
      split at hc <;> exact absurd (hin _ _ hc) (by omega)
    · split at hc <;> split at hc'
      · have := hap.distinct _ _ c (by omega) (by omega) hc hc'; omega
      · have := hap.distinct _ _ c (by omega) (by omega) hc hc'; omega
      · have := hap.distinct _ _ c (by omega) (by omega) hc hc'; omega
      · exact hap.distinct _ _ c (by omega) (by omega) hc hc'

theorem insertLeaf_sep {h h' : BStore κ ν} {a : Nat} {key : κ} {value : ν} {self : BNode κ ν} (hs : Sep h)
    (ha : h[a]? = some self) (hl : self.leaf = true) (he : insertLeaf cmp h a key value = .ok h') : Sep h' := by
  unfold insertLeaf at he
  obtain ⟨self', hl1, he⟩ := bind_ok_inv he
  have hl1 := load_inv hl1
  rw [ha] at hl1; cases hl1
  obtain ⟨⟨ks, vs, i⟩, _, he⟩ := bind_ok_inv he
  simp only at he
  split at he
  · cases he
  obtain ⟨ks2, _, he⟩ := bind_ok_inv he
  obtain ⟨vs2, _, he⟩ := bind_ok_inv he
  cases he
  exact hs.set fun hf => absurd hf (by simp [hl])

theorem insertNonFull_sep {key : κ} {value : ν} (d : Nat) : ∀ {h h' : BStore κ ν} {a : Nat},
    HeapOk P h → Sep h → insertNonFull cmp key value d h a = .ok h' → Sep h' := by
  induction d with
  | zero => intro h h' a _ _ he; cases he
  | succ d ih =>
    intro h h' a ho hs he
    unfold insertNonFull at he
    obtain ⟨self, hl, he⟩ := bind_ok_inv he
    have hl := load_inv hl
    have hn := ho a self hl
    split at he
    · next hleaf => exact insertLeaf_sep hs hl hleaf he
    · next hleaf =>
      simp only [Bool.not_eq_true] at hleaf
      obtain ⟨i, hi, he⟩ := bind_ok_inv he
      split at he
      · cases he
      obtain ⟨c, hc, he⟩ := bind_ok_inv he
      obtain ⟨child, hch, he⟩ := bind_ok_inv he
      split at he
      · obtain ⟨y, hy, he⟩ := bind_ok_inv he
        obtain ⟨h1, h2, he⟩ := bind_ok_inv he
        obtain ⟨self2, _, he⟩ := bind_ok_inv he
        obtain ⟨k, _, he⟩ := bind_ok_inv he
        obtain ⟨c2, _, he⟩ := bind_ok_inv he
        obtain ⟨c3, _, he⟩ := bind_ok_inv he
        have hcy := addr_inv hy
        have hyl := hn.kids hleaf i y (by rw [← hcy]; exact index_inv hc)
        have k1 := splitChild_keeps ho hl (fun hf => .inr hyl) h2
        have := childLoop_le hi
        exact ih k1.1 (splitChild_sep ho hs hl hleaf hyl (by omega) (by omega) h2) he
      · obtain ⟨c3, _, he⟩ := bind_ok_inv he
        exact ih ho hs he

/-! ### Removal -/

theorem findKeyLoop_le {key : κ} {n : Int} (ks : List (Option κ)) : ∀ {i j : Int}, i ≤ n → findKeyLoop cmp key n ks i = .ok j →
    i ≤ j ∧ j ≤ n := by
  induction ks with
  | nil =>
    intro i j hi h
    unfold findKeyLoop at h
    split at h
    · cases h
    · cases h; omega
  | cons k ks ih =>
    intro i j hi h
    unfold findKeyLoop at h
    split at h
    · cases k with
      | none => cases h; omega
      | some k =>
        simp only at h
        split at h
        · have := ih (by omega) h; omega
        · cases h; omega
    · cases h; omega

theorem removeFromLeaf_sep {h h' : BStore κ ν} {a : Nat} {idx : Int} {self : BNode κ ν} (hs : Sep h)
    (ha : h[a]? = some self) (hl : self.leaf = true) (he : removeFromLeaf h a idx = .ok h') : Sep h' := by
  unfold removeFromLeaf at he
  obtain ⟨self', hl1, he⟩ := bind_ok_inv he
  have hl1 := load_inv hl1
  rw [ha] at hl1; cases hl1
  obtain ⟨⟨ks, vs⟩, _, he⟩ := bind_ok_inv he
  cases he
  exact hs.set fun hf => absurd hf (by simp [hl])

theorem borrowFromPrev_sep {h h' : BStore κ ν} {a : Nat} {idx : Int} {self : BNode κ ν} (ho : HeapOk P h) (hs : Sep h)
    (ha : h[a]? = some self) (hi : self.leaf = false) (he : borrowFromPrev h a idx = .ok h') : Sep h' := by
  unfold borrowFromPrev at he
  obtain ⟨self', hl, he⟩ := bind_ok_inv he
  have hl := load_inv hl
  rw [ha] at hl; cases hl
  have hn := ho a self ha
  obtain ⟨c, hc, he⟩ := bind_ok_inv he
  obtain ⟨s, hsg, he⟩ := bind_ok_inv he
  obtain ⟨child, hch, he⟩ := bind_ok_inv he
  obtain ⟨⟨ks1, vs1⟩, _, he⟩ := bind_ok_inv he
  obtain ⟨cs1, _, he⟩ := bind_ok_inv he
  obtain ⟨k, _, he⟩ := bind_ok_inv he
  obtain ⟨ks2, _, he⟩ := bind_ok_inv he
  obtain ⟨v, _, he⟩ := bind_ok_inv he
  obtain ⟨vs2, _, he⟩ := bind_ok_inv he
  obtain ⟨sibling, hsi, he⟩ := bind_ok_inv he
  obtain ⟨cs2, _, he⟩ := bind_ok_inv he
  obtain ⟨k3, _, he⟩ := bind_ok_inv he
  obtain ⟨sk, _, he⟩ := bind_ok_inv he
  obtain ⟨v3, _, he⟩ := bind_ok_inv he
  obtain ⟨sv, _, he⟩ := bind_ok_inv he
  obtain ⟨ca, hca, he⟩ := bind_ok_inv he
  obtain ⟨sa, hsa, he⟩ := bind_ok_inv he
  cases he
  cases addr_inv hca
  cases addr_inv hsa
  have hcl := leafy_self ((hn.kids hi).get hc ca rfl) (load_inv hch)
  have hsl := leafy_self ((hn.kids hi).get hsg sa rfl) (load_inv hsi)
  exact ((hs.set fun hf => absurd hf (by simp [hcl])).set fun hf => absurd hf (by simp [hsl])).set fun _ => hs a self ha hi

theorem borrowFromNext_sep {h h' : BStore κ ν} {a : Nat} {idx : Int} {self : BNode κ ν} (ho : HeapOk P h) (hs : Sep h)
    (ha : h[a]? = some self) (hi : self.leaf = false) (he : borrowFromNext h a idx = .ok h') : Sep h' := by
  unfold borrowFromNext at he
  obtain ⟨self', hl, he⟩ := bind_ok_inv he
  have hl := load_inv hl
  rw [ha] at hl; cases hl
  have hn := ho a self ha
  obtain ⟨c, hc, he⟩ := bind_ok_inv he
  obtain ⟨s, hsg, he⟩ := bind_ok_inv he
  obtain ⟨child, hch, he⟩ := bind_ok_inv he
  obtain ⟨k, _, he⟩ := bind_ok_inv he
  obtain ⟨ks2, _, he⟩ := bind_ok_inv he
  obtain ⟨v, _, he⟩ := bind_ok_inv he
  obtain ⟨vs2, _, he⟩ := bind_ok_inv he
  obtain ⟨sibling, hsi, he⟩ := bind_ok_inv he
  obtain ⟨cs2, _, he⟩ := bind_ok_inv he
  obtain ⟨k3, _, he⟩ := bind_ok_inv he
  obtain ⟨sk, _, he⟩ := bind_ok_inv he
  obtain ⟨v3, _, he⟩ := bind_ok_inv he
  obtain ⟨sv, _, he⟩ := bind_ok_inv he
  obtain ⟨⟨bk, bv⟩, _, he⟩ := bind_ok_inv he
  obtain ⟨bc, _, he⟩ := bind_ok_inv he
  obtain ⟨ca, hca, he⟩ := bind_ok_inv he
  obtain ⟨sa, hsa, he⟩ := bind_ok_inv he
  cases he
  cases addr_inv hca
  cases addr_inv hsa
  have hcl := leafy_self ((hn.kids hi).get hc ca rfl) (load_inv hch)
  have hsl := leafy_self ((hn.kids hi).get hsg sa rfl) (load_inv hsi)
  exact ((hs.set fun hf => absurd hf (by simp [hcl])).set fun hf => absurd hf (by simp [hsl])).set fun _ => hs a self ha hi

theorem merge_sep {h h' : BStore κ ν} {a : Nat} {idx : Int} {self : BNode κ ν} (ho : HeapOk P h) (hs : Sep h)
    (ha : h[a]? = some self) (hi : self.leaf = false) (hx : idx + 1 ≤ self.n) (he : merge h a idx = .ok h') : Sep h' := by
  unfold merge at he
  obtain ⟨self', hl, he⟩ := bind_ok_inv he
  have hl := load_inv hl
  rw [ha] at hl; cases hl
  have hn := ho a self ha
  obtain ⟨c, hc, he⟩ := bind_ok_inv he
  obtain ⟨s, hsg, he⟩ := bind_ok_inv he
  obtain ⟨child, hch, he⟩ := bind_ok_inv he
  obtain ⟨k, _, he⟩ := bind_ok_inv he
  obtain ⟨ks1, _, he⟩ := bind_ok_inv he
  obtain ⟨v, _, he⟩ := bind_ok_inv he
  obtain ⟨vs1, _, he⟩ := bind_ok_inv he
  obtain ⟨sibling, hsi, he⟩ := bind_ok_inv he
  obtain ⟨⟨ks2, vs2⟩, _, he⟩ := bind_ok_inv he
  obtain ⟨cs, _, he⟩ := bind_ok_inv he
  obtain ⟨⟨sk, sv⟩, _, he⟩ := bind_ok_inv he
  obtain ⟨sc, h7, he⟩ := bind_ok_inv he
  obtain ⟨ca, hca, he⟩ := bind_ok_inv he
  cases he
  cases addr_inv hca
  have hcl := leafy_self ((hn.kids hi).get hc ca rfl) (load_inv hch)
  have h0 := (getAt_slot hc).1
  have hap := hs a self ha hi
  refine (hs.set fun hf => absurd hf (by simp [hcl])).set fun _ => ⟨by simp only; omega, ?_⟩
  intro j j' c hj hj' hc hc'
  simp only at hj hj' hc hc'
  rw [forUp_get _ h7] at hc hc'
  split at hc <;> split at hc'
  · have := hap.distinct _ _ c (by omega) (by omega) hc hc'; omega
  · have := hap.distinct _ _ c (by omega) (by omega) hc hc'; omega
  · have := hap.distinct _ _ c (by omega) (by omega) hc hc'; omega
  · exact hap.distinct _ _ c (by omega) (by omega) hc hc'

theorem fill_sep {h h' : BStore κ ν} {a : Nat} {idx : Int} {self : BNode κ ν} (ho : HeapOk P h) (hs : Sep h)
    (ha : h[a]? = some self) (hi : self.leaf = false) (hx : idx ≤ self.n) (he : fill h a idx = .ok h') : Sep h' := by
  unfold fill at he
  obtain ⟨self', hl, he⟩ := bind_ok_inv he
  have hl := load_inv hl
  rw [ha] at hl; cases hl
  obtain ⟨prev, _, he⟩ := bind_ok_inv he
  split at he
  · exact borrowFromPrev_sep ho hs ha hi he
  obtain ⟨next, _, he⟩ := bind_ok_inv he
  split at he
  · exact borrowFromNext_sep ho hs ha hi he
  split at he
  · exact merge_sep ho hs ha hi (by omega) he
  · exact merge_sep ho hs ha hi (by omega) he

theorem removeFromNonLeaf_sep {remove : BStore κ ν → Nat → κ → Go (BStore κ ν)}
    (ih : ∀ {h h' : BStore κ ν} {a : Nat} {k : κ}, HeapOk P h → Sep h → remove h a k = .ok h' → Sep h')
    {h h' : BStore κ ν} {a : Nat} {idx : Int} {self : BNode κ ν} (ho : HeapOk P h) (hs : Sep h)
    (ha : h[a]? = some self) (hi : self.leaf = false) (hx : idx + 1 ≤ self.n) (he : removeFromNonLeaf remove h a idx = .ok h') :
    Sep h' := by
  unfold removeFromNonLeaf at he
  obtain ⟨self', hl, he⟩ := bind_ok_inv he
  have hl := load_inv hl
  rw [ha] at hl; cases hl
  have hn := ho a self ha
  obtain ⟨key, _, he⟩ := bind_ok_inv he
  obtain ⟨n1, _, he⟩ := bind_ok_inv he
  split at he
  · obtain ⟨p, _, he⟩ := bind_ok_inv he
    obtain ⟨pred, hp, he⟩ := bind_ok_inv he
    obtain ⟨k, hk, he⟩ := bind_ok_inv he
    obtain ⟨ks, h1, he⟩ := bind_ok_inv he
    obtain ⟨v, hv, he⟩ := bind_ok_inv he
    obtain ⟨vs, h2, he⟩ := bind_ok_inv he
    obtain ⟨c, _, he⟩ := bind_ok_inv he
    obtain ⟨ca, _, he⟩ := bind_ok_inv he
    obtain ⟨pk, _, he⟩ := bind_ok_inv he
    have hpo := ho p pred (load_inv hp)
    have k1 := ho.set (node' := { self with keys := ks, values := vs }) ha rfl
      ⟨hn.slots.setAt (hpo.slots.get hk hv) h1 h2, hn.clen, hn.kids⟩
    exact ih k1.1 (hs.set fun _ => hs a self ha hi) he
  obtain ⟨n2, _, he⟩ := bind_ok_inv he
  split at he
  · obtain ⟨p, _, he⟩ := bind_ok_inv he
    obtain ⟨pred, hp, he⟩ := bind_ok_inv he
    obtain ⟨k, hk, he⟩ := bind_ok_inv he
    obtain ⟨ks, h1, he⟩ := bind_ok_inv he
    obtain ⟨v, hv, he⟩ := bind_ok_inv he
    obtain ⟨vs, h2, he⟩ := bind_ok_inv he
    obtain ⟨c, _, he⟩ := bind_ok_inv he
    obtain ⟨ca, _, he⟩ := bind_ok_inv he
    obtain ⟨pk, _, he⟩ := bind_ok_inv he
    have hpo := ho p pred (load_inv hp)
    have k1 := ho.set (node' := { self with keys := ks, values := vs }) ha rfl
      ⟨hn.slots.setAt (hpo.slots.get hk hv) h1 h2, hn.clen, hn.kids⟩
    exact ih k1.1 (hs.set fun _ => hs a self ha hi) he
  · obtain ⟨h1, hm, he⟩ := bind_ok_inv he
    obtain ⟨s1, _, he⟩ := bind_ok_inv he
    obtain ⟨c, _, he⟩ := bind_ok_inv he
    obtain ⟨ca, _, he⟩ := bind_ok_inv he
    obtain ⟨pk, _, he⟩ := bind_ok_inv he
    exact ih (merge_keeps ho ha hi hm).1 (merge_sep ho hs ha hi hx hm) he

theorem removeNode_sep (d : Nat) : ∀ {h h' : BStore κ ν} {a : Nat} {key : κ},
    HeapOk P h → Sep h → removeNode cmp d h a key = .ok h' → Sep h' := by
  induction d with
  | zero => intro h h' a key _ _ he; cases he
  | succ d ih =>
    intro h h' a key ho hs he
    unfold removeNode at he
    obtain ⟨self, hl, he⟩ := bind_ok_inv he
    have hl := load_inv hl
    obtain ⟨i, hfk, he⟩ := bind_ok_inv he
    obtain ⟨present, hp, he⟩ := bind_ok_inv he
    split at he
    · next hpr =>
      split at he
      · next hi => exact removeFromLeaf_sep hs hl hi he
      · next hi =>
        have hlt : i < self.n := by
          by_cases hlt : i < self.n
          · exact hlt
          · rw [if_neg hlt] at hp
            cases hp
            cases hpr
        exact removeFromNonLeaf_sep ih ho hs hl (by simpa using hi) (by omega) he
    split at he
    · cases he; exact hs
    next hi =>
    simp only [Bool.not_eq_true] at hi
    have hle := (findKeyLoop_le _ (hs a self hl hi).nonneg hfk).2
    obtain ⟨n, _, he⟩ := bind_ok_inv he
    obtain ⟨h1, hf, he⟩ := bind_ok_inv he
    have k1 : HeapOk P h1 ∧ Sep h1 := by
      split at hf
      · exact ⟨(fill_keeps ho hl hi hf).1, fill_sep ho hs hl hi hle hf⟩
      · cases hf; exact ⟨ho, hs⟩
    obtain ⟨s1, _, he⟩ := bind_ok_inv he
    split at he
    · obtain ⟨c, _, he⟩ := bind_ok_inv he
      obtain ⟨ca, _, he⟩ := bind_ok_inv he
      exact ih k1.1 k1.2 he
    · obtain ⟨c, _, he⟩ := bind_ok_inv he
      obtain ⟨ca, _, he⟩ := bind_ok_inv he
      exact ih k1.1 k1.2 he

end Gost.BTree
