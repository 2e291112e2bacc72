import Verif.Lemmas.BTreeRemove
/-
Insertions that do not fit.
-/
namespace Gost.BTree
open Spec
variable {κ ν : Type} {cmp : κ → κ → Ordering}

theorem bind_ok_inv {α β : Type} {x : Go α} {f : α → Go β} {b : β} (h : (x >>= f) = .ok b) :
    ∃ a, x = .ok a ∧ f a = .ok b := by
  cases x with
  | error e => cases h
  | ok a => exact ⟨a, rfl, h⟩

theorem setAt_inv {α : Type} {l l' : List α} {i : Int} {v : α} (h : setAt l i v = .ok l') :
    0 ≤ i ∧ i < l.length ∧ l' = l.set i.toNat v := by
  unfold setAt at h
  split at h
  · cases h
  · by_cases hl : i.toNat < l.length
    · rw [setIndex_lt hl] at h
      cases h
      exact ⟨by omega, by omega, rfl⟩
    · rw [setIndex, if_neg hl] at h; cases h

theorem getAt_inv {α : Type} {l : List α} {i : Int} {v : α} (h : getAt l i = .ok v) : v ∈ l := by
  unfold getAt at h
  split at h
  · cases h
  · unfold index at h
    split at h
    · next he => cases h; exact List.mem_of_getElem? he
    · cases h

theorem forDown_shiftR_inv {α : Type} {c : Nat} {j : Int} {s s' : List α} (h : forDown shiftR c j s = .ok s') :
    s'.length = s.length ∧ ∀ x ∈ s', x ∈ s := by
  induction c generalizing j s with
  | zero => simp only [forDown, Except.ok.injEq] at h; subst h; exact ⟨rfl, fun _ h => h⟩
  | succ c ih =>
    obtain ⟨t, h1, h2⟩ := bind_ok_inv h
    obtain ⟨v, h3, h4⟩ := bind_ok_inv h1
    obtain ⟨_, _, rfl⟩ := setAt_inv h4
    obtain ⟨h5, h6⟩ := ih h2
    refine ⟨by rw [h5]; simp, fun x hx => ?_⟩
    rcases List.mem_or_eq_of_mem_set (h6 x hx) with h | h
    · exact h
    · rw [h]; exact getAt_inv h3

theorem forDown_shiftR2_inv {α β : Type} {c : Nat} {j : Int} {s s' : List α × List β}
    (h : forDown shiftR2 c j s = .ok s') :
    s'.1.length = s.1.length ∧ (∀ x ∈ s'.1, x ∈ s.1) ∧ (c ≠ 0 → j + 1 < s.1.length) := by
  induction c generalizing j s with
  | zero => simp only [forDown, Except.ok.injEq] at h; subst h; exact ⟨rfl, fun _ h => h, fun h => absurd rfl h⟩
  | succ c ih =>
    obtain ⟨t, h1, h2⟩ := bind_ok_inv h
    obtain ⟨k, hk, h1⟩ := bind_ok_inv h1
    obtain ⟨ks, hks, h1⟩ := bind_ok_inv h1
    obtain ⟨v, hv, h1⟩ := bind_ok_inv h1
    obtain ⟨vs, hvs, h1⟩ := bind_ok_inv h1
    cases h1
    obtain ⟨_, hlt, rfl⟩ := setAt_inv hks
    obtain ⟨h5, h6, _⟩ := ih h2
    refine ⟨by rw [h5]; simp, fun x hx => ?_, fun _ => hlt⟩
    rcases List.mem_or_eq_of_mem_set (h6 x hx) with h | h
    · exact h
    · rw [h]; exact getAt_inv hk

/-- What is known about the nodes after a split that did not panic. -/
theorem splitChild_inv {h h1 : BStore κ ν} {a y i m : Nat} {self yn : BNode κ ν} (ha : h[a]? = some self)
    (hy : h[y]? = some yn) (hay : a ≠ y) (hdeg : self.minDeg = 11) (hkl : self.keys.length = 11)
    (hn : self.n = m) (hi : i ≤ m) (hleaf : yn.leaf = true) (hyd : yn.minDeg = 0)
    (hs : splitChild h a i y = .ok h1) :
    m ≤ 9 ∧ h1.length = h.length + 1 ∧ (∃ self', h1[a]? = some self' ∧ self'.leaf = self.leaf ∧
      self'.minDeg = 11 ∧ self'.keys.length = 11 ∧ self'.n = (m + 1 : Nat) ∧
      (∀ k, some k ∈ self'.keys → some k ∈ self.keys ∨ some k ∈ yn.keys) ∧
      (∀ c, some c ∈ self'.childs → some c ∈ self.childs ∨ c = h.length)) ∧
      h1[y]? = some { yn with n := 10 } ∧ h1[h.length]? = some (blank true 0 10) ∧
      ∀ r, r < h.length → r ≠ a → r ≠ y → h1[r]? = h[r]? := by
  have hla := (List.getElem?_eq_some_iff.1 ha).1
  have hly := (List.getElem?_eq_some_iff.1 hy).1
  obtain ⟨sl, sd, sk, sv, sn, sc⟩ := self
  obtain ⟨yl, yd, yk, yv, yn, yc⟩ := yn
  simp only at hdeg hleaf hyd hkl hn
  subst hdeg hleaf hyd
  have hload : load ((h ++ [blank true 0 10]).set y ⟨true, 0, yk, yv, 10, yc⟩) (some a) =
      .ok ⟨sl, 11, sk, sv, sn, sc⟩ := by
    simp only [load, List.getElem?_set, if_neg (Ne.symm hay)]
    rw [List.getElem?_append_left hla, ha]; rfl
  have l1 := load_of ha
  have l2 := load_of hy
  have z1 : (blank true 0 (11 - 1) : BNode κ ν).minDeg.toNat = 0 := rfl
  have e3 : ({ (blank true 0 (11 - 1) : BNode κ ν) with
    keys := (blank true 0 (11 - 1) : BNode κ ν).keys, values := (blank true 0 (11 - 1) : BNode κ ν).values,
    childs := (blank true 0 (11 - 1) : BNode κ ν).childs }) = blank true 0 10 := rfl
  have e4 : (11 - 1 : Int) = 10 := rfl
  unfold splitChild at hs
  simp only [l1, l2, Go.bind_ok, z1, forUp, Bool.not_true, Bool.false_eq_true, if_false, e3] at hs
  simp only [e4] at hs
  rw [hload, Go.bind_ok] at hs
  obtain ⟨cs1, hcs1, hs⟩ := bind_ok_inv hs
  obtain ⟨cs2, hcs2, hs⟩ := bind_ok_inv hs
  obtain ⟨⟨ks1, vs1⟩, hks1, hs⟩ := bind_ok_inv hs
  obtain ⟨k, hk, hs⟩ := bind_ok_inv hs
  obtain ⟨ks2, hks2, hs⟩ := bind_ok_inv hs
  obtain ⟨v, hv, hs⟩ := bind_ok_inv hs
  obtain ⟨vs2, hvs2, hs⟩ := bind_ok_inv hs
  simp only [Except.ok.injEq] at hs
  obtain ⟨_, hc1⟩ := forDown_shiftR_inv hcs1
  obtain ⟨_, _, rfl⟩ := setAt_inv hcs2
  obtain ⟨hl1, hm1, hlt⟩ := forDown_shiftR2_inv hks1
  obtain ⟨_, _, rfl⟩ := setAt_inv hks2
  simp only at hl1 hm1 hlt
  have hm9 := hlt (by rw [hn]; omega)
  rw [hkl, hn] at hm9
  subst hs
  refine ⟨by omega, by simp, ⟨_, List.getElem?_set_self (by simp; omega), rfl, rfl, by simp [hl1, hkl],
    by simp [hn], ?_, ?_⟩, ?_, ?_, ?_⟩
  · intro k' hk'
    rcases List.mem_or_eq_of_mem_set hk' with h | h
    · exact .inl (hm1 _ h)
    · right; rw [h]; exact getAt_inv hk
  · intro c hc
    rcases List.mem_or_eq_of_mem_set hc with h | h
    · exact .inl (hc1 _ h)
    · right; simpa using h
  · rw [List.getElem?_set_ne hay, List.getElem?_set_self (by simp; omega)]
  · rw [List.getElem?_set_ne (by omega), List.getElem?_set_ne (by omega)]
    simp
  · intro r hr hra hry
    rw [List.getElem?_set_ne (Ne.symm hra), List.getElem?_set_ne (Ne.symm hry), List.getElem?_append_left hr]

theorem index_inv {α : Type} {l : List α} {i : Nat} {v : α} (h : index l i = .ok v) : l[i]? = some v := by
  unfold index at h
  split at h
  · next he => cases h; exact he
  · cases h

theorem setIndex_inv {α : Type} {l l' : List α} {i : Nat} {v : α} (h : setIndex l i v = .ok l') :
    l' = l.set i v := by
  by_cases hl : i < l.length
  · rw [setIndex_lt hl] at h; cases h; rfl
  · rw [setIndex, if_neg hl] at h; cases h

theorem leafLoop_inv {key : κ} {n : Nat} {ks ks' : List (Option κ)} {vs vs' : List (Option ν)} {i : Nat}
    (h : leafLoop cmp key n ks vs = .ok (ks', vs', i)) :
    ks'.length = ks.length ∧ ∀ x ∈ ks', x ∈ ks := by
  induction n generalizing ks vs with
  | zero => simp only [leafLoop, Except.ok.injEq, Prod.mk.injEq] at h; obtain ⟨rfl, _⟩ := h; exact ⟨rfl, fun _ h => h⟩
  | succ n ih =>
    rw [leafLoop] at h
    obtain ⟨k, hk, h⟩ := bind_ok_inv h
    cases k with
    | none => simp only [Except.ok.injEq, Prod.mk.injEq] at h; obtain ⟨rfl, _⟩ := h; exact ⟨rfl, fun _ h => h⟩
    | some k =>
      simp only at h
      split at h
      · obtain ⟨ks1, h1, h⟩ := bind_ok_inv h
        obtain ⟨v, _, h⟩ := bind_ok_inv h
        obtain ⟨vs1, _, h⟩ := bind_ok_inv h
        have h1 := setIndex_inv h1
        subst h1
        obtain ⟨h2, h3⟩ := ih h
        refine ⟨by rw [h2]; simp, fun x hx => ?_⟩
        rcases List.mem_or_eq_of_mem_set (h3 x hx) with h | h
        · exact h
        · rw [h]; exact List.mem_of_getElem? (index_inv hk)
      · simp only [Except.ok.injEq, Prod.mk.injEq] at h; obtain ⟨rfl, _⟩ := h; exact ⟨rfl, fun _ h => h⟩

/-- A leaf with eleven slots and only keys of `P`. -/
def LeafOf (P : κ → Prop) (node : BNode κ ν) : Prop :=
  node.leaf = true ∧ node.minDeg = 0 ∧ node.keys.length = 11 ∧ ∀ k, some k ∈ node.keys → P k

theorem LeafOf.imp {P Q : κ → Prop} (hPQ : ∀ k, P k → Q k) {node : BNode κ ν} (h : LeafOf P node) : LeafOf Q node :=
  ⟨h.1, h.2.1, h.2.2.1, fun k hk => hPQ k (h.2.2.2 k hk)⟩

theorem insertNonFull_leaf_inv {P : κ → Prop} {h h' : BStore κ ν} {a d : Nat} {node : BNode κ ν} {key : κ}
    {value : ν} (hn : h[a]? = some node) (hl : LeafOf P node)
    (hs : insertNonFull cmp key value d h a = .ok h') :
    ∃ node', h' = h.set a node' ∧ LeafOf (fun k => P k ∨ k = key) node' := by
  cases d with
  | zero => simp [insertNonFull] at hs
  | succ d =>
    rw [insertNonFull_leaf hn hl.1, insertLeaf, load_of hn, Go.bind_ok] at hs
    obtain ⟨⟨ks, vs, i⟩, h1, hs⟩ := bind_ok_inv hs
    simp only at hs
    split at hs
    · cases hs
    · obtain ⟨ks1, h2, hs⟩ := bind_ok_inv hs
      obtain ⟨vs1, _, hs⟩ := bind_ok_inv hs
      cases hs
      have h2 := setIndex_inv h2
      subst h2
      obtain ⟨h3, h4⟩ := leafLoop_inv h1
      refine ⟨_, rfl, hl.1, hl.2.1, by simp [h3, hl.2.2.1], fun k hk => ?_⟩
      rcases List.mem_or_eq_of_mem_set hk with h | h
      · exact .inl (hl.2.2.2 k (h4 _ h))
      · right; simpa using h

/-- The shape of every map with more than eleven keys: a root with `m` keys over leaves. -/
def Wide (h : BStore κ ν) (a m : Nat) (P : κ → Prop) : Prop :=
  ∃ root, h[a]? = some root ∧ root.leaf = false ∧ root.minDeg = 11 ∧ root.keys.length = 11 ∧ root.n = m ∧
    m ≤ 10 ∧ (∀ k, some k ∈ root.keys → P k) ∧
    ∀ c, some c ∈ root.childs → ∃ node, h[c]? = some node ∧ LeafOf P node

theorem search_leaf_inv {P : κ → Prop} {h : BStore κ ν} {a d : Nat} {node : BNode κ ν} {key : κ}
    (hn : h[a]? = some node) (hl : LeafOf P node) (hf : ∀ k, P k → cmp key k ≠ .eq) {r : Option (Nat × Nat)}
    (hs : search cmp h key d a = .ok r) : r = none := by
  cases d with
  | zero => simp [search] at hs
  | succ d =>
    simp only [search, load_of hn, Go.bind_ok, hl.1, if_true] at hs
    split at hs
    · next k hk =>
      rw [if_neg (hf k (hl.2.2.2 k (List.mem_of_getElem? hk)))] at hs
      cases hs; rfl
    · cases hs; rfl

theorem Wide.search_inv {P : κ → Prop} {h : BStore κ ν} {a d m : Nat} {key : κ} (hw : Wide h a m P)
    (hf : ∀ k, P k → cmp key k ≠ .eq) {r : Option (Nat × Nat)} (hs : search cmp h key d a = .ok r) :
    r = none := by
  obtain ⟨root, hr, h1, h2, h3, h4, h5, h6, h7⟩ := hw
  cases d with
  | zero => simp [search] at hs
  | succ d =>
    simp only [search, load_of hr, Go.bind_ok, h1, Bool.false_eq_true, if_false] at hs
    have hchild : ∀ {i : Int}, (do
        let child ← getAt root.childs i
        match child with
        | some c => search cmp h key d c
        | none => .ok none) = .ok r → r = none := by
      intro i hs
      obtain ⟨c, hc, hs⟩ := bind_ok_inv hs
      cases c with
      | none => cases hs; rfl
      | some c =>
        obtain ⟨node, hn, hl⟩ := h7 c (getAt_inv hc)
        exact search_leaf_inv hn hl hf hs
    split at hs
    · next k hk =>
      rw [if_neg (hf k (h6 k (List.mem_of_getElem? hk)))] at hs
      exact hchild hs
    · exact hchild hs

theorem childLoop_le {key : κ} {ks : List (Option κ)} {n i : Nat} (h : childLoop cmp key ks n = .ok i) : i ≤ n := by
  induction n with
  | zero => simp only [childLoop, Except.ok.injEq] at h; omega
  | succ n ih =>
    rw [childLoop] at h
    obtain ⟨k, hk, h⟩ := bind_ok_inv h
    cases k with
    | none => simp only [Except.ok.injEq] at h; omega
    | some k =>
      simp only at h
      split at h
      · have := ih h; omega
      · simp only [Except.ok.injEq] at h; omega

/-- The part that `Insert` and `_InsertNonFull` share: split, then go on in one of the children. -/
theorem split_then_insert {P : κ → Prop} {h h1 h2 : BStore κ ν} {a y i m c d : Nat} {self yn : BNode κ ν}
    {key : κ} {value : ν} (ha : h[a]? = some self)
    (hy : h[y]? = some yn) (hyl : LeafOf P yn) (hl : self.leaf = false) (hdeg : self.minDeg = 11)
    (hkl : self.keys.length = 11) (hn : self.n = m) (hi : i ≤ m) (hk : ∀ k, some k ∈ self.keys → P k)
    (hch : ∀ c, some c ∈ self.childs → ∃ node, h[c]? = some node ∧ LeafOf P node)
    (hs : splitChild h a i y = .ok h1) (hc : ∀ self', h1[a]? = some self' → some c ∈ self'.childs)
    (hin : insertNonFull cmp key value d h1 c = .ok h2) :
    m ≤ 9 ∧ Wide h2 a (m + 1) fun k => P k ∨ k = key := by
  have hay : a ≠ y := by
    rintro rfl
    rw [ha] at hy; cases hy
    rw [hyl.1] at hl; cases hl
  have hla := (List.getElem?_eq_some_iff.1 ha).1
  obtain ⟨h9, hlen, ⟨self', s1, s2, s3, s4, s5, s6, s7⟩, hy1, hz1, ho1⟩ :=
    splitChild_inv ha hy hay hdeg hkl hn hi hyl.1 hyl.2.1 hs
  have hz : LeafOf P (blank true 0 10 : BNode κ ν) :=
    ⟨rfl, rfl, rfl, fun k hk => by simp [blank] at hk⟩
  -- all children after the split
  have hch1 : ∀ c, some c ∈ self'.childs → ∃ node, h1[c]? = some node ∧ LeafOf P node := by
    intro c hc
    rcases s7 c hc with h | h
    · obtain ⟨node, hn, hnl⟩ := hch c h
      by_cases hcy : c = y
      · subst hcy
        exact ⟨_, hy1, hyl⟩
      · refine ⟨node, ?_, hnl⟩
        rw [ho1 c (List.getElem?_eq_some_iff.1 hn).1 ?_ hcy, hn]
        rintro rfl
        rw [ha] at hn; cases hn
        rw [hnl.1] at hl; cases hl
    · subst h; exact ⟨_, hz1, hz⟩
  obtain ⟨cn, hcn, hcl⟩ := hch1 c (hc self' s1)
  obtain ⟨node', rfl, hn'⟩ := insertNonFull_leaf_inv hcn hcl hin
  have hac : c ≠ a := by
    rintro rfl
    rw [s1] at hcn; cases hcn
    rw [hcl.1] at s2; rw [hl] at s2; cases s2
  have hlc := (List.getElem?_eq_some_iff.1 hcn).1
  refine ⟨h9, self', by rw [List.getElem?_set_ne hac, s1], by rw [s2, hl], s3, s4, s5, by omega, ?_, ?_⟩
  · intro k hk'
    rcases s6 k hk' with h | h
    · exact .inl (hk k h)
    · exact .inl (hyl.2.2.2 k h)
  · intro c' hc'
    by_cases hcc : c = c'
    · subst hcc
      exact ⟨_, List.getElem?_set_self hlc, hn'⟩
    · obtain ⟨node, hn, hnl⟩ := hch1 c' hc'
      exact ⟨node, by rw [List.getElem?_set_ne hcc, hn], hnl.imp fun _ => .inl⟩

theorem Wide.insertNonFull_inv {P : κ → Prop} {h h2 : BStore κ ν} {a d m : Nat} {key : κ} {value : ν}
    (hw : Wide h a m P) (hs : insertNonFull cmp key value d h a = .ok h2) :
    m ≤ 9 ∧ Wide h2 a (m + 1) fun k => P k ∨ k = key := by
  obtain ⟨root, hr, h1, h2, h3, h4, h5, h6, h7⟩ := hw
  cases d with
  | zero => simp [insertNonFull] at hs
  | succ d =>
    simp only [insertNonFull, load_of hr, Go.bind_ok, h1, Bool.false_eq_true, if_false] at hs
    obtain ⟨i, hi, hs⟩ := bind_ok_inv hs
    rw [h4, Int.toNat_natCast] at hi
    have hi := childLoop_le hi
    rw [if_neg (by omega)] at hs
    obtain ⟨y, hy, hs⟩ := bind_ok_inv hs
    obtain ⟨yn, hyn, hs⟩ := bind_ok_inv hs
    cases y with
    | none => cases hyn
    | some y =>
      obtain ⟨node, hn, hnl⟩ := h7 y (List.mem_of_getElem? (index_inv hy))
      rw [load_of hn] at hyn
      cases hyn
      have h11 : yn.keys.length = capacity := hnl.2.2.1
      rw [if_pos h11] at hs
      simp only [addr, deref_some, Go.bind_ok] at hs
      obtain ⟨h1', hsp, hs⟩ := bind_ok_inv hs
      obtain ⟨self', hself, hs⟩ := bind_ok_inv hs
      obtain ⟨k, hk, hs⟩ := bind_ok_inv hs
      obtain ⟨c, hc, hs⟩ := bind_ok_inv hs
      cases c with
      | none => cases hs
      | some c =>
        simp only [deref_some, Go.bind_ok] at hs
        refine split_then_insert hr hn hnl h1 h2 h3 h4 hi h6 h7 hsp ?_ hs
        intro s hs'
        rw [load_of hs'] at hself
        cases hself
        exact List.mem_of_getElem? (index_inv hc)

/-- Every insertion of a new key into such a map panics or adds a key to the root. -/
theorem Wide.insert_inv {P : κ → Prop} {h h' : BStore κ ν} {a m len : Nat} {m' : BMap} {r : Opt ν} {key : κ}
    {value : ν} (hw : Wide h a m P) (hf : ∀ k, P k → cmp key k ≠ .eq)
    (hs : BMap.insert cmp h ⟨some a, len⟩ key value = .ok (h', m', r)) :
    m ≤ 9 ∧ ∃ len', m' = ⟨some a, len'⟩ ∧ Wide h' a (m + 1) fun k => P k ∨ k = key := by
  simp only [BMap.insert] at hs
  obtain ⟨result, hres, hs⟩ := bind_ok_inv hs
  have := hw.search_inv hf hres
  subst this
  have hw' := hw
  obtain ⟨root, hr, h1, h2, h3, h4, h5, h6, h7⟩ := hw
  simp only [load_of hr, Go.bind_ok] at hs
  rw [if_neg (by rw [h4]; unfold capacity; omega)] at hs
  obtain ⟨h2, hin, hs⟩ := bind_ok_inv hs
  cases hs
  obtain ⟨h9, hw2⟩ := hw'.insertNonFull_inv hin
  exact ⟨h9, _, rfl, hw2⟩

/-- The twelfth key. -/
theorem Good.insert_twelfth (hc : LawfulCmp cmp) {h h' : BStore κ ν} {m m' : BMap} {l : List (κ × ν)}
    {fp : List Nat} (hg : Good cmp h m l fp) (h11 : l.length = 11) {key : κ} (hm : OMap.mem cmp l key = false)
    {value : ν} {r : Opt ν} (hs : BMap.insert cmp h m key value = .ok (h', m', r)) :
    ∃ a len, m' = ⟨some a, len⟩ ∧ Wide h' a 1 fun k => (∃ e ∈ l, e.1 = k) ∨ k = key := by
  obtain ⟨a, hr, rfl, hle, cs, hn⟩ := hg.isLeaf (by rintro rfl; simp at h11) (by omega)
  have hla := (List.getElem?_eq_some_iff.1 hn).1
  obtain ⟨root, len⟩ := m
  simp only at hr
  subst hr
  simp only [BMap.insert] at hs
  rcases hg.tree.search hc hg.asc key with ⟨A, b, B, p, node, i, e, hA, hb, hB, hs', _⟩ | ⟨A, B, e, hA, hB, hs'⟩
  · rw [e, mem_found hb] at hm; cases hm
  rw [hs', Go.bind_ok] at hs
  simp only [load_of hn, Go.bind_ok] at hs
  rw [if_pos (by rw [h11]; rfl)] at hs
  have hcs : setIndex (blank false capacity 0 : BNode κ ν).childs 0 (some a) =
    .ok (some a :: List.replicate 11 none) := rfl
  rw [hcs, Go.bind_ok] at hs
  obtain ⟨h1, hsp, hs⟩ := bind_ok_inv hs
  obtain ⟨nr, hnr, hs⟩ := bind_ok_inv hs
  obtain ⟨k, hk, hs⟩ := bind_ok_inv hs
  obtain ⟨k, hk', hs⟩ := bind_ok_inv hs
  obtain ⟨c, hc', hs⟩ := bind_ok_inv hs
  cases c with
  | none => cases hs
  | some c =>
    simp only [addr, deref_some, Go.bind_ok] at hs
    obtain ⟨h2, hin, hs⟩ := bind_ok_inv hs
    cases hs
    have hself : (h ++ [{ (blank false capacity 0 : BNode κ ν) with childs := some a :: List.replicate 11 none }])[h.length]? =
      some { (blank false capacity 0 : BNode κ ν) with childs := some a :: List.replicate 11 none } := by simp
    have hyn : (h ++ [{ (blank false capacity 0 : BNode κ ν) with childs := some a :: List.replicate 11 none }])[a]? =
        some ⟨true, 0, kS l ++ List.replicate (11 - l.length) none,
          vS l ++ List.replicate (11 - l.length) none, l.length, cs⟩ := by
      rw [List.getElem?_append_left hla, hn]
    have hyl : LeafOf (fun k => ∃ e ∈ l, e.1 = k) (⟨true, 0, kS l ++ List.replicate (11 - l.length) none,
          vS l ++ List.replicate (11 - l.length) none, l.length, cs⟩ : BNode κ ν) := by
      refine ⟨rfl, rfl, by simp [h11], fun k hk => ?_⟩
      simp only [List.mem_append, kS, List.mem_map, Option.some.injEq] at hk
      rcases hk with ⟨e, he, h⟩ | h
      · exact ⟨e, he, h⟩
      · simp [h11] at h
    refine ⟨h.length, _, rfl, (split_then_insert (m := 0) (i := 0) hself hyn hyl rfl rfl rfl rfl (Nat.le_refl _)
      ?_ ?_ hsp ?_ hin).2⟩
    · intro k hk; simp [blank] at hk
    · intro c hc
      simp at hc
      subst hc
      exact ⟨_, hyn, hyl⟩
    · intro s hs
      rw [load_of hs] at hnr
      cases hnr
      exact List.mem_of_getElem? (index_inv hc')

/-! ### Where a new key above the eleventh goes -/

/-- What becomes of an empty child that takes a key: the key goes to the last slot. -/
def lostNode (key : κ) (value : ν) (cs : List (Option Nat)) : BNode κ ν :=
  ⟨true, 0, List.replicate 10 none ++ [some key], List.replicate 10 none ++ [some value], 11, cs⟩

theorem insertNonFull_empty {h : BStore κ ν} {a : Nat} {cs : List (Option Nat)}
    (hn : h[a]? = some ⟨true, 0, List.replicate 11 none, List.replicate 11 none, 10, cs⟩) (key : κ) (value : ν)
    (d : Nat) : insertNonFull cmp key value (d + 1) h a = .ok (h.set a (lostNode key value cs)) := by
  rw [insertNonFull_leaf hn rfl, insertLeaf, load_of hn]
  rfl

theorem search_nil_leaf {h : BStore κ ν} {a d : Nat} {node : BNode κ ν} {t : List (Option κ)} {key : κ}
    (hn : h[a]? = some node) (hl : node.leaf = true) (hk : node.keys = none :: t) :
    search cmp h key (d + 1) a = .ok none := by
  have h0 : (none :: t)[0]? = some none := rfl
  simp only [search, load_of hn, Go.bind_ok, hk, hl, searchIdx, h0, if_true]

/-- The first child is split, and the key goes to the new, second child. -/
theorem split_lost {h : BStore κ ν} {a y : Nat} {Y R : List (κ × ν)} {q : κ × ν}
    {zs : List Nat} {t : List (Option κ)} {u : List (Option ν)} {w cs : List (Option Nat)} {key : κ}
    (hay : a ≠ y) (hlen : (Y ++ [q]).length = 11)
    (hy : h[y]? = some ⟨true, 0, kS (Y ++ [q]), vS (Y ++ [q]), 11, cs⟩)
    (ha : h[a]? = some ⟨false, 11, kS R ++ none :: none :: t, vS R ++ none :: none :: u, R.length,
      some y :: (zs.map some ++ none :: w)⟩)
    (hzs : zs.length = R.length) (value : ν) :
    ∃ h1 h2, splitChild h a 0 y = .ok h1 ∧
      h1[a]? = some ⟨false, 11, kS (q :: R) ++ none :: t, vS (q :: R) ++ none :: u, (q :: R).length,
        some y :: (((h.length :: zs).map some) ++ w)⟩ ∧
      (∀ d, insertNonFull cmp key value (d + 1) h1 h.length = .ok h2) ∧
      h2[a]? = h1[a]? ∧ h2[y]? = some ⟨true, 0, kS (Y ++ [q]), vS (Y ++ [q]), 10, cs⟩ ∧
      h2[h.length]? = some (lostNode key value (List.replicate 12 none)) ∧
      (∀ r, r < h.length → r ≠ a → r ≠ y → h2[r]? = h[r]?) ∧ h2.length = h.length + 1 := by
  have hla := (List.getElem?_eq_some_iff.1 ha).1
  have hly := (List.getElem?_eq_some_iff.1 hy).1
  have hl10 : Y.length = 10 := by simpa using hlen
  obtain ⟨h1, hs, hsl, h1a, h1y, h1z, h1o⟩ := splitChild_facts (h := h) (a := a) (y := y) ha hy hay rfl rfl rfl
    (i := 0) (PK := [])
    (AK := kS R ++ [none]) (x := none) (BK := t) (PV := []) (AV := vS R ++ [none]) (v := none) (BV := u)
    (PC := [some y]) (AC := zs.map some) (c := none) (BC := w) (ky := some q.1) (vy := some q.2)
    (by simp) (by simp) (by simp) rfl rfl rfl (by simp) (by simp) (by simp [hzs])
    (by simp only
        rw [kS_append, ← hl10, ← kS_length Y]; simp)
    (by simp only
        rw [vS_append, ← hl10, ← vS_length Y]; simp)
  refine ⟨h1, h1.set h.length (lostNode key value (List.replicate 12 none)), hs, ?_,
    fun d => insertNonFull_empty h1z key value d, ?_, ?_, ?_, ?_, ?_⟩
  · rw [h1a]; simp
  · rw [List.getElem?_set_ne (by omega)]
  · rw [List.getElem?_set_ne (by omega), h1y]
  · rw [List.getElem?_set_self (by omega)]
  · intro r hr hra hry
    rw [List.getElem?_set_ne (by omega), h1o r hr hra hry]
  · simp [hsl]

/-- What is left of the twelfth key when it is the largest: `y` has the old keys, `z` the new one. -/
theorem Good.insert_max (hc : LawfulCmp cmp) {h : BStore κ ν} {m : BMap} {Y : List (κ × ν)} {q : κ × ν}
    {fp : List Nat} (hg : Good cmp h m (Y ++ [q]) fp) (h11 : (Y ++ [q]).length = 11) {key : κ}
    (hq : cmp q.1 key = .lt) (value : ν) :
    ∃ h' a y z cs, BMap.insert cmp h m key value = .ok (h', ⟨some a, 12⟩, ⟨none⟩) ∧ a < h'.length ∧ z < h'.length ∧
      h'[a]? = some ⟨false, 11, some q.1 :: List.replicate 10 none, some q.2 :: List.replicate 10 none, 1,
        some y :: some z :: List.replicate 10 none⟩ ∧
      h'[y]? = some ⟨true, 0, kS (Y ++ [q]), vS (Y ++ [q]), 10, cs⟩ ∧
      h'[z]? = some (lostNode key value (List.replicate 12 none)) ∧
      h.length ≤ h'.length ∧ ∀ r, r < h.length → r ∉ fp → h'[r]? = h[r]? := by
  obtain ⟨a, hr, rfl, hle, cs, hn⟩ := hg.isLeaf (by simp) (by omega)
  have hla := (List.getElem?_eq_some_iff.1 hn).1
  have hlen := hg.len
  obtain ⟨root, len⟩ := m
  simp only at hr hlen
  subst hr
  have hm : OMap.mem cmp (Y ++ [q]) key = false := by
    rw [OMap.mem_false]
    intro e he
    have : cmp e.1 key = .lt := by
      rcases List.mem_append.1 he with he | he
      · exact hc.lt_trans ((List.pairwise_append.1 hg.asc).2.2 e he q (by simp)) hq
      · simp at he; subst he; exact hq
    rw [(hc.lt_iff _ _).1 this]; decide
  rcases hg.tree.search hc hg.asc key with ⟨A, b, B, p, node, i, e, hA, hb, hB, hs, _⟩ | ⟨A, B, e, hA, hB, hs⟩
  · rw [e, mem_found hb] at hm; cases hm
  have hus : usize (len + 1) = 12 := by rw [hlen, h11]; rfl
  let h0 : BStore κ ν := h ++ [⟨false, 11, kS ([] : List (κ × ν)) ++ none :: none :: List.replicate 9 none,
    vS ([] : List (κ × ν)) ++ none :: none :: List.replicate 9 none, ([] : List (κ × ν)).length,
    some a :: (([] : List Nat).map some ++ none :: List.replicate 10 none)⟩]
  have h0a : h0[h.length]? = some ⟨false, 11, kS ([] : List (κ × ν)) ++ none :: none :: List.replicate 9 none,
    vS ([] : List (κ × ν)) ++ none :: none :: List.replicate 9 none, ([] : List (κ × ν)).length,
    some a :: (([] : List Nat).map some ++ none :: List.replicate 10 none)⟩ := by simp [h0]
  have h0l : h0.length = h.length + 1 := by simp [h0]
  have h0y : h0[a]? = some ⟨true, 0, kS (Y ++ [q]), vS (Y ++ [q]), 11, cs⟩ := by
    simp only [h0]
    rw [List.getElem?_append_left hla, hn, h11]
    simp
  obtain ⟨h1, h2, hsp, h1a, hin, h2a, h2y, h2z, h2o, h2l⟩ :=
    split_lost (cmp := cmp) (key := key) (by omega) h11 h0y h0a rfl value
  refine ⟨h2, h.length, a, h0.length, cs, ?_, by omega, by omega, ?_, h2y, h2z, by omega, ?_⟩
  · simp only [BMap.insert, hs, Go.bind_ok, load_of hn]
    rw [if_pos (by rw [h11]; rfl)]
    have hcs : setIndex (blank false capacity 0 : BNode κ ν).childs 0 (some a) =
      .ok (some a :: List.replicate 11 none) := rfl
    rw [hcs, Go.bind_ok]
    have hh0 : h ++ [{ (blank false capacity 0 : BNode κ ν) with
        childs := some a :: List.replicate 11 none }] = h0 := rfl
    rw [hh0, hsp, Go.bind_ok, load_of h1a, Go.bind_ok]
    have hk0 : index (kS [q] ++ none :: List.replicate 9 none) 0 = .ok (some q.1) := rfl
    simp only [hk0, Go.bind_ok, deref_some, hq, hus]
    have hc0 : ∀ l : List (Option Nat), index (some a :: ((h0.length :: []).map some ++ l)) 1 = .ok (some h0.length) :=
      fun _ => rfl
    simp only [if_true, hc0, Go.bind_ok, addr, deref_some, hin]
    rfl
  · rw [h2a, h1a]; rfl
  · intro r hr hra
    rw [h2o r (by omega) (by omega) (by simpa using hra)]
    simp only [h0]
    rw [List.getElem?_append_left hr]

/-- A new key above the eleventh is counted but cannot be found. -/
theorem Good.insert_lost (hc : LawfulCmp cmp) {h : BStore κ ν} {m : BMap} {l : List (κ × ν)} {fp : List Nat}
    (hg : Good cmp h m l fp) {key : κ} (hm : OMap.mem cmp l key = false) {q0 : κ × ν}
    (hq0 : l[10]? = some q0) (hq : cmp q0.1 key = .lt) (h21 : l.length < 21) (value : ν) :
    ∃ h' m', BMap.insert cmp h m key value = .ok (h', m', ⟨none⟩) ∧ m'.len = l.length + 1 ∧
      BMap.get cmp h' m' key = .ok ⟨none⟩ ∧ BMap.containsKey cmp h' m' key = .ok false := by
  -- it is enough that the search fails
  have key_lemma : ∀ {h' : BStore κ ν} {m' : BMap} {a : Nat}, m'.root = some a →
      BTree.search cmp h' key (h'.length + 1) a = .ok none →
      BMap.get cmp h' m' key = .ok ⟨none⟩ ∧ BMap.containsKey cmp h' m' key = .ok false := by
    intro h' m' a hr hs
    simp only [BMap.get, BMap.containsKey, hr, hs, Go.bind_ok]
    exact ⟨rfl, rfl⟩
  have hqgt : cmp key q0.1 = .gt := (hc.lt_iff _ _).1 hq
  obtain ⟨root, len⟩ := m
  have hg' := hg
  obtain ⟨asc, hlen, tree⟩ := hg
  simp only at hlen tree
  cases root with
  | none => cases tree; simp at hq0
  | some a =>
    have hus : usize (len + 1) = l.length + 1 := by rw [hlen]; unfold usize; omega
    rcases tree.search hc asc key with ⟨A, b, B, p, node, i, e, hA, hb, hB, hs, _⟩ | ⟨A, B, e, hA, hB, hs⟩
    · rw [e, mem_found hb] at hm; cases hm
    cases tree with
    | leaf hne hleaf =>
      have h11 : l.length = 11 := by
        have := (List.getElem?_eq_some_iff.1 hq0).1
        have := hleaf.1
        omega
      obtain ⟨Y, q, rfl⟩ : ∃ Y q, l = Y ++ [q] := ⟨_, _, (List.dropLast_concat_getLast hne).symm⟩
      have hY10 : Y.length = 10 := by simpa using h11
      have : (Y ++ [q])[10]? = some q := by rw [← hY10]; simp
      rw [this] at hq0; cases hq0
      obtain ⟨h', a', y, z, cs, hi, hl1, hl2, ha', hy', hz', _⟩ := hg'.insert_max hc h11 hq value
      refine ⟨h', _, hi, by simp only; omega, key_lemma rfl ?_⟩
      have hd : ∃ d, h'.length = d + 1 := ⟨h'.length - 1, by omega⟩
      obtain ⟨d, hd⟩ := hd
      have := search_fresh_node (cmp := cmp) (d := h'.length) (key := key) (A := [q0]) (B := []) (ch := z) ha' rfl
        (t := List.replicate 9 none) rfl (by simpa using hqgt) (by simp) rfl
      rw [this, hd]
      exact search_nil_leaf hz' rfl rfl
    | @node _ y zs Y R h1 h2 h3 h4 h5 h6 h7 h8 =>
      have hay : a ≠ y := by
        rintro rfl
        obtain ⟨_, cs, h'⟩ := h4
        rw [h5] at h'; simp at h'
      obtain ⟨Y, q, rfl⟩ : ∃ Y' q, Y = Y' ++ [q] :=
        ⟨_, _, (List.dropLast_concat_getLast (by intro h; rw [h] at h1; simp at h1)).symm⟩
      have hY10 : Y.length = 10 := by simpa using h1
      have : (Y ++ [q] ++ R)[10]? = some q := by rw [← hY10]; simp
      rw [this] at hq0; cases hq0
      have hr9 : R.length ≤ 9 := by simp at h21; omega
      have hR : Ascending cmp R := (List.pairwise_append.1 asc).2.1
      have hrep : ∀ α : Type, List.replicate (11 - R.length) (none : Option α) =
          none :: none :: List.replicate (9 - R.length) none := by
        intro α
        have : 11 - R.length = (9 - R.length) + 1 + 1 := by omega
        rw [this, List.replicate_succ, List.replicate_succ]
      rw [hrep, hrep, hrep] at h5
      have hne : ¬ (R.length : Int) = (capacity : Nat) := by unfold capacity; omega
      have hdl : ∃ d, h.length = d + 1 := ⟨h.length - 1, by have := h4.lt; omega⟩
      obtain ⟨d, hdl⟩ := hdl
      obtain ⟨P, Q, rfl, hP, hQ⟩ : ∃ P Q, R = P ++ Q ∧ (∀ e ∈ P, cmp key e.1 = .gt) ∧
          (∀ e ∈ Q, cmp key e.1 = .lt) := by
        rcases locate hc hR key with ⟨A', b', B', e', hA', hb', hB'⟩ | ⟨A', B', e', hA', hB'⟩
        · rw [OMap.mem_false] at hm
          exact absurd hb' (hm b' (by rw [e']; simp))
        · exact ⟨A', B', e', hA', hB'⟩
      have hP' : ∀ e ∈ P, cmp e.1 key ≠ .gt := fun e he => by rw [(hc.lt_iff _ _).2 (hP e he)]; decide
      have hQ' : ∀ e ∈ Q, cmp e.1 key = .gt := fun e he => (hc.gt_iff _ _).2 (hQ e he)
      have hloop := childLoop_eq (cmp := cmp) (key := key) hP' hQ'
        (none :: none :: List.replicate (9 - (P ++ Q).length) none)
      cases P with
      | nil =>
        obtain ⟨_, cs, hy⟩ := h4
        have hy : h[y]? = some ⟨true, 0, kS (Y ++ [q0]), vS (Y ++ [q0]), 11, cs⟩ := by
          rw [hy, h1]; simp
        obtain ⟨h1', h2', hsp, h1a, hin, h2a, h2y, h2z, h2o, h2l⟩ :=
          split_lost (cmp := cmp) (key := key) hay h1 hy h5 h6 value
        refine ⟨h2', ⟨some a, (Y ++ [q0] ++ ([] ++ Q)).length + 1⟩, ?_, rfl, key_lemma rfl ?_⟩
        · simp only [BMap.insert, hs, Go.bind_ok, load_of h5]
          rw [if_neg hne, insertNonFull]
          simp only [List.length_nil] at hloop
          simp only [load_of h5, Go.bind_ok, Bool.false_eq_true, if_false, Int.toNat_natCast, hloop]
          have hc0 : ∀ l : List (Option Nat), index (some y :: l) 0 = .ok (some y) := fun _ => rfl
          have hk0 : ∀ l : List (Option κ), index (some q0.1 :: l) 0 = .ok (some q0.1) := fun _ => rfl
          rw [if_neg (by omega), hc0, Go.bind_ok, load_of hy, Go.bind_ok, if_pos (by simp [hY10, capacity])]
          have hsp' : splitChild h a ((0 : Nat) : Int) y = .ok h1' := hsp
          have hc1 : ∀ l : List (Option Nat), index (some y :: (((h.length :: zs).map some) ++ l)) (0 + 1) =
            .ok (some h.length) := fun _ => rfl
          simp only [addr, deref_some, Go.bind_ok, hsp', load_of h1a, kS_cons, List.cons_append, hk0, hq, if_true, hc1]
          have hin' := hin d
          rw [← hdl] at hin'
          rw [hin', Go.bind_ok, hus]
          rfl
        · rw [h1a] at h2a
          have := search_fresh_node (cmp := cmp) (d := h2'.length) (key := key) (A := [q0]) (B := Q)
            (ch := h.length) h2a rfl (t := List.replicate (9 - ([] ++ Q).length) none) rfl (by simpa using hqgt) hQ rfl
          rw [this, h2l]
          exact search_nil_leaf h2z rfl rfl
      | cons p P =>
        obtain ⟨Z1, z, Z2, rfl, hZ1⟩ : ∃ Z1 z Z2, zs = Z1 ++ z :: Z2 ∧ Z1.length = P.length := by
          have hlt : P.length < zs.length := by rw [h6]; simp; omega
          refine ⟨zs.take P.length, zs[P.length], zs.drop (P.length + 1), ?_, by simp; omega⟩
          rw [← List.drop_eq_getElem_cons hlt, List.take_append_drop]
        have hZ2 : Z2.length = Q.length := by simp at h6; omega
        obtain ⟨cs, hz⟩ := h7 z (by simp)
        have haz : a ≠ z := by
          rintro rfl
          rw [h5] at hz; simp at hz
        have hlz := (List.getElem?_eq_some_iff.1 hz).1
        have hla := (List.getElem?_eq_some_iff.1 h5).1
        obtain ⟨h1', hsp, hsl, h1a, h1y, h1z, h1o⟩ := splitChild_facts (h := h) (a := a) (y := z) h5 hz haz rfl rfl rfl
          (i := P.length + 1) (PK := kS (p :: P)) (AK := kS Q ++ [none]) (x := none)
          (BK := List.replicate (9 - (p :: P ++ Q).length) none) (PV := vS (p :: P)) (AV := vS Q ++ [none])
          (v := none) (BV := List.replicate (9 - (p :: P ++ Q).length) none)
          (PC := some y :: (Z1.map some ++ [some z])) (AC := Z2.map some) (c := none)
          (BC := none :: List.replicate (9 - (p :: P ++ Q).length) none) (ky := none) (vy := none)
          (by simp) (by simp) (by simp) (by simp) (by simp) (by simp [hZ1]) (by simp; omega) (by simp) (by simp [hZ2])
          rfl rfl
        refine ⟨h1'.set z (lostNode key value cs), ⟨some a, (Y ++ [q0] ++ (p :: P ++ Q)).length + 1⟩, ?_, rfl,
          key_lemma rfl ?_⟩
        · simp only [BMap.insert, hs, Go.bind_ok, load_of h5]
          rw [if_neg hne, insertNonFull]
          simp only [load_of h5, Go.bind_ok, Bool.false_eq_true, if_false, Int.toNat_natCast, hloop]
          have hcz : ∀ l : List (Option Nat), index (some y :: ((Z1 ++ z :: Z2).map some ++ l)) (p :: P).length =
              .ok (some z) := by
            intro l
            have := index_mid (some y :: Z1.map some) (some z) (Z2.map some ++ l)
            simp only [List.length_cons, List.length_map, hZ1] at this
            simpa using this
          rw [if_neg (by omega), hcz, Go.bind_ok, load_of hz, Go.bind_ok, if_pos (by simp [capacity])]
          have hsp' : splitChild h a (((p :: P).length : Nat) : Int) z = .ok h1' := hsp
          simp only [addr, deref_some, Go.bind_ok, hsp', load_of h1a]
          have hk1 : ∀ l : List (Option κ), index (kS (p :: P) ++ none :: l) (p :: P).length = .ok none := by
            intro l
            have := index_mid (kS (p :: P)) none l
            rw [kS_length] at this
            exact this
          have hc1 : ∀ l : List (Option Nat), index (some y :: (Z1.map some ++ [some z]) ++ l) (p :: P).length =
              .ok (some z) := by
            intro l
            have := index_mid (some y :: Z1.map some) (some z) l
            simp only [List.length_cons, List.length_map, hZ1] at this
            simpa using this
          simp only [hk1, Go.bind_ok, hc1, deref_some]
          rw [hdl, insertNonFull_empty h1y, Go.bind_ok, hus]
          rfl
        · have hla' : (h1'.set z (lostNode key value cs))[a]? = h1'[a]? := by
            rw [List.getElem?_set_ne (Ne.symm haz)]
          rw [h1a] at hla'
          have := search_fresh_node (cmp := cmp) (d := (h1'.set z (lostNode key value cs)).length) (key := key)
            (A := p :: P) (B := []) (ch := z) hla' rfl
            (t := kS Q ++ [none] ++ List.replicate (9 - (p :: P ++ Q).length) none) (by simp) hP (by simp)
            (by
              have : (some y :: (Z1.map some ++ [some z])) = (some y :: Z1.map some) ++ [some z] := by simp
              simp only [this, List.append_assoc]
              rw [List.getElem?_append_right (by simp [hZ1])]
              simp [hZ1])
          rw [this]
          have hd : (h1'.set z (lostNode key value cs)).length = h.length + 1 := by simp [hsl]
          rw [hd]
          exact search_nil_leaf (List.getElem?_set_self (by omega)) rfl rfl
end Gost.BTree
