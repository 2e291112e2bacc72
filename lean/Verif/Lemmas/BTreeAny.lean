import Verif.Lemmas.BTreeIter
import Verif.Lemmas.BTreeUnwind
/-
What holds of the nodes of BTreeMaps after any history at all: keys and values stay together, children are leaves.
-/
namespace Gost.BTree
open Unwind (load_inv)
variable {κ ν : Type} {cmp : κ → κ → Ordering}

/-- A key slot and the value slot beside it: both nil, or a pair in P. -/
def Slot (P : κ → ν → Prop) : Option κ → Option ν → Prop
  | none, none => True
  | some k, some v => P k v
  | _, _ => False

/-- Eleven key slots and the value slots beside them. -/
structure Paired (P : κ → ν → Prop) (ks : List (Option κ)) (vs : List (Option ν)) : Prop where
  klen : ks.length = 11
  vlen : vs.length = 11
  slot : ∀ (i : Nat) k v, ks[i]? = some k → vs[i]? = some v → Slot P k v

/-- A leaf of the heap. -/
def Leafy (h : BStore κ ν) (a : Nat) : Prop := ∃ n, h[a]? = some n ∧ n.leaf = true

/-- The pointers are nil or refer to leaves. -/
def Kids (h : BStore κ ν) (cs : List (Option Nat)) : Prop := ∀ (i c : Nat), cs[i]? = some (some c) → Leafy h c

/-- The shape of a node. -/
structure NodeOk (P : κ → ν → Prop) (h : BStore κ ν) (node : BNode κ ν) : Prop where
  slots : Paired P node.keys node.values
  clen : node.childs.length = 12
  kids : node.leaf = false → Kids h node.childs

/-- All nodes have it. -/
def HeapOk (P : κ → ν → Prop) (h : BStore κ ν) : Prop := ∀ (a : Nat) node, h[a]? = some node → NodeOk P h node

/-- Nodes stay, and stay leaves or internal. -/
def Ext (h h' : BStore κ ν) : Prop := ∀ (a : Nat) n, h[a]? = some n → ∃ n', h'[a]? = some n' ∧ n'.leaf = n.leaf

theorem Ext.rfl' (h : BStore κ ν) : Ext h h := fun _ n hn => ⟨n, hn, rfl⟩
theorem Ext.trans {h1 h2 h3 : BStore κ ν} (a : Ext h1 h2) (b : Ext h2 h3) : Ext h1 h3 := by
  intro r n hn
  obtain ⟨n', h', e⟩ := a r n hn
  obtain ⟨n2, h2, e2⟩ := b r n' h'
  exact ⟨n2, h2, e2.trans e⟩
theorem Ext.leafy {h h' : BStore κ ν} (e : Ext h h') {a : Nat} (hl : Leafy h a) : Leafy h' a := by
  obtain ⟨n, hn, hl⟩ := hl
  obtain ⟨n', hn', e'⟩ := e a n hn
  exact ⟨n', hn', e'.trans hl⟩
theorem Ext.kids {h h' : BStore κ ν} (e : Ext h h') {cs : List (Option Nat)} (hk : Kids h cs) : Kids h' cs :=
  fun i c hc => e.leafy (hk i c hc)

theorem Slot.imp {P Q : κ → ν → Prop} (hPQ : ∀ k v, P k v → Q k v) {k : Option κ} {v : Option ν} (h : Slot P k v) :
    Slot Q k v := by
  cases k <;> cases v <;> first | exact h | exact hPQ _ _ h
theorem HeapOk.imp {P Q : κ → ν → Prop} (hPQ : ∀ k v, P k v → Q k v) {h : BStore κ ν} (ho : HeapOk P h) : HeapOk Q h :=
  fun a n hn => ⟨⟨(ho a n hn).slots.klen, (ho a n hn).slots.vlen, fun i k v hk hv =>
    ((ho a n hn).slots.slot i k v hk hv).imp hPQ⟩, (ho a n hn).clen, (ho a n hn).kids⟩

variable {P : κ → ν → Prop}

theorem HeapOk.set {h : BStore κ ν} (ho : HeapOk P h) {a : Nat} {node node' : BNode κ ν} (ha : h[a]? = some node)
    (hl : node'.leaf = node.leaf) (hn : NodeOk P h node') : HeapOk P (h.set a node') ∧ Ext h (h.set a node') := by
  have hla := (List.getElem?_eq_some_iff.1 ha).1
  have he : Ext h (h.set a node') := by
    intro r n hr
    by_cases hra : a = r
    · subst hra
      rw [ha] at hr; cases hr
      exact ⟨node', List.getElem?_set_self hla, hl⟩
    · exact ⟨n, by rw [List.getElem?_set_ne hra]; exact hr, rfl⟩
  refine ⟨?_, he⟩
  intro r n hr
  have : NodeOk P h n := by
    by_cases hra : a = r
    · subst hra
      rw [List.getElem?_set_self hla] at hr; cases hr
      exact hn
    · rw [List.getElem?_set_ne hra] at hr
      exact ho r n hr
  exact ⟨this.slots, this.clen, fun hf => he.kids (this.kids hf)⟩

theorem HeapOk.push {h : BStore κ ν} (ho : HeapOk P h) {node : BNode κ ν} (hn : NodeOk P h node) :
    HeapOk P (h ++ [node]) ∧ Ext h (h ++ [node]) := by
  have he : Ext h (h ++ [node]) := by
    intro r n hr
    refine ⟨n, ?_, rfl⟩
    rw [List.getElem?_append_left (List.getElem?_eq_some_iff.1 hr).1]; exact hr
  refine ⟨?_, he⟩
  intro r n hr
  have : NodeOk P h n := by
    by_cases hlt : r < h.length
    · rw [List.getElem?_append_left hlt] at hr
      exact ho r n hr
    · rw [List.getElem?_append_right (by omega)] at hr
      have := List.mem_of_getElem? hr
      simp at this
      rw [this]; exact hn
  exact ⟨this.slots, this.clen, fun hf => he.kids (this.kids hf)⟩

/-! ### Slots -/

theorem getAt_slot {α : Type} {l : List α} {i : Int} {v : α} (h : getAt l i = .ok v) :
    0 ≤ i ∧ l[i.toNat]? = some v := by
  unfold getAt at h
  split at h
  · cases h
  · exact ⟨by omega, index_inv h⟩

theorem Paired.get {ks : List (Option κ)} {vs : List (Option ν)} (hp : Paired P ks vs) {i : Int} {k : Option κ} {v : Option ν}
    (hk : getAt ks i = .ok k) (hv : getAt vs i = .ok v) : Slot P k v :=
  hp.slot _ k v (getAt_slot hk).2 (getAt_slot hv).2
theorem Paired.index {ks : List (Option κ)} {vs : List (Option ν)} (hp : Paired P ks vs) {i : Nat} {k : Option κ}
    {v : Option ν} (hk : Gost.index ks i = .ok k) (hv : Gost.index vs i = .ok v) : Slot P k v :=
  hp.slot _ k v (index_inv hk) (index_inv hv)

theorem Paired.set {ks : List (Option κ)} {vs : List (Option ν)} (hp : Paired P ks vs) (i : Nat) {k : Option κ} {v : Option ν}
    (hs : Slot P k v) : Paired P (ks.set i k) (vs.set i v) := by
  refine ⟨by simp [hp.klen], by simp [hp.vlen], ?_⟩
  intro j k' v' hk hv
  by_cases hij : i = j
  · subst hij
    have hk1 := (List.getElem?_eq_some_iff.1 hk).1
    have hv1 := (List.getElem?_eq_some_iff.1 hv).1
    simp only [List.length_set] at hk1 hv1
    rw [List.getElem?_set_self hk1] at hk
    rw [List.getElem?_set_self hv1] at hv
    cases hk; cases hv
    exact hs
  · rw [List.getElem?_set_ne hij] at hk hv
    exact hp.slot j k' v' hk hv

theorem Paired.setAt {ks ks' : List (Option κ)} {vs vs' : List (Option ν)} (hp : Paired P ks vs) {i : Int} {k : Option κ}
    {v : Option ν} (hs : Slot P k v) (h1 : setAt ks i k = .ok ks') (h2 : setAt vs i v = .ok vs') : Paired P ks' vs' := by
  obtain ⟨_, _, rfl⟩ := setAt_inv h1
  obtain ⟨_, _, rfl⟩ := setAt_inv h2
  exact hp.set _ hs
theorem Paired.setIndex {ks ks' : List (Option κ)} {vs vs' : List (Option ν)} (hp : Paired P ks vs) {i : Nat} {k : Option κ}
    {v : Option ν} (hs : Slot P k v) (h1 : Gost.setIndex ks i k = .ok ks') (h2 : Gost.setIndex vs i v = .ok vs') :
    Paired P ks' vs' := by
  rw [setIndex_inv h1, setIndex_inv h2]
  exact hp.set _ hs

theorem Paired.blank : Paired P (List.replicate 11 none) (List.replicate 11 none) := by
  refine ⟨by simp, by simp, ?_⟩
  intro i k v hk hv
  have h1 := List.eq_of_mem_replicate (List.mem_of_getElem? hk)
  have h2 := List.eq_of_mem_replicate (List.mem_of_getElem? hv)
  subst h1 h2
  trivial

theorem Kids.setAt {h : BStore κ ν} {cs cs' : List (Option Nat)} (hk : Kids h cs) {i : Int} {c : Option Nat}
    (hc : ∀ a, c = some a → Leafy h a) (h1 : setAt cs i c = .ok cs') : Kids h cs' ∧ cs'.length = cs.length := by
  obtain ⟨_, _, rfl⟩ := setAt_inv h1
  refine ⟨?_, by simp⟩
  intro j a ha
  by_cases hij : i.toNat = j
  · subst hij
    have hl := (List.getElem?_eq_some_iff.1 ha).1
    simp only [List.length_set] at hl
    rw [List.getElem?_set_self hl] at ha
    cases ha
    exact hc a rfl
  · rw [List.getElem?_set_ne hij] at ha
    exact hk j a ha

theorem Kids.get {h : BStore κ ν} {cs : List (Option Nat)} (hk : Kids h cs) {i : Int} {c : Option Nat}
    (hc : getAt cs i = .ok c) : ∀ a, c = some a → Leafy h a := by
  rintro a rfl
  exact hk _ a (getAt_slot hc).2

/-! ### Loops -/

theorem forUp_inv {β : Type} {I : β → Prop} {body : Int → β → Go β} (hb : ∀ j s s', I s → body j s = .ok s' → I s') :
    ∀ (n : Nat) (j : Int) (s s' : β), I s → forUp body n j s = .ok s' → I s' := by
  intro n
  induction n with
  | zero => intro j s s' hs h; cases h; exact hs
  | succ n ih =>
    intro j s s' hs h
    unfold forUp at h
    obtain ⟨s1, h1, h⟩ := bind_ok_inv h
    exact ih _ _ _ (hb _ _ _ hs h1) h
theorem forDown_inv {β : Type} {I : β → Prop} {body : Int → β → Go β} (hb : ∀ j s s', I s → body j s = .ok s' → I s') :
    ∀ (n : Nat) (j : Int) (s s' : β), I s → forDown body n j s = .ok s' → I s' := by
  intro n
  induction n with
  | zero => intro j s s' hs h; cases h; exact hs
  | succ n ih =>
    intro j s s' hs h
    unfold forDown at h
    obtain ⟨s1, h1, h⟩ := bind_ok_inv h
    exact ih _ _ _ (hb _ _ _ hs h1) h

/-- The slots of a pair of lists. -/
abbrev Pr (P : κ → ν → Prop) (s : List (Option κ) × List (Option ν)) : Prop := Paired P s.1 s.2
/-- Twelve pointers. -/
abbrev Ks (h : BStore κ ν) (s : List (Option Nat)) : Prop := Kids h s ∧ s.length = 12

/-- Bodies that copy slots `f j` of `src` to slots `g j`. -/
theorem move_inv {f g : Int → Int} {j : Int} {src s s' : List (Option κ) × List (Option ν)} (hsrc : Pr P src) (hs : Pr P s)
    (h : (do
      let k ← getAt src.1 (f j)
      let ks ← setAt s.1 (g j) k
      let v ← getAt src.2 (f j)
      let vs ← setAt s.2 (g j) v
      (.ok (ks, vs) : Go _)) = .ok s') : Pr P s' := by
  obtain ⟨k, hk, h⟩ := bind_ok_inv h
  obtain ⟨ks, hks, h⟩ := bind_ok_inv h
  obtain ⟨v, hv, h⟩ := bind_ok_inv h
  obtain ⟨vs, hvs, h⟩ := bind_ok_inv h
  cases h
  exact hs.setAt (hsrc.get hk hv) hks hvs

theorem shiftR2_inv {j : Int} {s s' : List (Option κ) × List (Option ν)} (hs : Pr P s) (h : shiftR2 j s = .ok s') : Pr P s' :=
  move_inv (f := id) (g := (· + 1)) hs hs h
theorem shiftL2_inv {j : Int} {s s' : List (Option κ) × List (Option ν)} (hs : Pr P s) (h : shiftL2 j s = .ok s') : Pr P s' :=
  move_inv (f := id) (g := (· - 1)) hs hs h
theorem pullL2_inv {j : Int} {s s' : List (Option κ) × List (Option ν)} (hs : Pr P s) (h : pullL2 j s = .ok s') : Pr P s' := by
  unfold pullL2 at h
  obtain ⟨k, hk, h⟩ := bind_ok_inv h
  obtain ⟨ks, hks, h⟩ := bind_ok_inv h
  obtain ⟨ks2, hks2, h⟩ := bind_ok_inv h
  obtain ⟨v, hv, h⟩ := bind_ok_inv h
  obtain ⟨vs, hvs, h⟩ := bind_ok_inv h
  obtain ⟨vs2, hvs2, h⟩ := bind_ok_inv h
  cases h
  exact (hs.setAt (hs.get hk hv) hks hvs).setAt (k := none) (v := none) trivial hks2 hvs2

theorem moveKid_inv {h : BStore κ ν} {f g : Int → Int} {j : Int} {src s s' : List (Option Nat)} (hsrc : Kids h src)
    (hs : Ks h s) (he : (do let c ← getAt src (f j); setAt s (g j) c) = .ok s') : Ks h s' := by
  obtain ⟨c, hc, he⟩ := bind_ok_inv he
  obtain ⟨h1, h2⟩ := hs.1.setAt (hsrc.get hc) he
  exact ⟨h1, by rw [h2]; exact hs.2⟩
theorem shiftR_inv {h : BStore κ ν} {j : Int} {s s' : List (Option Nat)} (hs : Ks h s) (he : shiftR j s = .ok s') : Ks h s' :=
  moveKid_inv (f := id) (g := (· + 1)) hs.1 hs he
theorem shiftL_inv {h : BStore κ ν} {j : Int} {s s' : List (Option Nat)} (hs : Ks h s) (he : shiftL j s = .ok s') : Ks h s' :=
  moveKid_inv (f := id) (g := (· - 1)) hs.1 hs he

theorem lengthR {j : Int} {s s' : List (Option Nat)} (he : shiftR j s = .ok s') : s'.length = s.length := by
  obtain ⟨c, hc, he⟩ := bind_ok_inv he
  obtain ⟨_, _, rfl⟩ := setAt_inv he
  simp

/-! ### Insertion -/

theorem leafLoop_paired {key : κ} {n : Nat} {ks ks' : List (Option κ)} {vs vs' : List (Option ν)} {i : Nat}
    (hp : Paired P ks vs) (h : leafLoop cmp key n ks vs = .ok (ks', vs', i)) : Paired P ks' vs' := by
  induction n generalizing ks vs with
  | zero => simp only [leafLoop, Except.ok.injEq, Prod.mk.injEq] at h; obtain ⟨rfl, rfl, _⟩ := h; exact hp
  | succ n ih =>
    rw [leafLoop] at h
    obtain ⟨k, hk, h⟩ := bind_ok_inv h
    cases k with
    | none => simp only [Except.ok.injEq, Prod.mk.injEq] at h; obtain ⟨rfl, rfl, _⟩ := h; exact hp
    | some k =>
      simp only at h
      split at h
      · obtain ⟨ks1, h1, h⟩ := bind_ok_inv h
        obtain ⟨v, hv, h⟩ := bind_ok_inv h
        obtain ⟨vs1, h2, h⟩ := bind_ok_inv h
        exact ih (hp.setIndex (hp.index hk hv) h1 h2) h
      · simp only [Except.ok.injEq, Prod.mk.injEq] at h; obtain ⟨rfl, rfl, _⟩ := h; exact hp

/-- What every change of the heap keeps. -/
abbrev Keeps (P : κ → ν → Prop) (h h' : BStore κ ν) : Prop := HeapOk P h' ∧ Ext h h'

theorem Keeps.trans {h1 h2 h3 : BStore κ ν} (a : Keeps P h1 h2) (b : Keeps P h2 h3) : Keeps P h1 h3 :=
  ⟨b.1, a.2.trans b.2⟩

theorem insertLeaf_keeps {h h' : BStore κ ν} {a : Nat} {key : κ} {value : ν} (ho : HeapOk P h) (hP : P key value)
    (he : insertLeaf cmp h a key value = .ok h') : Keeps P h h' := by
  unfold insertLeaf at he
  obtain ⟨self, hl, he⟩ := bind_ok_inv he
  have hl := load_inv hl
  obtain ⟨⟨ks, vs, i⟩, h1, he⟩ := bind_ok_inv he
  simp only at he
  split at he
  · cases he
  obtain ⟨ks2, h2, he⟩ := bind_ok_inv he
  obtain ⟨vs2, h3, he⟩ := bind_ok_inv he
  cases he
  have hn := ho a self hl
  exact ho.set hl rfl ⟨(leafLoop_paired hn.slots h1).setIndex (k := some key) (v := some value) hP h2 h3, hn.clen, hn.kids⟩

/-- The split of an internal node into a node of degree 11 panics. -/
theorem splitChild_internal {h h' : BStore κ ν} {a y : Nat} {i : Int} {self yn : BNode κ ν} (ha : h[a]? = some self)
    (hd : self.minDeg = 11) (hy : h[y]? = some yn) (hl : yn.leaf = false) (hc : yn.childs.length = 12)
    (he : splitChild h a i y = .ok h') : False := by
  unfold splitChild at he
  obtain ⟨self', hl1, he⟩ := bind_ok_inv he
  have hl1 := load_inv hl1
  rw [ha] at hl1; cases hl1
  obtain ⟨yn', hl2, he⟩ := bind_ok_inv he
  have hl2 := load_inv hl2
  rw [hy] at hl2; cases hl2
  obtain ⟨_, _, he⟩ := bind_ok_inv he
  obtain ⟨zc, h2, he⟩ := bind_ok_inv he
  rw [hl, hd] at h2
  simp only [Bool.not_false, if_true] at h2
  have e11 : (11 : Int).toNat = 11 := rfl
  rw [e11] at h2
  unfold forUp at h2
  obtain ⟨s1, _, h2⟩ := bind_ok_inv h2
  unfold forUp at h2
  obtain ⟨s2, hs2, h2⟩ := bind_ok_inv h2
  obtain ⟨c, hc2, _⟩ := bind_ok_inv hs2
  have hc2 := (List.getElem?_eq_some_iff.1 (getAt_slot hc2).2).1
  rw [hc] at hc2
  simp at hc2

/-- An internal node (of degree 11) can only be split if its child is a leaf. -/
theorem splitChild_keeps {h h' : BStore κ ν} {a y : Nat} {i : Int} {self : BNode κ ν} (ho : HeapOk P h)
    (ha : h[a]? = some self) (hy : self.leaf = false → self.minDeg = 11 ∨ Leafy h y)
    (he : splitChild h a i y = .ok h') : Keeps P h h' := by
  have he0 := he
  unfold splitChild at he
  obtain ⟨self', hl, he⟩ := bind_ok_inv he
  have hl := load_inv hl
  rw [ha] at hl; cases hl
  obtain ⟨yn, hyn, he⟩ := bind_ok_inv he
  have hyn := load_inv hyn
  have hyo := ho y yn hyn
  obtain ⟨⟨zk, zv⟩, h1, he⟩ := bind_ok_inv he
  obtain ⟨zc, h2, he⟩ := bind_ok_inv he
  have hz : Paired P zk zv :=
    forUp_inv (I := Pr P) (fun j s s' hs hb => move_inv (f := (· + self.minDeg)) (g := id)
      (src := (yn.keys, yn.values)) hyo.slots hs hb) _ _ _ (zk, zv) Paired.blank h1
  have hblank : Kids h (List.replicate 12 none) := fun i c hc => by
    have := List.eq_of_mem_replicate (List.mem_of_getElem? hc)
    cases this
  have hzc : Ks h zc := by
    by_cases hyl : yn.leaf = true
    · rw [hyl] at h2
      cases h2
      exact ⟨hblank, by simp [blank, capacity]⟩
    · simp only [Bool.not_eq_true] at hyl
      rw [hyl] at h2
      simp only [Bool.not_false, if_true] at h2
      exact forUp_inv (I := Ks h) (fun j s s' hs hb => moveKid_inv (f := (· + self.minDeg)) (g := id)
        (hyo.kids hyl) hs hb) _ _ _ zc ⟨hblank, by simp⟩ h2
  have hyl : self.leaf = false → yn.leaf = true := by
    intro hs
    rcases hy hs with hd | ⟨n, hn, hl⟩
    · by_cases hyl : yn.leaf = true
      · exact hyl
      · exact (splitChild_internal ha hd hyn (by simpa using hyl) hyo.clen he0).elim
    · rw [hyn] at hn; cases hn; exact hl
  -- the new node
  have k1 := ho.push (node := (⟨yn.leaf, yn.minDeg, zk, zv, self.minDeg - 1, zc⟩ : BNode κ ν)) ⟨hz, hzc.2, fun _ => hzc.1⟩
  have hyn1 : (h ++ [(⟨yn.leaf, yn.minDeg, zk, zv, self.minDeg - 1, zc⟩ : BNode κ ν)])[y]? = some yn := by
    rw [List.getElem?_append_left (List.getElem?_eq_some_iff.1 hyn).1]; exact hyn
  have hyo1 := k1.1 y yn hyn1
  have k2 := k1.1.set (node' := { yn with n := self.minDeg - 1 }) hyn1 rfl ⟨hyo1.slots, hyo1.clen, hyo1.kids⟩
  have hzl : yn.leaf = true → Leafy ((h ++ [(⟨yn.leaf, yn.minDeg, zk, zv, self.minDeg - 1, zc⟩ : BNode κ ν)]).set y
      { yn with n := self.minDeg - 1 }) h.length := by
    intro hl
    refine k2.2.leafy ⟨(⟨yn.leaf, yn.minDeg, zk, zv, self.minDeg - 1, zc⟩ : BNode κ ν), ?_, hl⟩
    rw [List.getElem?_append_right (Nat.le_refl _), Nat.sub_self]; rfl
  obtain ⟨s2, hs2, he⟩ := bind_ok_inv he
  have hs2 := load_inv hs2
  have hso := k2.1 a s2 hs2
  have hsl : s2.leaf = self.leaf := by
    obtain ⟨n', hn', e⟩ := (k1.2.trans k2.2) a self ha
    have := hn'.symm.trans hs2
    cases this
    exact e
  obtain ⟨cs, hcs, he⟩ := bind_ok_inv he
  obtain ⟨cs2, hcs2, he⟩ := bind_ok_inv he
  obtain ⟨⟨ks, vs⟩, hks, he⟩ := bind_ok_inv he
  obtain ⟨k, hk, he⟩ := bind_ok_inv he
  obtain ⟨ks2, hks2, he⟩ := bind_ok_inv he
  obtain ⟨v, hv, he⟩ := bind_ok_inv he
  obtain ⟨vs2, hvs2, he⟩ := bind_ok_inv he
  have hp1 : Paired P ks vs :=
    forDown_inv (I := Pr P) (fun j s s' hs hb => shiftR2_inv hs hb) _ _ _ (ks, vs) hso.slots hks
  have hp2 : Paired P ks2 vs2 := hp1.setAt (hyo.slots.get hk hv) hks2 hvs2
  have hclen : cs2.length = 12 := by
    have : cs.length = 12 := forDown_inv (I := fun s : List (Option Nat) => s.length = 12)
      (fun j s s' hs hb => by rw [lengthR hb]; exact hs) _ _ _ cs hso.clen hcs
    obtain ⟨_, _, rfl⟩ := setAt_inv hcs2
    simp [this]
  have k3 := k2.1.set (node' := { s2 with keys := ks2, values := vs2, childs := cs2, n := s2.n + 1 }) hs2 rfl
    ⟨hp2, hclen, fun hf => by
      have hf : s2.leaf = false := hf
      have hc1 : Ks _ cs := forDown_inv (I := Ks _) (fun j s s' hs hb => shiftR_inv hs hb) _ _ _ cs
        ⟨hso.kids hf, hso.clen⟩ hcs
      refine (hc1.1.setAt ?_ hcs2).1
      intro b hb
      cases hb
      exact hzl (hyl (by rw [← hsl]; exact hf))⟩
  cases he
  exact Keeps.trans (Keeps.trans k1 k2) k3

theorem insertNonFull_keeps {key : κ} {value : ν} (hP : P key value) (d : Nat) : ∀ {h h' : BStore κ ν} {a : Nat},
    HeapOk P h → insertNonFull cmp key value d h a = .ok h' → Keeps P h h' := by
  induction d with
  | zero => intro h h' a _ he; cases he
  | succ d ih =>
    intro h h' a ho he
    unfold insertNonFull at he
    obtain ⟨self, hl, he⟩ := bind_ok_inv he
    have hl := load_inv hl
    have hn := ho a self hl
    split at he
    · exact insertLeaf_keeps ho hP he
    · next hleaf =>
      simp only [Bool.not_eq_true] at hleaf
      obtain ⟨i, hi, he⟩ := bind_ok_inv he
      split at he
      · cases he
      obtain ⟨c, hc, he⟩ := bind_ok_inv he
      obtain ⟨child, hch, he⟩ := bind_ok_inv he
      split at he
      · obtain ⟨y, hy, he⟩ := bind_ok_inv he
        obtain ⟨h1, h2, he⟩ := bind_ok_inv he
        obtain ⟨self2, _, he⟩ := bind_ok_inv he
        obtain ⟨k, _, he⟩ := bind_ok_inv he
        obtain ⟨c2, _, he⟩ := bind_ok_inv he
        obtain ⟨c3, _, he⟩ := bind_ok_inv he
        have hcy : c = some y := by
          cases c with
          | none => cases hy
          | some c => cases hy; rfl
        have k1 := splitChild_keeps ho hl (fun hf => .inr (hn.kids hf i y (by rw [← hcy]; exact index_inv hc))) h2
        exact Keeps.trans k1 (ih k1.1 he)
      · obtain ⟨c3, _, he⟩ := bind_ok_inv he
        exact ih ho he

/-! ### Removal -/

theorem addr_inv {c : Option Nat} {a : Nat} (h : addr c = .ok a) : c = some a := by
  cases c with
  | none => cases h
  | some c => cases h; rfl

theorem removeFromLeaf_keeps {h h' : BStore κ ν} {a : Nat} {idx : Int} (ho : HeapOk P h)
    (he : removeFromLeaf h a idx = .ok h') : Keeps P h h' := by
  unfold removeFromLeaf at he
  obtain ⟨self, hl, he⟩ := bind_ok_inv he
  have hl := load_inv hl
  obtain ⟨⟨ks, vs⟩, h1, he⟩ := bind_ok_inv he
  have hn := ho a self hl
  have hp : Paired P ks vs := forUp_inv (I := Pr P) (fun j s s' hs hb => pullL2_inv hs hb) _ _ _ (ks, vs) hn.slots h1
  cases he
  exact ho.set hl rfl ⟨hp, hn.clen, hn.kids⟩

/-- The heap after a change of one node, when another heap is the one the node was read from. -/
theorem Keeps.set {h h1 : BStore κ ν} (k : Keeps P h h1) {a : Nat} {node node' : BNode κ ν} (ha : h[a]? = some node)
    (hl : node'.leaf = node.leaf) (hn : NodeOk P h node') : Keeps P h (h1.set a node') := by
  obtain ⟨n1, hn1, e1⟩ := k.2 a node ha
  exact Keeps.trans k (k.1.set hn1 (hl.trans e1.symm) ⟨hn.slots, hn.clen, fun hf => k.2.kids (hn.kids hf)⟩)

theorem Keeps.rfl' {h : BStore κ ν} (ho : HeapOk P h) : Keeps P h h := ⟨ho, Ext.rfl' h⟩

theorem borrowFromPrev_keeps {h h' : BStore κ ν} {a : Nat} {idx : Int} {self : BNode κ ν} (ho : HeapOk P h)
    (ha : h[a]? = some self) (hi : self.leaf = false) (he : borrowFromPrev h a idx = .ok h') : Keeps P h h' := by
  unfold borrowFromPrev at he
  obtain ⟨self', hl, he⟩ := bind_ok_inv he
  have hl := load_inv hl
  rw [ha] at hl; cases hl
  have hn := ho a self ha
  obtain ⟨c, hc, he⟩ := bind_ok_inv he
  obtain ⟨s, hs, he⟩ := bind_ok_inv he
  obtain ⟨child, hch, he⟩ := bind_ok_inv he
  obtain ⟨⟨ks, vs⟩, h1, he⟩ := bind_ok_inv he
  obtain ⟨cs, h2, he⟩ := bind_ok_inv he
  obtain ⟨k, hk, he⟩ := bind_ok_inv he
  obtain ⟨ks2, h3, he⟩ := bind_ok_inv he
  obtain ⟨v, hv, he⟩ := bind_ok_inv he
  obtain ⟨vs2, h4, he⟩ := bind_ok_inv he
  obtain ⟨sibling, hsi, he⟩ := bind_ok_inv he
  obtain ⟨cs2, h5, he⟩ := bind_ok_inv he
  obtain ⟨k2, hk2, he⟩ := bind_ok_inv he
  obtain ⟨sk, h6, he⟩ := bind_ok_inv he
  obtain ⟨v2, hv2, he⟩ := bind_ok_inv he
  obtain ⟨sv, h7, he⟩ := bind_ok_inv he
  obtain ⟨ca, hca, he⟩ := bind_ok_inv he
  obtain ⟨sa, hsa, he⟩ := bind_ok_inv he
  cases addr_inv hca
  cases addr_inv hsa
  have hch := load_inv hch
  have hsi := load_inv hsi
  have hco := ho ca child hch
  have hso := ho sa sibling hsi
  obtain ⟨n, hn', hcl⟩ := (hn.kids hi).get hc ca rfl
  rw [hch] at hn'; cases hn'
  rw [hcl] at h2 h5
  cases h2; cases h5
  have hp1 : Paired P ks vs :=
    forDown_inv (I := Pr P) (fun j s s' hs hb => shiftR2_inv hs hb) _ _ _ (ks, vs) hco.slots h1
  have hp2 := hp1.setAt (hn.slots.get hk hv) h3 h4
  have hp3 := hn.slots.setAt (hso.slots.get hk2 hv2) h6 h7
  cases he
  exact Keeps.set (Keeps.set (Keeps.set (Keeps.rfl' ho) hch
    (node' := { child with keys := ks2, values := vs2, childs := child.childs, n := child.n + 1 }) (by rfl) ⟨hp2, hco.clen, hco.kids⟩) hsi
    (node' := { sibling with n := sibling.n - 1 }) (by rfl)
    ⟨hso.slots, hso.clen, hso.kids⟩) ha (node' := { self with keys := sk, values := sv }) (by rfl)
    ⟨hp3, hn.clen, hn.kids⟩

theorem borrowFromNext_keeps {h h' : BStore κ ν} {a : Nat} {idx : Int} {self : BNode κ ν} (ho : HeapOk P h)
    (ha : h[a]? = some self) (hi : self.leaf = false) (he : borrowFromNext h a idx = .ok h') : Keeps P h h' := by
  unfold borrowFromNext at he
  obtain ⟨self', hl, he⟩ := bind_ok_inv he
  have hl := load_inv hl
  rw [ha] at hl; cases hl
  have hn := ho a self ha
  obtain ⟨c, hc, he⟩ := bind_ok_inv he
  obtain ⟨s, hs, he⟩ := bind_ok_inv he
  obtain ⟨child, hch, he⟩ := bind_ok_inv he
  obtain ⟨k, hk, he⟩ := bind_ok_inv he
  obtain ⟨ks2, h3, he⟩ := bind_ok_inv he
  obtain ⟨v, hv, he⟩ := bind_ok_inv he
  obtain ⟨vs2, h4, he⟩ := bind_ok_inv he
  obtain ⟨sibling, hsi, he⟩ := bind_ok_inv he
  obtain ⟨cs, h2, he⟩ := bind_ok_inv he
  obtain ⟨k2, hk2, he⟩ := bind_ok_inv he
  obtain ⟨sk, h6, he⟩ := bind_ok_inv he
  obtain ⟨v2, hv2, he⟩ := bind_ok_inv he
  obtain ⟨sv, h7, he⟩ := bind_ok_inv he
  obtain ⟨⟨bk, bv⟩, h1, he⟩ := bind_ok_inv he
  obtain ⟨bc, h5, he⟩ := bind_ok_inv he
  obtain ⟨ca, hca, he⟩ := bind_ok_inv he
  obtain ⟨sa, hsa, he⟩ := bind_ok_inv he
  cases addr_inv hca
  cases addr_inv hsa
  have hch := load_inv hch
  have hsi := load_inv hsi
  have hco := ho ca child hch
  have hso := ho sa sibling hsi
  obtain ⟨n, hn', hcl⟩ := (hn.kids hi).get hc ca rfl
  rw [hch] at hn'; cases hn'
  obtain ⟨n, hn', hsl⟩ := (hn.kids hi).get hs sa rfl
  rw [hsi] at hn'; cases hn'
  rw [hcl] at h2
  rw [hsl] at h5
  cases h2; cases h5
  have hp1 : Paired P bk bv :=
    forUp_inv (I := Pr P) (fun j s s' hs hb => shiftL2_inv hs hb) _ _ _ (bk, bv) hso.slots h1
  have hp2 := hco.slots.setAt (hn.slots.get hk hv) h3 h4
  have hp3 := hn.slots.setAt (hso.slots.get hk2 hv2) h6 h7
  cases he
  exact Keeps.set (Keeps.set (Keeps.set (Keeps.rfl' ho) hch
    (node' := { child with keys := ks2, values := vs2, childs := child.childs, n := child.n + 1 }) (by rfl) ⟨hp2, hco.clen, hco.kids⟩) hsi
    (node' := { sibling with keys := bk, values := bv, childs := sibling.childs, n := sibling.n - 1 }) (by rfl)
    ⟨hp1, hso.clen, hso.kids⟩) ha (node' := { self with keys := sk, values := sv }) (by rfl)
    ⟨hp3, hn.clen, hn.kids⟩

theorem merge_keeps {h h' : BStore κ ν} {a : Nat} {idx : Int} {self : BNode κ ν} (ho : HeapOk P h)
    (ha : h[a]? = some self) (hi : self.leaf = false) (he : merge h a idx = .ok h') : Keeps P h h' := by
  unfold merge at he
  obtain ⟨self', hl, he⟩ := bind_ok_inv he
  have hl := load_inv hl
  rw [ha] at hl; cases hl
  have hn := ho a self ha
  obtain ⟨c, hc, he⟩ := bind_ok_inv he
  obtain ⟨s, hs, he⟩ := bind_ok_inv he
  obtain ⟨child, hch, he⟩ := bind_ok_inv he
  obtain ⟨k, hk, he⟩ := bind_ok_inv he
  obtain ⟨ks1, h3, he⟩ := bind_ok_inv he
  obtain ⟨v, hv, he⟩ := bind_ok_inv he
  obtain ⟨vs1, h4, he⟩ := bind_ok_inv he
  obtain ⟨sibling, hsi, he⟩ := bind_ok_inv he
  obtain ⟨⟨ks2, vs2⟩, h5, he⟩ := bind_ok_inv he
  obtain ⟨cs, h2, he⟩ := bind_ok_inv he
  obtain ⟨⟨sk, sv⟩, h6, he⟩ := bind_ok_inv he
  obtain ⟨sc, h7, he⟩ := bind_ok_inv he
  obtain ⟨ca, hca, he⟩ := bind_ok_inv he
  cases addr_inv hca
  have hch := load_inv hch
  have hco := ho ca child hch
  obtain ⟨n, hn', hcl⟩ := (hn.kids hi).get hc ca rfl
  rw [hch] at hn'; cases hn'
  have hso : NodeOk P h sibling := by
    cases s with
    | none => cases hsi
    | some s => exact ho s sibling (load_inv hsi)
  rw [hcl] at h2
  cases h2
  have hp1 := hco.slots.setAt (hn.slots.get hk hv) h3 h4
  have hp2 : Paired P ks2 vs2 :=
    forUp_inv (I := Pr P) (fun j s s' hs hb => move_inv (f := id) (g := (· + self.minDeg))
      (src := (sibling.keys, sibling.values)) hso.slots hs hb) _ _ _ (ks2, vs2) hp1 h5
  have hp3 : Paired P sk sv :=
    forUp_inv (I := Pr P) (fun j s s' hs hb => shiftL2_inv hs hb) _ _ _ (sk, sv) hn.slots h6
  have hk3 : Ks h sc :=
    forUp_inv (I := Ks h) (fun j s s' hs hb => shiftL_inv hs hb) _ _ _ sc ⟨hn.kids hi, hn.clen⟩ h7
  cases he
  exact Keeps.set (Keeps.set (Keeps.rfl' ho) hch
    (node' := { child with keys := ks2, values := vs2, childs := child.childs, n := child.n + (sibling.n + 1) }) (by rfl) ⟨hp2, hco.clen, hco.kids⟩) ha
    (node' := { self with keys := sk, values := sv, childs := sc, n := self.n - 1 }) (by rfl) ⟨hp3, hk3.2, fun _ => hk3.1⟩

theorem fill_keeps {h h' : BStore κ ν} {a : Nat} {idx : Int} {self : BNode κ ν} (ho : HeapOk P h)
    (ha : h[a]? = some self) (hi : self.leaf = false) (he : fill h a idx = .ok h') : Keeps P h h' := by
  unfold fill at he
  obtain ⟨self', hl, he⟩ := bind_ok_inv he
  have hl := load_inv hl
  rw [ha] at hl; cases hl
  obtain ⟨prev, _, he⟩ := bind_ok_inv he
  split at he
  · exact borrowFromPrev_keeps ho ha hi he
  obtain ⟨next, _, he⟩ := bind_ok_inv he
  split at he
  · exact borrowFromNext_keeps ho ha hi he
  split at he
  · exact merge_keeps ho ha hi he
  · exact merge_keeps ho ha hi he

theorem removeFromNonLeaf_keeps {remove : BStore κ ν → Nat → κ → Go (BStore κ ν)}
    (ih : ∀ {h h' : BStore κ ν} {a : Nat} {k : κ}, HeapOk P h → remove h a k = .ok h' → Keeps P h h')
    {h h' : BStore κ ν} {a : Nat} {idx : Int} {self : BNode κ ν} (ho : HeapOk P h)
    (ha : h[a]? = some self) (hi : self.leaf = false) (he : removeFromNonLeaf remove h a idx = .ok h') : Keeps P h h' := by
  unfold removeFromNonLeaf at he
  obtain ⟨self', hl, he⟩ := bind_ok_inv he
  have hl := load_inv hl
  rw [ha] at hl; cases hl
  have hn := ho a self ha
  obtain ⟨key, _, he⟩ := bind_ok_inv he
  obtain ⟨n1, _, he⟩ := bind_ok_inv he
  split at he
  · obtain ⟨p, _, he⟩ := bind_ok_inv he
    obtain ⟨pred, hp, he⟩ := bind_ok_inv he
    obtain ⟨k, hk, he⟩ := bind_ok_inv he
    obtain ⟨ks, h1, he⟩ := bind_ok_inv he
    obtain ⟨v, hv, he⟩ := bind_ok_inv he
    obtain ⟨vs, h2, he⟩ := bind_ok_inv he
    obtain ⟨c, _, he⟩ := bind_ok_inv he
    obtain ⟨ca, _, he⟩ := bind_ok_inv he
    obtain ⟨pk, _, he⟩ := bind_ok_inv he
    have hpo := ho p pred (load_inv hp)
    have k1 := ho.set (node' := { self with keys := ks, values := vs }) ha rfl
      ⟨hn.slots.setAt (hpo.slots.get hk hv) h1 h2, hn.clen, hn.kids⟩
    exact Keeps.trans k1 (ih k1.1 he)
  obtain ⟨n2, _, he⟩ := bind_ok_inv he
  split at he
  · obtain ⟨p, _, he⟩ := bind_ok_inv he
    obtain ⟨pred, hp, he⟩ := bind_ok_inv he
    obtain ⟨k, hk, he⟩ := bind_ok_inv he
    obtain ⟨ks, h1, he⟩ := bind_ok_inv he
    obtain ⟨v, hv, he⟩ := bind_ok_inv he
    obtain ⟨vs, h2, he⟩ := bind_ok_inv he
    obtain ⟨c, _, he⟩ := bind_ok_inv he
    obtain ⟨ca, _, he⟩ := bind_ok_inv he
    obtain ⟨pk, _, he⟩ := bind_ok_inv he
    have hpo := ho p pred (load_inv hp)
    have k1 := ho.set (node' := { self with keys := ks, values := vs }) ha rfl
      ⟨hn.slots.setAt (hpo.slots.get hk hv) h1 h2, hn.clen, hn.kids⟩
    exact Keeps.trans k1 (ih k1.1 he)
  · obtain ⟨h1, hm, he⟩ := bind_ok_inv he
    obtain ⟨s1, _, he⟩ := bind_ok_inv he
    obtain ⟨c, _, he⟩ := bind_ok_inv he
    obtain ⟨ca, _, he⟩ := bind_ok_inv he
    obtain ⟨pk, _, he⟩ := bind_ok_inv he
    have k1 := merge_keeps ho ha hi hm
    exact Keeps.trans k1 (ih k1.1 he)

theorem removeNode_keeps (d : Nat) : ∀ {h h' : BStore κ ν} {a : Nat} {key : κ},
    HeapOk P h → removeNode cmp d h a key = .ok h' → Keeps P h h' := by
  induction d with
  | zero => intro h h' a key _ he; cases he
  | succ d ih =>
    intro h h' a key ho he
    unfold removeNode at he
    obtain ⟨self, hl, he⟩ := bind_ok_inv he
    have hl := load_inv hl
    obtain ⟨i, _, he⟩ := bind_ok_inv he
    obtain ⟨present, _, he⟩ := bind_ok_inv he
    split at he
    · split at he
      · exact removeFromLeaf_keeps ho he
      · next hi => exact removeFromNonLeaf_keeps ih ho hl (by simpa using hi) he
    split at he
    · cases he; exact Keeps.rfl' ho
    next hi =>
    obtain ⟨n, _, he⟩ := bind_ok_inv he
    obtain ⟨h1, hf, he⟩ := bind_ok_inv he
    have k1 : Keeps P h h1 := by
      split at hf
      · exact fill_keeps ho hl (by simpa using hi) hf
      · cases hf; exact Keeps.rfl' ho
    obtain ⟨s1, _, he⟩ := bind_ok_inv he
    split at he
    · obtain ⟨c, _, he⟩ := bind_ok_inv he
      obtain ⟨ca, _, he⟩ := bind_ok_inv he
      exact Keeps.trans k1 (ih k1.1 he)
    · obtain ⟨c, _, he⟩ := bind_ok_inv he
      obtain ⟨ca, _, he⟩ := bind_ok_inv he
      exact Keeps.trans k1 (ih k1.1 he)

/-! ### Lookups -/

/-- What `search` finds. -/
theorem search_slot {h : BStore κ ν} {key : κ} (d : Nat) : ∀ {a b i : Nat}, search cmp h key d a = .ok (some (b, i)) →
    ∃ node k, h[b]? = some node ∧ node.keys[i]? = some (some k) ∧ cmp key k = .eq := by
  induction d with
  | zero => intro a b i he; cases he
  | succ d ih =>
    intro a b i he
    unfold search at he
    obtain ⟨self, hl, he⟩ := bind_ok_inv he
    have hl := load_inv hl
    simp only at he
    split at he
    · next k hk =>
      split at he
      · next hc => cases he; exact ⟨self, k, hl, hk, hc⟩
      split at he
      · cases he
      obtain ⟨c, _, he⟩ := bind_ok_inv he
      cases c with
      | none => cases he
      | some c => exact ih he
    · split at he
      · cases he
      obtain ⟨c, _, he⟩ := bind_ok_inv he
      cases c with
      | none => cases he
      | some c => exact ih he

theorem searchIdx_le (key : κ) (ks : List (Option κ)) : searchIdx cmp key ks ≤ ks.length := by
  induction ks with
  | nil => simp [searchIdx]
  | cons k ks ih =>
    cases k with
    | none => simp [searchIdx]
    | some k => simp only [searchIdx]; split <;> simp; omega

theorem getAt_lt {α : Type} {l : List α} {i : Nat} (h : i < l.length) : getAt l (i : Int) = .ok l[i] := by
  unfold getAt
  rw [if_neg (by omega)]
  simp [index, h]

/-- Lookups in a leaf end. -/
theorem search_leaf {h : BStore κ ν} {key : κ} {a : Nat} (d : Nat) (hl : Leafy h a) :
    ∃ r, search cmp h key (d + 1) a = .ok r := by
  obtain ⟨n, hn, hl⟩ := hl
  unfold search
  rw [load_of hn]
  simp only [Go.bind_ok, hl]
  split
  · split
    · exact ⟨_, rfl⟩
    · exact ⟨_, rfl⟩
  · exact ⟨_, rfl⟩

theorem search_total {h : BStore κ ν} (ho : HeapOk P h) {key : κ} {a : Nat} (ha : a < h.length) (d : Nat) :
    ∃ r, search cmp h key (d + 2) a = .ok r := by
  have hn : h[a]? = some h[a] := List.getElem?_eq_getElem ha
  by_cases hl : h[a].leaf = true
  · exact search_leaf _ ⟨_, hn, hl⟩
  simp only [Bool.not_eq_true] at hl
  have hno := ho a _ hn
  have hi := searchIdx_le (cmp := cmp) key h[a].keys
  rw [hno.slots.klen] at hi
  have hlt : searchIdx cmp key h[a].keys < h[a].childs.length := by rw [hno.clen]; omega
  have hg := getAt_lt (l := h[a].childs) hlt
  have hgo : ∀ c, h[a].childs[searchIdx cmp key h[a].keys]'hlt = some c → Leafy h c := fun c hc =>
    hno.kids hl _ c (by rw [List.getElem?_eq_getElem hlt, hc])
  have hrest : ∃ r, (do
      let child ← getAt h[a].childs (searchIdx cmp key h[a].keys : Int)
      match child with
      | some c => search cmp h key (d + 1) c
      | none => .ok none) = Except.ok (ε := Panic) r := by
    rw [hg]
    simp only [Go.bind_ok]
    cases hc : h[a].childs[searchIdx cmp key h[a].keys]'hlt with
    | none => exact ⟨_, rfl⟩
    | some c => exact search_leaf d (hgo c hc)
  unfold search
  rw [load_of hn]
  simp only [Go.bind_ok, hl]
  split
  · split
    · exact ⟨_, rfl⟩
    · exact hrest
  · exact hrest

/-! ### Iteration -/

/-- A traversal returns, and gives elements of a kind, if its parts do. -/
theorem walk_all {β : Type} {Q : β → Prop} (g : Growth) {leaf : Bool} {childs : List (Option Nat)}
    {sub : Nat → Go (Vec β)} {emit : Nat → Go (Option β)} {N : Nat} (hN : N ≤ childs.length)
    (hsub : ∀ (i c : Nat), leaf = false → childs[i]? = some (some c) → ∃ w, sub c = .ok w ∧ ∀ b ∈ w.data, Q b)
    (hemit : ∀ i, i < N → ∃ e, emit i = .ok e ∧ ∀ b, e = some b → Q b) :
    ∀ (count i : Nat) (vec : Vec β), i + count ≤ N → (∀ b ∈ vec.data, Q b) →
      ∃ w, walk g leaf childs sub emit count i vec = .ok w ∧ ∀ b ∈ w.data, Q b := by
  intro count
  induction count with
  | zero => intro i vec _ hv; exact ⟨vec, rfl, hv⟩
  | succ count ih =>
    intro i vec hi hv
    have hil : i < childs.length := by omega
    have h1 : ∃ w, (if !leaf then do
        let c ← index childs i
        match c with
        | some c => do
          let childsVec ← sub c
          .ok (vec.append g childsVec).1
        | none => .ok vec
      else .ok vec) = .ok w ∧ ∀ b ∈ w.data, Q b := by
      cases leaf with
      | true => exact ⟨vec, rfl, hv⟩
      | false =>
        have hix : childs[i]? = some childs[i] := List.getElem?_eq_getElem hil
        cases hc : childs[i] with
        | none =>
          rw [hc] at hix
          exact ⟨vec, by simp [index, hix], hv⟩
        | some c =>
          rw [hc] at hix
          obtain ⟨w, hw, hq⟩ := hsub i c rfl hix
          refine ⟨(vec.append g w).1, by simp [index, hix, hw], ?_⟩
          intro b hb
          simp only [Vec.append, Vec.goAppend, List.mem_append] at hb
          rcases hb with hb | hb
          · exact hv b hb
          · exact hq b hb
    obtain ⟨w1, e1, q1⟩ := h1
    obtain ⟨e, he, hq⟩ := hemit i (by omega)
    rw [walk]
    erw [e1]
    simp only [Go.bind_ok, he]
    cases e with
    | none => exact ih (i + 1) w1 (by omega) q1
    | some b =>
      refine ih (i + 1) (w1.push g b) (by omega) ?_
      intro b' hb
      simp only [Vec.push, Vec.goAppend, List.mem_append, List.mem_singleton] at hb
      rcases hb with hb | rfl
      · exact q1 b' hb
      · exact hq _ rfl

theorem NodeOk.emitPair {h : BStore κ ν} {node : BNode κ ν} (hn : NodeOk P h node) {i : Nat} (hi : i < 11) :
    ∃ e, emitPair node.keys node.values i = .ok e ∧ ∀ b, e = some b → P b.key b.value := by
  have hk : node.keys[i]? = some (node.keys[i]'(by rw [hn.slots.klen]; exact hi)) := List.getElem?_eq_getElem _
  have hv : node.values[i]? = some (node.values[i]'(by rw [hn.slots.vlen]; exact hi)) := List.getElem?_eq_getElem _
  have hs := hn.slots.slot i _ _ hk hv
  revert hk hv hs
  generalize node.keys[i]'(by rw [hn.slots.klen]; exact hi) = k
  generalize node.values[i]'(by rw [hn.slots.vlen]; exact hi) = v
  intro hk hv hs
  cases k with
  | none => exact ⟨none, by simp [BTree.emitPair, index, hk], by simp⟩
  | some k =>
    cases v with
    | none => exact hs.elim
    | some v =>
      refine ⟨some ⟨k, v⟩, by simp [BTree.emitPair, index, hk, hv], ?_⟩
      intro b hb; cases hb; exact hs

theorem NodeOk.emitKey {h : BStore κ ν} {node : BNode κ ν} (hn : NodeOk P h node) {i : Nat} (hi : i < 11) :
    ∃ e, Gost.index node.keys i = .ok e ∧ ∀ b, e = some b → ∃ v, P b v := by
  have hk : node.keys[i]? = some (node.keys[i]'(by rw [hn.slots.klen]; exact hi)) := List.getElem?_eq_getElem _
  have hv : node.values[i]? = some (node.values[i]'(by rw [hn.slots.vlen]; exact hi)) := List.getElem?_eq_getElem _
  have hs := hn.slots.slot i _ _ hk hv
  refine ⟨_, by rw [Gost.index, hk], ?_⟩
  intro b hb
  rw [hb] at hs
  revert hs
  cases node.values[i]'(by rw [hn.slots.vlen]; exact hi) with
  | none => intro hs; exact hs.elim
  | some v => intro hs; exact ⟨v, hs⟩

theorem NodeOk.emitValue {h : BStore κ ν} {node : BNode κ ν} (hn : NodeOk P h node) {i : Nat} (hi : i < 11) :
    ∃ e, Gost.index node.values i = .ok e ∧ ∀ b, e = some b → ∃ k, P k b := by
  have hk : node.keys[i]? = some (node.keys[i]'(by rw [hn.slots.klen]; exact hi)) := List.getElem?_eq_getElem _
  have hv : node.values[i]? = some (node.values[i]'(by rw [hn.slots.vlen]; exact hi)) := List.getElem?_eq_getElem _
  have hs := hn.slots.slot i _ _ hk hv
  refine ⟨_, by rw [Gost.index, hv], ?_⟩
  intro b hb
  rw [hb] at hs
  revert hs
  cases node.keys[i]'(by rw [hn.slots.klen]; exact hi) with
  | none => intro hs; exact hs.elim
  | some k => intro hs; exact ⟨k, hs⟩

theorem no_data {β : Type} {Q : β → Prop} : ∀ b ∈ (Vec.new : Vec β).data, Q b := by
  intro b hb; cases hb

/-- The traversals of a leaf, then of any node. -/
theorem vecs_step {h : BStore κ ν} (g : Growth) (d : Nat) {a : Nat} (ha : a < h.length) (hno : NodeOk P h h[a])
    (sub : h[a].leaf = false → ∀ c, Leafy h c →
      (∃ w, toVec g h d c = .ok w ∧ ∀ b ∈ w.data, P b.key b.value) ∧
      (∃ w, toKeyVec g h d c = .ok w ∧ ∀ b ∈ w.data, ∃ v, P b v) ∧
      (∃ w, toValueVec g h d c = .ok w ∧ ∀ b ∈ w.data, ∃ k, P k b)) :
    (∃ w, toVec g h (d + 1) a = .ok w ∧ ∀ b ∈ w.data, P b.key b.value) ∧
    (∃ w, toKeyVec g h (d + 1) a = .ok w ∧ ∀ b ∈ w.data, ∃ v, P b v) ∧
    (∃ w, toValueVec g h (d + 1) a = .ok w ∧ ∀ b ∈ w.data, ∃ k, P k b) := by
  have hn : h[a]? = some h[a] := List.getElem?_eq_getElem ha
  have hN : 11 ≤ h[a].childs.length := by rw [hno.clen]; omega
  refine ⟨?_, ?_, ?_⟩
  · simp only [toVec, load_of hn, Go.bind_ok, toVecLoop_walk]
    exact walk_all g hN (fun i c hl hc => (sub hl c (hno.kids hl i c hc)).1) (fun i hi => hno.emitPair hi) _ 0 _
      (by rw [hno.slots.klen]; omega) no_data
  · simp only [toKeyVec, load_of hn, Go.bind_ok, toKeyVecLoop_walk]
    refine walk_all g hN (fun i c hl hc => (sub hl c (hno.kids hl i c hc)).2.1) (fun i hi => hno.emitKey hi) _ 0 _
      ?_ no_data
    rw [hno.slots.klen]
    split <;> omega
  · simp only [toValueVec, load_of hn, Go.bind_ok, toValueVecLoop_walk]
    exact walk_all g hN (fun i c hl hc => (sub hl c (hno.kids hl i c hc)).2.2) (fun i hi => hno.emitValue hi) _ 0 _
      (by rw [hno.slots.klen]; omega) no_data

theorem vecs_root {h : BStore κ ν} (g : Growth) (d : Nat) {a : Nat} (ha : a < h.length) (hno : NodeOk P h h[a])
    (ho : ∀ (c : Nat) n, h[c]? = some n → n.leaf = true → NodeOk P h n) :
    (∃ w, toVec g h (d + 2) a = .ok w ∧ ∀ b ∈ w.data, P b.key b.value) ∧
    (∃ w, toKeyVec g h (d + 2) a = .ok w ∧ ∀ b ∈ w.data, ∃ v, P b v) ∧
    (∃ w, toValueVec g h (d + 2) a = .ok w ∧ ∀ b ∈ w.data, ∃ k, P k b) := by
  refine vecs_step g (d + 1) ha hno ?_
  intro _ c hc
  obtain ⟨n, hn, hl⟩ := hc
  have hlt := (List.getElem?_eq_some_iff.1 hn).1
  have hcn : h[c] = n := (List.getElem?_eq_some_iff.1 hn).2
  refine vecs_step g d hlt (by rw [hcn]; exact ho c n hn hl) ?_
  intro hf
  rw [hcn, hl] at hf
  cases hf
theorem vecs_total {h : BStore κ ν} (ho : HeapOk P h) (g : Growth) (d : Nat) {a : Nat} (ha : a < h.length) :
    (∃ w, toVec g h (d + 2) a = .ok w ∧ ∀ b ∈ w.data, P b.key b.value) ∧
    (∃ w, toKeyVec g h (d + 2) a = .ok w ∧ ∀ b ∈ w.data, ∃ v, P b v) ∧
    (∃ w, toValueVec g h (d + 2) a = .ok w ∧ ∀ b ∈ w.data, ∃ k, P k b) :=
  vecs_root g d ha (ho a _ (List.getElem?_eq_getElem ha)) fun c n hn _ => ho c n hn

end Gost.BTree
