import Verif.Lemmas.BTreeInsert
/-
Lookups, Insert and Remove on the shapes of `BTree.Tree`.
-/
namespace Gost.BTree
open Spec
variable {κ ν : Type} {cmp : κ → κ → Ordering}

/-- Any insertion that fits. -/
theorem Good.insert (hc : LawfulCmp cmp) {h : BStore κ ν} {m : BMap} {l : List (κ × ν)} {fp : List Nat}
    (hg : Good cmp h m l fp) {key : κ} (hf : Fits cmp l key) (value : ν) :
    ∃ h' m' fp', BMap.insert cmp h m key value = .ok (h', m', ⟨OMap.lookup cmp l key⟩) ∧
      Good cmp h' m' (OMap.insert cmp l key value) fp' ∧ Frame h fp h' fp' := by
  cases hm : OMap.mem cmp l key with
  | true =>
    obtain ⟨h', h1, h2, h3⟩ := hg.insert_found hc hm value
    exact ⟨h', m, fp, h1, h2, h3⟩
  | false =>
    rw [OMap.lookup_eq_none.2 hm]
    exact hg.insert_fresh hc hm (by rcases hf with hf | hf; · rw [hm] at hf; cases hf
                                    · exact hf) value

theorem Good.get (hc : LawfulCmp cmp) {h : BStore κ ν} {m : BMap} {l : List (κ × ν)} {fp : List Nat}
    (hg : Good cmp h m l fp) (key : κ) : BMap.get cmp h m key = .ok ⟨OMap.lookup cmp l key⟩ := by
  obtain ⟨root, len⟩ := m
  obtain ⟨asc, hlen, tree⟩ := hg
  simp only at hlen tree
  cases root with
  | none => cases tree; rfl
  | some a =>
    rcases tree.search hc asc key with ⟨A, b, B, p, node, i, e, hA, hb, hB, hs, hp, hn, hv, ht⟩ |
      ⟨A, B, e, hA, hB, hs⟩
    · have hl : OMap.lookup cmp l key = some b.2 := by
        rw [e]; exact lookup_found hc (by rw [← e]; exact asc) hb
      simp only [BMap.get, hs, Go.bind_ok, load_of hn, index, hv, deref_some, hl]
      rfl
    · simp only [BMap.get, hs, Go.bind_ok]
      rw [e, lookup_fresh hA hB]; rfl

theorem Good.containsKey (hc : LawfulCmp cmp) {h : BStore κ ν} {m : BMap} {l : List (κ × ν)} {fp : List Nat}
    (hg : Good cmp h m l fp) (key : κ) : BMap.containsKey cmp h m key = .ok (OMap.mem cmp l key) := by
  obtain ⟨root, len⟩ := m
  obtain ⟨asc, hlen, tree⟩ := hg
  simp only at hlen tree
  cases root with
  | none => cases tree; rfl
  | some a =>
    rcases tree.search hc asc key with ⟨A, b, B, p, node, i, e, hA, hb, hB, hs, hp, hn, hv, ht⟩ |
      ⟨A, B, e, hA, hB, hs⟩
    · simp only [BMap.containsKey, hs, Go.bind_ok]
      rw [e, mem_found hb]; rfl
    · simp only [BMap.containsKey, hs, Go.bind_ok]
      rw [e, mem_fresh hA hB]; rfl

/-! ### Remove from a leaf -/

theorem findKeyLoop_eq {A : List (κ × ν)} {key : κ} (hA : ∀ e ∈ A, cmp e.1 key = .lt) (rest : List (Option κ))
    (n i : Int) (hn : n = i + A.length ∨
      (i + A.length < n ∧ ∃ k t, rest = some k :: t ∧ cmp k key ≠ .lt)) :
    findKeyLoop cmp key n (kS A ++ rest) i = .ok (i + A.length) := by
  induction A generalizing i with
  | nil =>
    rw [findKeyLoop.eq_def]
    simp only
    rcases hn with hn | ⟨hn, k, t, rfl, hk⟩
    · simp at hn; rw [if_neg (by omega)]; simp
    · simp at hn; rw [if_pos hn]; simp [hk]
  | cons a A ih =>
    rw [findKeyLoop.eq_def]
    simp only
    rw [if_pos (by rcases hn with hn | ⟨hn, _⟩ <;> simp at hn <;> omega)]
    have ha := hA a (by simp)
    simp only [kS_cons, List.cons_append, ha, if_true]
    rw [ih (fun e he => hA e (by simp [he])) (i + 1)]
    · simp; omega
    · rcases hn with hn | ⟨hn, h⟩
      · left; simp at hn; omega
      · right; exact ⟨by simp at hn; omega, h⟩

theorem forUp_pullL2 {α β : Type} (A B : List (Option α)) (x : Option α) (C : List (Option α))
    (A' B' : List (Option β)) (y : Option β) (C' : List (Option β)) (j : Int) (hj : j = A.length + 1)
    (hA : A'.length = A.length) (hB : B'.length = B.length) :
    forUp pullL2 B.length j (A ++ x :: (B ++ C), A' ++ y :: (B' ++ C')) =
      .ok (A ++ B ++ (if B = [] then x else none) :: C, A' ++ B' ++ (if B = [] then y else none) :: C') := by
  induction B generalizing A x A' y B' j with
  | nil =>
    cases B' with
    | nil => simp [forUp]
    | cons _ _ => simp at hB
  | cons b B ih =>
    cases B' with
    | nil => simp at hB
    | cons b' B' =>
      simp at hB
      simp only [List.length_cons, forUp]
      have e1 : A ++ x :: (b :: B ++ C) = (A ++ [x]) ++ b :: (B ++ C) := by simp
      have e2 : A' ++ y :: (b' :: B' ++ C') = (A' ++ [y]) ++ b' :: (B' ++ C') := by simp
      have s1 : pullL2 j (A ++ x :: (b :: B ++ C), A' ++ y :: (b' :: B' ++ C')) =
          .ok ((A ++ [b]) ++ none :: (B ++ C), (A' ++ [b']) ++ none :: (B' ++ C')) := by
        unfold pullL2
        simp only
        have g1 : getAt (A ++ x :: (b :: B ++ C)) j = .ok b := by
          rw [e1]; exact getAt_mid _ _ _ _ (by simp; omega)
        have g2 : getAt (A' ++ y :: (b' :: B' ++ C')) j = .ok b' := by
          rw [e2]; exact getAt_mid _ _ _ _ (by simp; omega)
        rw [g1, Go.bind_ok, setAt_mid A x b _ (j - 1) (by omega), Go.bind_ok]
        have e3 : A ++ b :: (b :: B ++ C) = (A ++ [b]) ++ b :: (B ++ C) := by simp
        have e4 : A' ++ b' :: (b' :: B' ++ C') = (A' ++ [b']) ++ b' :: (B' ++ C') := by simp
        rw [e3, setAt_mid (A ++ [b]) b none _ j (by simp; omega), Go.bind_ok, g2, Go.bind_ok,
          setAt_mid A' y b' _ (j - 1) (by omega), Go.bind_ok, e4,
          setAt_mid (A' ++ [b']) b' none _ j (by simp; omega), Go.bind_ok]
      rw [s1, Go.bind_ok, ih (A ++ [b]) none (A' ++ [b']) B' none (j + 1) (by simp; omega) (by simp [hA]) hB]
      simp

/-- Remove in a leaf that does not have the key does nothing. -/
theorem removeNode_fresh (hc : LawfulCmp cmp) {h : BStore κ ν} {a d : Nat} {A B : List (κ × ν)} {key : κ}
    (hn : LeafAt h a (A ++ B)) (hA : ∀ e ∈ A, cmp key e.1 = .gt) (hB : ∀ e ∈ B, cmp key e.1 = .lt) :
    removeNode cmp (d + 1) h a key = .ok h := by
  obtain ⟨_, cs, hn⟩ := hn
  have hA' : ∀ e ∈ A, cmp e.1 key = .lt := fun e he => (hc.lt_iff _ _).2 (hA e he)
  rw [removeNode, load_of hn, Go.bind_ok]
  simp only [findKey, kS_append, List.append_assoc]
  rw [findKeyLoop_eq hA']
  · simp only [Go.bind_ok, Int.zero_add]
    cases B with
    | nil => simp
    | cons b B =>
      have hb := hB b (by simp)
      have hb' : cmp b.1 key = .gt := (hc.gt_iff _ _).2 hb
      rw [if_pos (by simp; omega)]
      have := getAt_mid (kS A) (some b.1) (kS B ++ List.replicate (11 - (A ++ b :: B).length) none)
        (A.length : Int) (by simp)
      simp only [kS_cons, List.cons_append, this, Go.bind_ok, hb']
      simp
  · cases B with
    | nil => left; simp
    | cons b B =>
      have hb' : cmp b.1 key = .gt := (hc.gt_iff _ _).2 (hB b (by simp))
      right
      exact ⟨by simp; omega, b.1, _, rfl, by rw [hb']; decide⟩

/-- Remove in a leaf that has the key. -/
theorem removeNode_found (hc : LawfulCmp cmp) {h : BStore κ ν} {a d : Nat} {A B : List (κ × ν)} {b : κ × ν}
    {key : κ} {cs : List (Option Nat)} {t : List (Option κ)} {u : List (Option ν)} {mind : Int}
    (hn : h[a]? = some ⟨true, mind, kS (A ++ b :: B) ++ t, vS (A ++ b :: B) ++ u, (A ++ b :: B).length, cs⟩)
    (hA : ∀ e ∈ A, cmp key e.1 = .gt) (hb : cmp key b.1 = .eq) :
    removeNode cmp (d + 1) h a key = .ok (h.set a ⟨true, mind,
      kS (A ++ B) ++ (if B = [] then some b.1 else none) :: t,
      vS (A ++ B) ++ (if B = [] then some b.2 else none) :: u, ((A ++ B).length : Nat), cs⟩) := by
  have hA' : ∀ e ∈ A, cmp e.1 key = .lt := fun e he => (hc.lt_iff _ _).2 (hA e he)
  have hb' : cmp b.1 key = .eq := (hc.eq_comm _ _).2 hb
  rw [removeNode, load_of hn, Go.bind_ok]
  simp only [findKey, kS_append, List.append_assoc]
  rw [findKeyLoop_eq hA']
  · simp only [Go.bind_ok, Int.zero_add]
    rw [if_pos (by simp; omega)]
    have := getAt_mid (kS A) (some b.1) (kS B ++ t) (A.length : Int) (by simp)
    simp only [kS_cons, List.cons_append, this, Go.bind_ok, hb', decide_true, if_true]
    have hp := forUp_pullL2 (kS A) (kS B) (some b.1) t (vS A) (vS B) (some b.2) u (A.length + 1) (by simp)
      (by simp) (by simp)
    have hcnt : ((((A ++ b :: B).length : Nat) : Int) - ((A.length : Int) + 1)).toNat = (kS B).length := by
      simp; omega
    have hBe : (kS B = []) = (B = []) := by simp [kS]
    simp only [removeFromLeaf, load_of hn, Go.bind_ok, hcnt]
    simp only [kS_append, vS_append, kS_cons, vS_cons, List.append_assoc, List.cons_append] at hp ⊢
    rw [hp, Go.bind_ok]
    simp only [hBe]
    congr 4
    simp; omega
  · right
    exact ⟨by simp; omega, b.1, kS B ++ t, by simp, by rw [hb']; decide⟩

/-- A map with a single leaf. -/
theorem Good.isLeaf {h : BStore κ ν} {m : BMap} {l : List (κ × ν)} {fp : List Nat}
    (hg : Good cmp h m l fp) (hne : l ≠ []) (hl : l.length ≤ 11) : ∃ a, m.root = some a ∧ fp = [a] ∧ LeafAt h a l := by
  obtain ⟨root, len⟩ := m
  obtain ⟨asc, hlen, tree⟩ := hg
  cases tree with
  | nil => exact absurd rfl hne
  | leaf _ h => exact ⟨_, rfl, rfl, h⟩
  | node h1 h2 =>
    simp at hl
    have := List.length_pos_iff.2 h2
    omega

/-- Remove of the only key. -/
theorem Good.remove_only (hc : LawfulCmp cmp) {h : BStore κ ν} {m : BMap} {b : κ × ν} {fp : List Nat}
    (hg : Good cmp h m [b] fp) {key : κ} (hb : cmp key b.1 = .eq) :
    ∃ h', BMap.remove cmp h m key = .ok (h', ⟨none, 0⟩, ⟨some b.2⟩) ∧
      Good cmp h' ⟨none, 0⟩ [] [] ∧ Frame h fp h' [] := by
  obtain ⟨a, hr, rfl, hle, cs, hn⟩ := hg.isLeaf (by simp) (by simp)
  have hlen := hg.len
  obtain ⟨root, len⟩ := m
  simp only at hr hlen
  subst hr
  have hla := (List.getElem?_eq_some_iff.1 hn).1
  have hs : BTree.search cmp h key (h.length + 1) a = .ok (some (a, 0)) :=
    search_found (A := []) hn (t := List.replicate 10 none) rfl (by simp) hb
  have hrem := removeNode_found (d := h.length) hc (A := []) (B := []) hn (by simp) hb
  refine ⟨h.set a ⟨true, 0, some b.1 :: List.replicate 10 none, some b.2 :: List.replicate 10 none, 0, cs⟩,
    ?_, ⟨.nil, rfl, .nil⟩, ?_⟩
  · have hset : ∀ nd : BNode κ ν, (h.set a nd)[a]? = some nd := fun nd => List.getElem?_set_self hla
    simp only [BMap.remove, hs, Go.bind_ok, hrem]
    have h0 : usizeSub len 1 = 0 := by rw [hlen]; simp only [List.length_singleton]; unfold usizeSub; omega
    simp only [load_of (hset _), Go.bind_ok, h0]
    rfl
  · refine ⟨by simp, ?_, by simp⟩
    intro r _ hr
    simp at hr
    rw [List.getElem?_set_ne (by omega)]

/-- Remove of a key that is not the largest: the entry goes, but the value of the next one is returned. -/
theorem Good.remove_inner (hc : LawfulCmp cmp) {h : BStore κ ν} {m : BMap} {A B : List (κ × ν)} {b c : κ × ν}
    {fp : List Nat} (hg : Good cmp h m (A ++ b :: c :: B) fp) (hlen : (A ++ b :: c :: B).length ≤ 11) {key : κ}
    (hA : ∀ e ∈ A, cmp key e.1 = .gt) (hb : cmp key b.1 = .eq) :
    ∃ h' m', BMap.remove cmp h m key = .ok (h', m', ⟨some c.2⟩) ∧
      Good cmp h' m' (A ++ c :: B) fp ∧ Frame h fp h' fp := by
  obtain ⟨a, hr, rfl, hle, cs, hn⟩ := hg.isLeaf (by simp) hlen
  have hml := hg.len
  obtain ⟨root, len⟩ := m
  simp only at hr hml
  subst hr
  have hla := (List.getElem?_eq_some_iff.1 hn).1
  have hs : BTree.search cmp h key (h.length + 1) a = .ok (some (a, A.length)) :=
    search_found hn (t := List.replicate (11 - (A ++ b :: c :: B).length) none) rfl hA hb
  have hrem := removeNode_found (d := h.length) hc hn hA hb
  refine ⟨h.set a ⟨true, 0, kS (A ++ c :: B) ++ none :: List.replicate (11 - (A ++ b :: c :: B).length) none,
    vS (A ++ c :: B) ++ none :: List.replicate (11 - (A ++ b :: c :: B).length) none,
    ((A ++ c :: B).length : Nat), cs⟩, ⟨some a, (A ++ c :: B).length⟩, ?_, ⟨?_, rfl, ?_⟩, ?_⟩
  · have hset : ∀ nd : BNode κ ν, (h.set a nd)[a]? = some nd := fun nd => List.getElem?_set_self hla
    have hv : ∀ t : List (Option ν), index (vS (A ++ c :: B) ++ t) A.length = .ok (some c.2) := by
      intro t
      have := index_mid (vS A) (some c.2) (vS B ++ t)
      rw [vS_length] at this
      simpa using this
    simp only [BMap.remove, hs, Go.bind_ok, hrem, reduceCtorEq, if_false]
    simp only [load_of (hset _), Go.bind_ok, hv, deref_some]
    rw [if_neg (by simp; omega), Go.bind_ok]
    have : usizeSub len 1 = (A ++ c :: B).length := by
      rw [hml]
      have : (A ++ b :: c :: B).length = (A ++ c :: B).length + 1 := by simp; omega
      rw [this] at hlen ⊢
      unfold usizeSub; omega
    rw [this]; rfl
  · refine hg.asc.sublist ?_
    simp
  · have e : 11 - (A ++ c :: B).length = (11 - (A ++ b :: c :: B).length) + 1 := by
      simp at hlen ⊢; omega
    refine .leaf (by simp) ⟨by simp at hlen ⊢; omega, cs, ?_⟩
    rw [List.getElem?_set_self hla, e]; rfl
  · refine ⟨by simp, ?_, fun r hr => .inl hr⟩
    intro r _ hr
    simp at hr
    rw [List.getElem?_set_ne (by omega)]

/-- Remove of the largest of several keys: Len drops, but the key stays. -/
theorem Good.remove_last (hc : LawfulCmp cmp) {h : BStore κ ν} {m : BMap} {A : List (κ × ν)} {b : κ × ν}
    {fp : List Nat} (hg : Good cmp h m (A ++ [b]) fp) (hne : A ≠ []) (hlen : (A ++ [b]).length ≤ 11) {key : κ}
    (hb : cmp key b.1 = .eq) :
    ∃ h' m' a cs, BMap.remove cmp h m key = .ok (h', m', ⟨some b.2⟩) ∧ m'.len = A.length ∧
      m'.root = some a ∧ h'[a]? = some ⟨true, 0, kS (A ++ [b]) ++ List.replicate (10 - A.length) none,
        vS (A ++ [b]) ++ List.replicate (10 - A.length) none, A.length, cs⟩ := by
  obtain ⟨a, hr, rfl, hle, cs, hn⟩ := hg.isLeaf (by simp) hlen
  have hml := hg.len
  have hasc := hg.asc
  obtain ⟨root, len⟩ := m
  simp only at hr hml
  subst hr
  have hla := (List.getElem?_eq_some_iff.1 hn).1
  have hA : ∀ e ∈ A, cmp key e.1 = .gt := by
    intro e he
    have := (List.pairwise_append.1 hasc).2.2 e he b (by simp)
    rw [hc.eq_left hb]; exact (hc.lt_iff _ _).1 this
  have hpos := List.length_pos_iff.2 hne
  have hs : BTree.search cmp h key (h.length + 1) a = .ok (some (a, A.length)) :=
    search_found hn (t := List.replicate (11 - (A ++ [b]).length) none) rfl hA hb
  have hrem := removeNode_found (d := h.length) hc hn hA hb
  refine ⟨h.set a ⟨true, 0, kS (A ++ []) ++ some b.1 :: List.replicate (11 - (A ++ [b]).length) none,
    vS (A ++ []) ++ some b.2 :: List.replicate (11 - (A ++ [b]).length) none,
    ((A ++ []).length : Nat), cs⟩, ⟨some a, A.length⟩, a, cs, ?_, rfl, rfl, ?_⟩
  · have hset : ∀ nd : BNode κ ν, (h.set a nd)[a]? = some nd := fun nd => List.getElem?_set_self hla
    have hv : ∀ t : List (Option ν), index (vS (A ++ []) ++ some b.2 :: t) A.length = .ok (some b.2) := by
      intro t
      have := index_mid (vS A) (some b.2) t
      rw [vS_length] at this
      simpa using this
    simp only [BMap.remove, hs, Go.bind_ok, hrem, if_true]
    simp only [load_of (hset _), Go.bind_ok, hv, deref_some]
    rw [if_neg (by simp; exact hne), Go.bind_ok]
    have : usizeSub len 1 = A.length := by
      rw [hml]
      have : (A ++ [b]).length = A.length + 1 := by simp
      rw [this] at hlen ⊢
      unfold usizeSub; omega
    rw [this]; rfl
  · rw [List.getElem?_set_self hla]
    have : 11 - (A ++ [b]).length = 10 - A.length := by simp
    rw [this]
    simp

/-- Remove of an absent key, as long as it lies below the twelfth. -/
theorem Good.remove_absent (hc : LawfulCmp cmp) {h : BStore κ ν} {m : BMap} {l : List (κ × ν)} {fp : List Nat}
    (hg : Good cmp h m l fp) {key : κ} (hm : OMap.mem cmp l key = false)
    (hlt : ∀ e, l[11]? = some e → cmp key e.1 = .lt) : BMap.remove cmp h m key = .ok (h, m, ⟨none⟩) := by
  obtain ⟨root, len⟩ := m
  obtain ⟨asc, hlen, tree⟩ := hg
  simp only at hlen tree
  cases root with
  | none => rfl
  | some a =>
    rcases tree.search hc asc key with ⟨A, b, B, p, node, i, e, hA, hb, hB, hs, hp, hn, hv, ht⟩ |
      ⟨A, B, e, hA, hB, hs⟩
    · rw [e, mem_found hb] at hm; cases hm
    · cases tree with
      | leaf hne hn =>
        subst e
        have hrem := removeNode_fresh (d := h.length) hc hn hA hB
        obtain ⟨_, cs, hn⟩ := hn
        simp only [BMap.remove, hs, Go.bind_ok, hrem, load_of hn]
        have := List.length_pos_iff.2 hne
        rw [if_neg (by omega)]; rfl
      | @node _ y zs Y R h1 h2 h3 h4 h5 h6 h7 h8 =>
        obtain ⟨r, R, rfl⟩ : ∃ r R', R = r :: R' := by
          cases R with
          | nil => exact absurd rfl h2
          | cons r R => exact ⟨r, R, rfl⟩
        have hr : cmp key r.1 = .lt := hlt r (by rw [← h1]; simp)
        have hr' : cmp r.1 key = .gt := (hc.gt_iff _ _).2 hr
        obtain ⟨A', B', e', hA', hB'⟩ : ∃ A' B', Y = A' ++ B' ∧ (∀ e ∈ A', cmp key e.1 = .gt) ∧
            (∀ e ∈ B', cmp key e.1 = .lt) := by
          have hY : Ascending cmp Y := (List.pairwise_append.1 asc).1
          rcases locate hc hY key with ⟨A', b', B', e', hA', hb', hB'⟩ | ⟨A', B', e', hA', hB'⟩
          · rw [OMap.mem_false] at hm
            exact absurd hb' (hm b' (by rw [e']; simp))
          · exact ⟨A', B', e', hA', hB'⟩
        subst e'
        have hd : ∃ d, h.length = d + 1 := ⟨h.length - 1, by have := h4.lt; omega⟩
        obtain ⟨d, hd⟩ := hd
        have hrem := removeNode_fresh (d := d) hc h4 hA' hB'
        have hrem2 : removeNode cmp (h.length + 1) h a key = .ok h := by
          obtain ⟨_, cs, hy⟩ := h4
          rw [removeNode, load_of h5, Go.bind_ok]
          have hk : findKeyLoop cmp key (↑(r :: R).length)
              (kS (r :: R) ++ List.replicate (11 - (r :: R).length) none) 0 = .ok 0 := by
            have := findKeyLoop_eq (cmp := cmp) (A := ([] : List (κ × ν))) (key := key) (by simp)
              (kS (r :: R) ++ List.replicate (11 - (r :: R).length) none) (↑(r :: R).length) 0
              (.inr ⟨by simp, r.1, _, rfl, by rw [hr']; decide⟩)
            simpa using this
          simp only [findKey, hk, Go.bind_ok]
          rw [if_pos (by simp)]
          have hg0 : ∀ t : List (Option κ), getAt (some r.1 :: t) 0 = .ok (some r.1) := fun _ => rfl
          have hc0 : ∀ t : List (Option Nat), getAt (some y :: t) 0 = .ok (some y) := fun _ => rfl
          simp only [kS_cons, List.cons_append, hg0, Go.bind_ok, hr', reduceCtorEq, decide_false,
            Bool.false_eq_true, if_false, childN, hc0, load_of hy]
          rw [if_neg (by omega), Go.bind_ok, load_of h5, Go.bind_ok]
          have hf : decide ((0 : Int) = ((r :: R).length : Nat)) = false := by simp; omega
          simp only [hf, Bool.false_and, Bool.false_eq_true, if_false, hc0, Go.bind_ok, addr, deref_some]
          rw [hd]; exact hrem
        simp only [BMap.remove, hs, Go.bind_ok, hrem2, load_of h5]
        rw [if_neg (by simp; omega)]; rfl
end Gost.BTree
