import Verif.Lemmas.BTree
/-
Insert on the shapes of `BTree.Tree`.
-/
namespace Gost.BTree
open Spec
variable {κ ν : Type} {cmp : κ → κ → Ordering}

/-- What a call leaves alone: nodes outside `fp`; the new nodes are `fp'`. -/
structure Frame (h : BStore κ ν) (fp : List Nat) (h' : BStore κ ν) (fp' : List Nat) : Prop where
  grows : h.length ≤ h'.length
  others : ∀ r, r < h.length → r ∉ fp → h'[r]? = h[r]?
  nodes : ∀ r ∈ fp', r ∈ fp ∨ h.length ≤ r

theorem Frame.rfl' (h : BStore κ ν) (fp : List Nat) : Frame h fp h fp :=
  ⟨Nat.le_refl _, fun _ _ _ => rfl, fun _ h => .inl h⟩

theorem Frame.trans {h1 h2 h3 : BStore κ ν} {f1 f2 f3 : List Nat} (a : Frame h1 f1 h2 f2)
    (b : Frame h2 f2 h3 f3) : Frame h1 f1 h3 f3 := by
  refine ⟨Nat.le_trans a.grows b.grows, ?_, ?_⟩
  · intro r hr hn
    rw [b.others r (Nat.lt_of_lt_of_le hr a.grows), a.others r hr hn]
    intro h
    rcases a.nodes r h with h | h
    · exact hn h
    · omega
  · intro r hr
    rcases b.nodes r hr with h | h
    · exact a.nodes r h
    · exact .inr (Nat.le_trans a.grows h)

/-- The insertions a map in one of the shapes can take: of a key that is already there, of any key while there
are fewer than eleven, and after that (while there are fewer than 21) of keys below the eleventh. -/
def Fits (cmp : κ → κ → Ordering) (l : List (κ × ν)) (key : κ) : Prop :=
  OMap.mem cmp l key = true ∨ l.length < 11 ∨
    (l.length < 21 ∧ ∃ e, l[10]? = some e ∧ cmp key e.1 = .lt)

instance (l : List (κ × ν)) (key : κ) : Decidable (Fits cmp l key) := by
  unfold Fits
  have : Decidable (∃ e, l[10]? = some e ∧ cmp key e.1 = .lt) := by
    match h : l[10]? with
    | none => exact isFalse (by simp)
    | some e =>
      by_cases he : cmp key e.1 = .lt
      · exact isTrue ⟨e, rfl, he⟩
      · exact isFalse (by simp [he])
  infer_instance

theorem childLoop_eq {A B : List (κ × ν)} {key : κ} (hA : ∀ e ∈ A, cmp e.1 key ≠ .gt)
    (hB : ∀ e ∈ B, cmp e.1 key = .gt) (t : List (Option κ)) :
    childLoop cmp key (kS (A ++ B) ++ t) (A ++ B).length = .ok A.length := by
  induction B using snoc_induction generalizing t with
  | nil =>
    cases A using snoc_induction with
    | nil => simp [childLoop]
    | snoc A a _ =>
      have ha := hA a (by simp)
      have e : kS (A ++ [a] ++ []) ++ t = kS A ++ some a.1 :: t := by simp
      have hl : (A ++ [a] ++ []).length = A.length + 1 := by simp
      have := index_mid (kS A) (some a.1) t
      rw [kS_length] at this
      rw [hl, childLoop, e, this, Go.bind_ok]
      simp only [ha, if_false]
      simp
  | snoc B b ih =>
    have hb := hB b (by simp)
    have ih := ih (fun e he => hB e (by simp [he])) (some b.1 :: t)
    have e : kS (A ++ (B ++ [b])) ++ t = kS (A ++ B) ++ some b.1 :: t := by simp
    have hl : (A ++ (B ++ [b])).length = (A ++ B).length + 1 := by
      simp only [List.length_append, List.length_singleton]; omega
    have := index_mid (kS (A ++ B)) (some b.1) t
    rw [kS_length] at this
    rw [hl, childLoop, e, this, Go.bind_ok]
    simp only [hb, if_true, ih]

theorem insertNonFull_leaf {h : BStore κ ν} {a d : Nat} {node : BNode κ ν} (hn : h[a]? = some node)
    (hleaf : node.leaf = true) (key : κ) (value : ν) :
    insertNonFull cmp key value (d + 1) h a = insertLeaf cmp h a key value := by
  simp only [insertNonFull, load_of hn, Go.bind_ok, hleaf, if_true]

/-- Replacing the value of a key. -/
theorem Good.insert_found (hc : LawfulCmp cmp) {h : BStore κ ν} {m : BMap} {l : List (κ × ν)} {fp : List Nat}
    (hg : Good cmp h m l fp) {key : κ} (hm : OMap.mem cmp l key = true) (value : ν) :
    ∃ h', BMap.insert cmp h m key value = .ok (h', m, ⟨OMap.lookup cmp l key⟩) ∧
      Good cmp h' m (OMap.insert cmp l key value) fp ∧ Frame h fp h' fp := by
  obtain ⟨root, len⟩ := m
  obtain ⟨asc, hlen, tree⟩ := hg
  simp only at hlen tree
  cases root with
  | none => cases tree; simp [OMap.mem] at hm
  | some a =>
    rcases tree.search hc asc key with ⟨A, b, B, p, node, i, e, hA, hb, hB, hs, hp, hn, hv, ht⟩ |
      ⟨A, B, e, hA, hB, _⟩
    · have hi : i < node.values.length := (List.getElem?_eq_some_iff.1 hv).1
      refine ⟨h.set p { node with values := node.values.set i (some value) }, ?_, ⟨?_, ?_, ?_⟩, ?_⟩
      · have hl : OMap.lookup cmp l key = some b.2 := by
          rw [e]; exact lookup_found hc (by rw [← e]; exact asc) hb
        simp only [BMap.insert, hs, Go.bind_ok, load_of hn, setIndex_lt hi, index, hv, deref_some]
        rw [hl]; rfl
      · exact OMap.ascending_insert hc asc key value
      · rw [OMap.length_insert hc, if_pos hm, ← hlen]
      · rw [e, BTree.insert_found hA hb hB]
        exact ht value
      · refine ⟨by simp, ?_, fun r hr => .inl hr⟩
        intro r _ hr
        rw [List.getElem?_set_ne]
        rintro rfl; exact hr hp
    · rw [e, mem_fresh hA hB] at hm; simp at hm

/-- The heap after a split, node by node. -/
theorem splitChild_facts {h : BStore κ ν} {a y : Nat} {self yn : BNode κ ν} (ha : h[a]? = some self)
    (hy : h[y]? = some yn) (hay : a ≠ y) (hdeg : self.minDeg = 11) (hleaf : yn.leaf = true) (hyd : yn.minDeg = 0)
    {i : Nat} {PK AK BK : List (Option κ)} {x : Option κ} {PV AV BV : List (Option ν)} {v : Option ν}
    {PC AC BC : List (Option Nat)} {c : Option Nat} {ky : Option κ} {vy : Option ν}
    (hk : self.keys = PK ++ AK ++ x :: BK) (hv : self.values = PV ++ AV ++ v :: BV)
    (hcs : self.childs = PC ++ AC ++ c :: BC) (hPK : PK.length = i) (hPV : PV.length = i)
    (hPC : PC.length = i + 1) (hn : self.n = ((PK ++ AK).length : Nat) - 1)
    (hAV : AV.length = AK.length) (hAC : AC.length + 1 = AK.length)
    (hky : yn.keys[10]? = some ky) (hvy : yn.values[10]? = some vy) :
    ∃ h1, splitChild h a i y = .ok h1 ∧ h1.length = h.length + 1 ∧
      h1[a]? = some ⟨self.leaf, 11, PK ++ ky :: (AK ++ BK), PV ++ vy :: (AV ++ BV), self.n + 1,
        PC ++ some h.length :: (AC ++ BC)⟩ ∧
      h1[y]? = some { yn with n := 10 } ∧ h1[h.length]? = some (blank true 0 10) ∧
      ∀ r, r < h.length → r ≠ a → r ≠ y → h1[r]? = h[r]? := by
  have hla := (List.getElem?_eq_some_iff.1 ha).1
  have hly := (List.getElem?_eq_some_iff.1 hy).1
  refine ⟨_, splitChild_eq ha hy hay hdeg hleaf hyd hk hv hcs hPK hPV hPC hn hAV hAC hky hvy, ?_, ?_, ?_, ?_, ?_⟩
  · simp
  · rw [List.getElem?_set_self (by simp; omega), hdeg]
  · rw [List.getElem?_set_ne hay, List.getElem?_set_self (by simp; omega)]
  · rw [List.getElem?_set_ne (by omega), List.getElem?_set_ne (by omega)]
    simp
  · intro r hr hra hry
    rw [List.getElem?_set_ne (Ne.symm hra), List.getElem?_set_ne (Ne.symm hry), List.getElem?_append_left hr]

/-- The split of a full first child `y`, which then takes the new key. -/
theorem split_insert (hc : LawfulCmp cmp) {h : BStore κ ν} {a y : Nat} {A B R : List (κ × ν)} {q : κ × ν}
    {zs : List Nat} {t : List (Option κ)} {u : List (Option ν)} {w : List (Option Nat)} {key : κ}
    (hay : a ≠ y) (hY : LeafAt h y (A ++ B ++ [q])) (hlen : (A ++ B ++ [q]).length = 11)
    (ha : h[a]? = some ⟨false, 11, kS R ++ none :: none :: t, vS R ++ none :: none :: u, R.length,
      some y :: (zs.map some ++ none :: w)⟩)
    (hzs : zs.length = R.length)
    (hA : ∀ e ∈ A, cmp key e.1 = .gt) (hB : ∀ e ∈ B, cmp key e.1 = .lt) (value : ν) :
    ∃ h1 h2, splitChild h a 0 y = .ok h1 ∧
      h1[a]? = some ⟨false, 11, kS (q :: R) ++ none :: t, vS (q :: R) ++ none :: u, (q :: R).length,
        some y :: (((h.length :: zs).map some) ++ w)⟩ ∧
      (∀ d, insertNonFull cmp key value (d + 1) h1 y = .ok h2) ∧
      h2[a]? = h1[a]? ∧ LeafAt h2 y (A ++ (key, value) :: B) ∧ EmptyAt h2 h.length ∧
      (∀ r, r < h.length → r ≠ a → r ≠ y → h2[r]? = h[r]?) ∧ h2.length = h.length + 1 := by
  obtain ⟨_, cs, hy⟩ := hY
  have hly := (List.getElem?_eq_some_iff.1 hy).1
  have hl10 : (A ++ B).length = 10 := by simp at hlen; simp; omega
  rw [hlen] at hy
  simp only [Nat.sub_self, List.replicate_zero, List.append_nil] at hy
  obtain ⟨h1, hs, hsl, h1a, h1y, h1z, h1o⟩ := splitChild_facts (h := h) (a := a) (y := y) ha hy hay rfl rfl rfl
    (i := 0) (PK := [])
    (AK := kS R ++ [none]) (x := none) (BK := t) (PV := []) (AV := vS R ++ [none]) (v := none) (BV := u)
    (PC := [some y]) (AC := zs.map some) (c := none) (BC := w) (ky := some q.1) (vy := some q.2)
    (by simp) (by simp) (by simp) rfl rfl rfl (by simp) (by simp) (by simp [hzs])
    (by simp only
        rw [kS_append, ← hl10, ← kS_length (A ++ B)]; simp)
    (by simp only
        rw [vS_append, ← hl10, ← vS_length (A ++ B)]; simp)
  have hi := insertLeaf_eq hc h1y hA hB (some q.1) (some q.2) [] [] (by simp) (by simp) (by simp only [hl10]; rfl) value
  refine ⟨h1, _, hs, ?_, fun d => (insertNonFull_leaf h1y rfl key value).trans hi, ?_, ?_, ?_, ?_, ?_⟩
  · rw [h1a]; simp
  · rw [List.getElem?_set_ne (Ne.symm hay)]
  · have hl11 : (A ++ (key, value) :: B).length = 11 := by simp at hl10 ⊢; omega
    refine ⟨by omega, cs, ?_⟩
    rw [List.getElem?_set_self (by omega), hl11]
    simp
  · refine ⟨List.replicate 12 none, ?_⟩
    rw [List.getElem?_set_ne (by omega), h1z]; rfl
  · intro r hr hra hry
    rw [List.getElem?_set_ne (Ne.symm hry), h1o r hr hra hry]
  · simp [hsl]

/-- A new key that fits; what happens to the root a copy of the map still points to. -/
theorem Good.insert_fresh_root (hc : LawfulCmp cmp) {h : BStore κ ν} {m : BMap} {l : List (κ × ν)} {fp : List Nat}
    (hg : Good cmp h m l fp) {key : κ} (hm : OMap.mem cmp l key = false)
    (hf : l.length < 11 ∨ (l.length < 21 ∧ ∃ e, l[10]? = some e ∧ cmp key e.1 = .lt)) (value : ν) :
    ∃ h' m' fp', BMap.insert cmp h m key value = .ok (h', m', ⟨none⟩) ∧
      Good cmp h' m' (OMap.insert cmp l key value) fp' ∧ Frame h fp h' fp' ∧
      (l ≠ [] → l.length ≠ 11 → m'.root = m.root) ∧
      (l.length = 11 → ∃ a, m.root = some a ∧ LeafAt h' a (OMap.insert cmp (l.take 10) key value)) := by
  obtain ⟨root, len⟩ := m
  obtain ⟨asc, hlen, tree⟩ := hg
  simp only at hlen tree
  have asc' := OMap.ascending_insert hc asc key value
  have hlen' := OMap.length_insert hc l key value
  rw [hm] at hlen'
  simp only [Bool.false_eq_true, if_false] at hlen'
  cases root with
  | none =>
    cases tree
    refine ⟨_, ⟨some h.length, 1⟩, [h.length], rfl, ⟨asc', by rw [hlen']; rfl, ?_⟩, ?_, fun h => absurd rfl h, by simp⟩
    · refine .leaf (l := [(key, value)]) (by simp) ⟨by simp, List.replicate 12 none, ?_⟩
      simp only [List.getElem?_append_right (Nat.le_refl _), Nat.sub_self]
      rfl
    · refine ⟨by simp, ?_, ?_⟩
      · intro r hr _; rw [List.getElem?_append_left hr]
      · intro r hr; simp at hr; right; omega
  | some a =>
    rcases tree.search hc asc key with ⟨A, b, B, p, node, i, e, hA, hb, hB, hs, hp, hn, hv, ht⟩ |
      ⟨A, B, e, hA, hB, hs⟩
    · rw [e, mem_found hb] at hm; simp at hm
    · have hus : usize (len + 1) = l.length + 1 := by
        rw [hlen]
        have : l.length ≤ 21 := by
          rcases hf with h | h <;> omega
        unfold usize; omega
      rw [e, BTree.insert_fresh hc hA hB] at asc' hlen' ⊢
      cases tree with
      | @leaf _ _ hne hleaf =>
        obtain ⟨hle, cs, hn⟩ := hleaf
        have hla := (List.getElem?_eq_some_iff.1 hn).1
        by_cases hfull : l.length = 11
        · -- the root is full
          have ⟨_, q0, hq0, hq0lt⟩ := hf.resolve_left (by omega)
          have hBne : B ≠ [] := by
            rintro rfl
            have : q0 ∈ A := by
              have := List.mem_of_getElem? hq0
              rw [e] at this; simpa using this
            rw [hA _ this] at hq0lt; cases hq0lt
          obtain ⟨B', q, rfl⟩ : ∃ B' q, B = B' ++ [q] := ⟨_, _, (List.dropLast_concat_getLast hBne).symm⟩
          have hl11 : (A ++ B' ++ [q]).length = 11 := by rw [← hfull, e]; simp
          have hq : cmp q.1 key = .gt := (hc.gt_iff _ _).2 (hB q (by simp))
          have hB' : ∀ e ∈ B', cmp key e.1 = .lt := fun e he => hB e (by simp [he])
          let h0 : BStore κ ν := h ++ [⟨false, 11, kS ([] : List (κ × ν)) ++ none :: none :: List.replicate 9 none,
            vS ([] : List (κ × ν)) ++ none :: none :: List.replicate 9 none, ([] : List (κ × ν)).length,
            some a :: (([] : List Nat).map some ++ none :: List.replicate 10 none)⟩]
          have h0a : h0[h.length]? = some ⟨false, 11, kS ([] : List (κ × ν)) ++ none :: none :: List.replicate 9 none,
            vS ([] : List (κ × ν)) ++ none :: none :: List.replicate 9 none, ([] : List (κ × ν)).length,
            some a :: (([] : List Nat).map some ++ none :: List.replicate 10 none)⟩ := by simp [h0]
          have h0l : h0.length = h.length + 1 := by simp [h0]
          have h0y : LeafAt h0 a (A ++ B' ++ [q]) := by
            refine LeafAt.congr (h := h) ⟨by omega, cs, ?_⟩ (by simp only [h0]; rw [List.getElem?_append_left hla])
            rw [hn, hl11, hfull, e]; simp
          obtain ⟨h1, h2, hsp, h1a, hin, h2a, h2y, h2z, h2o, h2l⟩ :=
            split_insert hc (by omega) h0y hl11 h0a rfl hA hB' value
          refine ⟨h2, ⟨some h.length, l.length + 1⟩, [h.length, a, h0.length], ?_, ⟨asc', by simp only [hlen', ← e], ?_⟩, ?_, fun _ h => absurd (e ▸ hfull) h,
            fun _ => ⟨a, rfl, ?_⟩⟩
          · simp only [BMap.insert, hs, Go.bind_ok, load_of hn]
            rw [if_pos (by rw [hfull]; rfl)]
            have hcs : setIndex (blank false capacity 0 : BNode κ ν).childs 0 (some a) =
              .ok (some a :: List.replicate 11 none) := rfl
            rw [hcs, Go.bind_ok]
            have hh0 : h ++ [{ (blank false capacity 0 : BNode κ ν) with
                childs := some a :: List.replicate 11 none }] = h0 := rfl
            rw [hh0, hsp, Go.bind_ok, load_of h1a, Go.bind_ok]
            have hk0 : index (kS [q] ++ none :: List.replicate 9 none) 0 = .ok (some q.1) := rfl
            simp only [hk0, Go.bind_ok, deref_some, hq, hus]
            have hc0 : ∀ l : List (Option Nat), index (some a :: l) 0 = .ok (some a) := fun _ => rfl
            simp only [reduceCtorEq, if_false, hc0, Go.bind_ok, addr, deref_some, hin]
            rfl
          · have : A ++ (key, value) :: (B' ++ [q]) = (A ++ (key, value) :: B') ++ [q] := by simp
            rw [this]
            refine .node (zs := [h0.length]) ?_ (by simp) (by simp) h2y ?_ rfl ?_ (by simp)
            · simp at hl11 ⊢; omega
            · rw [h2a, h1a]; rfl
            · intro z hz; simp at hz; rw [hz]; exact h2z
          · refine ⟨by omega, ?_, ?_⟩
            · intro r hr hnr
              simp at hnr
              rw [h2o r (by omega) (by omega) (by omega)]
              simp only [h0]
              rw [List.getElem?_append_left hr]
            · intro r hr
              simp at hr
              rcases hr with rfl | rfl | rfl
              · right; omega
              · left; simp
              · right; omega
          · have hl : (A ++ B').length = 10 := by simp at hl11 ⊢; omega
            have : (A ++ (B' ++ [q])).take 10 = A ++ B' := by
              rw [← List.append_assoc, ← hl, List.take_left]
            rw [this, BTree.insert_fresh hc hA hB']
            exact h2y
        · -- there is room in the root
          have hi : ∃ c, 11 - l.length = c + 1 := ⟨10 - l.length, by omega⟩
          obtain ⟨c, hcc⟩ := hi
          rw [hcc] at hn
          have hil := insertLeaf_eq hc hn hA hB none none (List.replicate c none) (List.replicate c none)
            (by rw [e]; rfl) (by rw [e]; rfl) (by rw [e]) value
          have hins : BMap.insert cmp h ⟨some a, len⟩ key value = .ok (h.set a ⟨true, 0,
              kS (A ++ (key, value) :: B) ++ List.replicate c none,
              vS (A ++ (key, value) :: B) ++ List.replicate c none, (l.length : Int) + 1, cs⟩,
              ⟨some a, l.length + 1⟩, ⟨none⟩) := by
            simp only [BMap.insert, hs, Go.bind_ok, load_of hn]
            have hne : ¬ (l.length : Int) = (capacity : Nat) := by unfold capacity; omega
            rw [if_neg hne, insertNonFull_leaf hn rfl, hil, Go.bind_ok, hus]
            rfl
          refine ⟨_, _, [a], hins, ⟨asc', by simp only [hlen', ← e], ?_⟩, ?_, fun _ _ => rfl, fun h => absurd (e.symm ▸ h) hfull⟩
          · refine .leaf (by simp) ⟨by rw [hlen', ← e]; omega, cs, ?_⟩
            rw [List.getElem?_set_self hla, hlen', ← e]
            have : 11 - (l.length + 1) = c := by omega
            rw [this]; rfl
          · refine ⟨by simp, ?_, fun r hr => .inl hr⟩
            intro r _ hr
            simp at hr
            rw [List.getElem?_set_ne (by omega)]
      | @node _ y zs Y R h1 h2 h3 h4 h5 h6 h7 h8 =>
        have ⟨hlt, q0, hq0, hq0lt⟩ := hf.resolve_left (by simp; omega)
        have hay : a ≠ y := by
          rintro rfl
          obtain ⟨_, cs, h'⟩ := h4
          rw [h5] at h'; simp at h'
        have haz : ∀ z ∈ zs, z ≠ a := by
          rintro z hz rfl
          obtain ⟨cs, h'⟩ := h7 _ hz
          rw [h5] at h'; simp at h'
        have hyz : ∀ z ∈ zs, z ≠ y := by
          rintro z hz rfl
          obtain ⟨cs, h'⟩ := h7 _ hz
          obtain ⟨_, cs', h''⟩ := h4
          rw [h''] at h'
          simp only [Option.some.injEq, BNode.mk.injEq] at h'
          omega
        have hYne : Y ≠ [] := by intro h; rw [h] at h1; simp at h1
        obtain ⟨Y', q, rfl⟩ : ∃ Y' q, Y = Y' ++ [q] := ⟨_, _, (List.dropLast_concat_getLast hYne).symm⟩
        have hY10 : Y'.length = 10 := by simpa using h1
        have hqq : q0 = q := by
          have : (Y' ++ [q] ++ R)[10]? = some q := by rw [← hY10]; simp
          rw [this] at hq0; simpa using hq0.symm
        subst hqq
        -- where the key belongs
        have hAR : ∃ B', B = B' ++ q0 :: R ∧ A ++ B' = Y' := by
          rw [List.append_assoc] at e
          rcases List.append_eq_append_iff.1 e with ⟨c, e1, e2⟩ | ⟨c, e1, e2⟩
          · cases c with
            | nil => exact ⟨[], by simpa using e2.symm, by simpa using e1⟩
            | cons x c =>
              simp at e2
              have := hA q0 (by rw [e1, e2.1]; simp)
              rw [this] at hq0lt; cases hq0lt
          · exact ⟨c, by simpa using e2, e1.symm⟩
        obtain ⟨B', rfl, rfl⟩ := hAR
        have hq : cmp q0.1 key = .gt := (hc.gt_iff _ _).2 hq0lt
        have hB' : ∀ e ∈ B', cmp key e.1 = .lt := fun e he => hB e (by simp [he])
        have hR : ∀ e ∈ R, cmp e.1 key = .gt := fun e he => (hc.gt_iff _ _).2 (hB e (by simp [he]))
        have hr9 : R.length ≤ 9 := by simp at hlt hY10; omega
        have hrep : ∀ α : Type, List.replicate (11 - R.length) (none : Option α) =
            none :: none :: List.replicate (9 - R.length) none := by
          intro α
          have : 11 - R.length = (9 - R.length) + 1 + 1 := by omega
          rw [this, List.replicate_succ, List.replicate_succ]
        rw [hrep, hrep, hrep] at h5
        obtain ⟨h1', h2', hsp, h1a, hin, h2a, h2y, h2z, h2o, h2l⟩ :=
          split_insert hc hay h4 h1 h5 h6 hA hB' value
        have hchild : ∃ child, load h (some y) = .ok child ∧ child.keys.length = capacity := by
          obtain ⟨_, cs, hy⟩ := h4
          exact ⟨_, load_of hy, by simp only [capacity]; rw [List.length_append, kS_length, h1]; rfl⟩
        obtain ⟨child, hl1, hl2⟩ := hchild
        refine ⟨h2', ⟨some a, (A ++ B' ++ [q0] ++ R).length + 1⟩, a :: y :: h.length :: zs, ?_, ⟨asc', by simp only [hlen', ← e], ?_⟩, ?_,
          fun _ _ => rfl, fun h => by
            have := List.length_pos_iff.2 h2
            simp at h hY10; omega⟩
        · simp only [BMap.insert, hs, Go.bind_ok, load_of h5]
          have hne : ¬ (R.length : Int) = (capacity : Nat) := by unfold capacity; omega
          have hloop := childLoop_eq (cmp := cmp) (key := key) (A := []) (B := R) (by simp) hR
            (none :: none :: List.replicate (9 - R.length) none)
          simp only [List.nil_append, List.length_nil] at hloop
          rw [if_neg hne, insertNonFull]
          simp only [load_of h5, Go.bind_ok, Bool.false_eq_true, if_false, Int.toNat_natCast, hloop]
          have hc0 : ∀ l : List (Option Nat), index (some y :: l) 0 = .ok (some y) := fun _ => rfl
          have hk0 : ∀ l : List (Option κ), index (some q0.1 :: l) 0 = .ok (some q0.1) := fun _ => rfl
          rw [if_neg (by omega), hc0, Go.bind_ok, hl1, Go.bind_ok, if_pos hl2]
          have hsp' : splitChild h a ((0 : Nat) : Int) y = .ok h1' := hsp
          have hd : h.length = (h.length - 1) + 1 := by have := h4.lt; omega
          simp only [addr, deref_some, Go.bind_ok, hsp', load_of h1a, kS_cons, List.cons_append, hk0, hq,
            reduceCtorEq, if_false, hc0]
          rw [hd, hin, Go.bind_ok, hus]
          rfl
        · have : A ++ (key, value) :: (B' ++ q0 :: R) = (A ++ (key, value) :: B') ++ (q0 :: R) := by simp
          rw [this]
          refine .node (zs := h.length :: zs) ?_ (by simp) (by simp; omega) h2y ?_ (by simp [h6]) ?_
            (List.nodup_cons.2 ⟨fun hz => by have := (h7 _ hz).lt; omega, h8⟩)
          · simp at hY10 ⊢; omega
          · rw [h2a, h1a]
            have : 11 - (q0 :: R).length = (9 - R.length) + 1 := by simp; omega
            rw [this]
            rfl
          · intro z hz
            rcases List.mem_cons.1 hz with rfl | hz
            · exact h2z
            · exact (h7 z hz).congr (h2o z (h7 z hz).lt (haz z hz) (hyz z hz))
        · refine ⟨by omega, ?_, ?_⟩
          · intro r hr hnr
            simp at hnr
            exact h2o r hr (by omega) (by omega)
          · intro r hr
            simp at hr
            rcases hr with rfl | rfl | rfl | hr
            · left; simp
            · left; simp
            · right; omega
            · left; simp [hr]

/-- A new key that fits. -/
theorem Good.insert_fresh (hc : LawfulCmp cmp) {h : BStore κ ν} {m : BMap} {l : List (κ × ν)} {fp : List Nat}
    (hg : Good cmp h m l fp) {key : κ} (hm : OMap.mem cmp l key = false)
    (hf : l.length < 11 ∨ (l.length < 21 ∧ ∃ e, l[10]? = some e ∧ cmp key e.1 = .lt)) (value : ν) :
    ∃ h' m' fp', BMap.insert cmp h m key value = .ok (h', m', ⟨none⟩) ∧
      Good cmp h' m' (OMap.insert cmp l key value) fp' ∧ Frame h fp h' fp' := by
  obtain ⟨h', m', fp', hi, hg', hfr, _⟩ := hg.insert_fresh_root hc hm hf value
  exact ⟨h', m', fp', hi, hg', hfr⟩
end Gost.BTree
