import Verif.Lemmas.BTreeFill
/-
Remove on maps with twelve keys or more: the shapes after it and the lookups in them.
-/
namespace Gost.BTree
open Spec
variable {κ ν : Type} {cmp : κ → κ → Ordering}

theorem bind_of {α β : Type} {x : Go α} {f : α → Go β} {v : α} {r : Go β} (h : x = .ok v) (h2 : f v = r) :
    (x >>= f) = r := by rw [h, Go.bind_ok, h2]

/-- A leaf whose slots hold `L`, whatever its count says. -/
def SlotsAt (h : BStore κ ν) (a : Nat) (L : List (κ × ν)) : Prop :=
  ∃ mind n cs c, h[a]? = some ⟨true, mind, kS L ++ List.replicate c none, vS L ++ List.replicate c none, n, cs⟩

/-- Get in a root whose children are leaves. -/
theorem get_two (hc : LawfulCmp cmp) {h : BStore κ ν} {a len : Nat} {mind n : Int} {cs : List (Option Nat)}
    {R : List (κ × ν)} {t : List (Option κ)} {u : List (Option ν)} {L : Nat → List (κ × ν)}
    (ha : h[a]? = some ⟨false, mind, kS R ++ none :: t, vS R ++ u, n, cs⟩) (hR : Ascending cmp R)
    (hL : ∀ i, Ascending cmp (L i))
    (hch : ∀ i, i ≤ R.length → ∃ ch, cs[i]? = some (some ch) ∧ SlotsAt h ch (L i)) (k : κ) :
    (OMap.mem cmp R k = true ∧ BMap.get cmp h ⟨some a, len⟩ k = .ok ⟨OMap.lookup cmp R k⟩) ∨
    (∃ A B, R = A ++ B ∧ (∀ e ∈ A, cmp k e.1 = .gt) ∧ (∀ e ∈ B, cmp k e.1 = .lt) ∧
      BMap.get cmp h ⟨some a, len⟩ k = .ok ⟨OMap.lookup cmp (L A.length) k⟩) := by
  rcases locate hc hR k with ⟨A, b, B, rfl, hA, hb, hB⟩ | ⟨A, B, rfl, hA, hB⟩
  · left
    refine ⟨mem_found hb, ?_⟩
    have hs : search cmp h k (h.length + 1) a = .ok (some (a, A.length)) := search_found ha rfl hA hb
    have hi : index (vS (A ++ b :: B) ++ u) A.length = .ok (some b.2) := by unfold index; simp
    simp only [BMap.get, hs, Go.bind_ok, load_of ha, hi, deref_some, lookup_found hc hR hb]
    rfl
  · right
    refine ⟨A, B, rfl, hA, hB, ?_⟩
    obtain ⟨ch, hc1, mind', n', cs', c, hn⟩ := hch A.length (by simp)
    have hgo : search cmp h k (h.length + 1) a = search cmp h k h.length ch :=
      search_fresh_node ha rfl rfl hA hB hc1
    obtain ⟨d, hd⟩ : ∃ d, h.length = d + 1 :=
      ⟨h.length - 1, by have := (List.getElem?_eq_some_iff.1 hn).1; omega⟩
    rcases locate hc (hL A.length) k with ⟨A', b, B', e, hA', hb, hB'⟩ | ⟨A', B', e, hA', hB'⟩
    · have hs : search cmp h k (h.length + 1) a = .ok (some (ch, A'.length)) := by
        rw [hgo, hd]; exact search_found hn (t := List.replicate c none) (by rw [e]) hA' hb
      have hi : index (vS (L A.length) ++ List.replicate c none) A'.length = .ok (some b.2) := by
        rw [e]; unfold index; simp
      have hl : OMap.lookup cmp (L A.length) k = some b.2 := by
        have := hL A.length
        rw [e] at this ⊢; exact lookup_found hc this hb
      simp only [BMap.get, hs, Go.bind_ok, load_of hn, hi, deref_some, hl]
      rfl
    · have hs : search cmp h k (h.length + 1) a = .ok none := by
        rw [hgo, hd]; exact search_fresh_leaf hn rfl (c := c) (by rw [e]) hA' hB'
      simp only [BMap.get, hs, Go.bind_ok]
      rw [e, lookup_fresh hA' hB']; rfl

theorem setPair {α : Type} {h : List α} {x y : Nat} {u v : α} (hx : x < h.length) (hne : x ≠ y) :
    ((h.set x u).set y v)[x]? = some u := by
  rw [List.getElem?_set_ne (by omega), List.getElem?_set_self hx]

theorem lookup_none_of {l : List (κ × ν)} {k : κ} {o : Ordering} (ho : o ≠ .eq) (h : ∀ e ∈ l, cmp k e.1 = o) :
    OMap.lookup cmp l k = none := by
  rw [OMap.lookup_eq_none, OMap.mem_false]
  intro e he; rw [h e he]; exact ho

/-- The parts of a tree with twelve keys or more. -/
theorem Good.big {h : BStore κ ν} {m : BMap} {l : List (κ × ν)} {fp : List Nat} (hg : Good cmp h m l fp)
    (hl : 12 ≤ l.length) : ∃ (a y z : Nat) (zs : List Nat) (cs cz : List (Option Nat))
      (Y : List (κ × ν)) (r : κ × ν) (R : List (κ × ν)), l = Y ++ r :: R ∧ Y.length = 11 ∧ R.length ≤ 9 ∧
      m.root = some a ∧ m.len = l.length ∧ a ≠ y ∧ a ≠ z ∧ y ≠ z ∧ a ∉ zs ∧ y ∉ zs ∧
      h[y]? = some ⟨true, 0, kS Y, vS Y, 11, cs⟩ ∧
      h[z]? = some ⟨true, 0, List.replicate 11 none, List.replicate 11 none, 10, cz⟩ ∧
      h[a]? = some ⟨false, 11, some r.1 :: (kS R ++ none :: List.replicate (9 - R.length) none),
        some r.2 :: (vS R ++ none :: List.replicate (9 - R.length) none), R.length + 1,
        some y :: some z :: (zs.map some ++ none :: List.replicate (9 - R.length) none)⟩ ∧
      zs.length = R.length ∧ (∀ x ∈ zs, EmptyAt h x) ∧ z ∉ zs := by
  obtain ⟨root, len⟩ := m
  obtain ⟨asc, hlen, tree⟩ := hg
  simp only at hlen tree
  cases tree with
  | nil => simp at hl
  | leaf _ h => have := h.1; omega
  | @node a y zs Y R h1 h2 h3 h4 h5 h6 h7 h8 =>
    cases R with
    | nil => exact absurd rfl h2
    | cons r R =>
      cases zs with
      | nil => simp at h6
      | cons z zs =>
        obtain ⟨_, cs, hy⟩ := h4
        obtain ⟨cz, hz⟩ := h7 z (by simp)
        have hR : R.length ≤ 9 := by simp at h3; exact h3
        have e11 : 11 - (r :: R).length = (9 - R.length) + 1 := by simp; omega
        rw [e11, List.replicate_succ, List.replicate_succ] at h5
        rw [h1] at hy
        have hne : ∀ x, EmptyAt h x → a ≠ x ∧ y ≠ x := by
          rintro x ⟨cx, hx⟩
          constructor
          · rintro rfl; rw [h5] at hx; simp at hx
          · rintro rfl; rw [hy] at hx
            simp only [Option.some.injEq, BNode.mk.injEq] at hx
            omega
        refine ⟨a, y, z, zs, cs, cz, Y, r, R, rfl, h1, hR, rfl, hlen, ?_, (hne z ⟨cz, hz⟩).1, (hne z ⟨cz, hz⟩).2,
          fun hx => (hne a (h7 a (by simp [hx]))).1 rfl, fun hx => (hne y (h7 y (by simp [hx]))).2 rfl,
          ?_, hz, ?_, by simpa using h6, fun x hx => h7 x (by simp [hx]), (List.nodup_cons.1 h8).1⟩
        · rintro rfl; rw [h5] at hy; simp at hy
        · rw [hy]; simp
        · rw [h5]; simp [List.replicate_succ]

/-- Below the twelfth key Remove goes straight to the first child. -/
theorem removeNode_first (hc : LawfulCmp cmp) {h : BStore κ ν} {a y d : Nat} {r : κ × ν} {R : List (κ × ν)}
    {t : List (Option κ)} {vs : List (Option ν)} {cs : List (Option Nat)} {ny : BNode κ ν}
    (ha : h[a]? = some ⟨false, 11, some r.1 :: (kS R ++ t), vs, R.length + 1, some y :: cs⟩)
    (hy : h[y]? = some ny) (hn : ny.n = 11) {key : κ} (hr : cmp key r.1 = .lt) :
    removeNode cmp (d + 1) h a key = removeNode cmp d h y key := by
  have hr' : cmp r.1 key = .gt := (hc.gt_iff _ _).2 hr
  rw [removeNode, load_of ha, Go.bind_ok]
  have hk : findKeyLoop cmp key ((R.length : Int) + 1) (some r.1 :: (kS R ++ t)) 0 = .ok 0 := by
    have := findKeyLoop_eq (cmp := cmp) (A := ([] : List (κ × ν))) (key := key) (by simp)
      (some r.1 :: (kS R ++ t)) ((R.length : Int) + 1) 0
      (.inr ⟨by simp only [List.length_nil]; omega, r.1, _, rfl, by rw [hr']; decide⟩)
    simpa using this
  simp only [findKey, hk, Go.bind_ok]
  rw [if_pos (by omega)]
  have hg0 : ∀ t : List (Option κ), getAt (some r.1 :: t) 0 = .ok (some r.1) := fun _ => rfl
  have hc0 : ∀ t : List (Option Nat), getAt (some y :: t) 0 = .ok (some y) := fun _ => rfl
  simp only [hg0, Go.bind_ok, hr', reduceCtorEq, decide_false,
    Bool.false_eq_true, if_false, childN, hc0, load_of hy, hn]
  rw [if_neg (by omega), Go.bind_ok, load_of ha, Go.bind_ok]
  have hf : decide ((0 : Int) = (R.length : Int) + 1) = false := by simp; omega
  simp only [hf, Bool.false_and, Bool.false_eq_true, if_false, hc0, Go.bind_ok, addr, deref_some]

/-- Search below the twelfth key goes to the first child. -/
theorem search_first {h : BStore κ ν} {a y d : Nat} {r : κ × ν} {R : List (κ × ν)} {mind n : Int}
    {t : List (Option κ)} {vs : List (Option ν)} {cs : List (Option Nat)}
    (ha : h[a]? = some ⟨false, mind, some r.1 :: (kS R ++ none :: t), vs, n, some y :: cs⟩)
    {key : κ} (hr : ∀ e ∈ r :: R, cmp key e.1 = .lt) :
    search cmp h key (d + 1) a = search cmp h key d y :=
  search_fresh_node ha rfl (A := []) (B := r :: R) rfl (by simp) hr (by simp)

theorem usizeSub_len {len n : Nat} (h : len = n + 1) (hn : n < 2 ^ 32) : usizeSub len 1 = n := by
  subst h; unfold usizeSub; omega

/-- Remove of one of the first eleven keys: it goes from the leaf, except that the eleventh stays. -/
theorem Good.remove_low (hc : LawfulCmp cmp) {h : BStore κ ν} {m : BMap} {A B l : List (κ × ν)} {b : κ × ν}
    {fp : List Nat} (hg : Good cmp h m (A ++ b :: (B ++ l)) fp) (hl : l ≠ []) (hY : A.length + B.length = 10) {key : κ}
    (hb : cmp key b.1 = .eq) :
    ∃ h' m', BMap.remove cmp h m key = .ok (h', m', ⟨some (((B.head?).map (·.2)).getD b.2)⟩) ∧
      m'.len = (A ++ B ++ l).length ∧
      ∀ k, BMap.get cmp h' m' k = .ok ⟨OMap.lookup cmp (if B = [] then A ++ b :: (B ++ l) else A ++ B ++ l) k⟩ := by
  have hlen12 : 12 ≤ (A ++ b :: (B ++ l)).length := by
    have := List.length_pos_iff.2 hl
    simp; omega
  have asc := hg.asc
  obtain ⟨a, y, z, zs, cs, cz, Y, r, R, e, hY11, hR9, hroot, hml, nay, naz, nyz, nazs, nyzs, hy, hz, ha, hzs, hE, nzzs⟩ :=
    hg.big hlen12
  obtain ⟨root, len⟩ := m
  simp only at hroot hml
  subst hroot
  have e1 : Y = A ++ b :: B ∧ r :: R = l := by
    have : (A ++ b :: B) ++ l = Y ++ r :: R := by rw [← e]; simp
    have := List.append_inj this (by simp; omega)
    exact ⟨this.1.symm, this.2.symm⟩
  obtain ⟨rfl, rfl⟩ := e1
  have hA : ∀ e ∈ A, cmp key e.1 = .gt := by
    intro e he
    have := (List.pairwise_append.1 asc).2.2 e he b (by simp)
    rw [hc.eq_left hb]; exact (hc.lt_iff _ _).1 this
  have hbl : ∀ e ∈ B ++ r :: R, cmp key e.1 = .lt := by
    intro e he
    have := (List.pairwise_cons.1 (List.pairwise_append.1 asc).2.1).1 e he
    rw [hc.eq_left hb]; exact this
  have hyl := (List.getElem?_eq_some_iff.1 hy).1
  have hal := (List.getElem?_eq_some_iff.1 ha).1
  obtain ⟨d, hd⟩ : ∃ d, h.length = d + 1 := ⟨h.length - 1, by omega⟩
  have hs : search cmp h key (h.length + 1) a = .ok (some (y, A.length)) := by
    rw [search_first ha (fun e he => hbl e (by simp [List.mem_cons.1 he])), hd]
    exact search_found hy (B := B) (t := []) (by simp) hA hb
  have hy' : h[y]? = some ⟨true, 0, kS (A ++ b :: B) ++ [], vS (A ++ b :: B) ++ [],
      ((A ++ b :: B).length : Nat), cs⟩ := by rw [hy, hY11]; simp
  obtain ⟨nd, hnd⟩ : ∃ nd : BNode κ ν, nd = ⟨true, 0, kS (A ++ B) ++ [if B = [] then some b.1 else none],
      vS (A ++ B) ++ [if B = [] then some b.2 else none], ((A ++ B).length : Nat), cs⟩ := ⟨_, rfl⟩
  have hrem : removeNode cmp (h.length + 1) h a key = .ok (h.set y nd) := by
    rw [removeNode_first hc ha hy rfl (hbl r (by simp)), hd, hnd]
    exact removeNode_found hc hy' hA hb
  have hset : (h.set y nd)[y]? = some nd := List.getElem?_set_self hyl
  have hseta := (List.getElem?_set_ne (a := nd) (l := h) (Ne.symm nay)).trans ha
  have hv : index nd.values A.length = .ok (some (((B.head?).map (·.2)).getD b.2)) := by
    rw [hnd]
    unfold index
    cases B with
    | nil => simp
    | cons c B => simp
  refine ⟨h.set y nd, ⟨some a, (A ++ B ++ r :: R).length⟩, ?_, rfl, ?_⟩
  · simp only [BMap.remove, hs, Go.bind_ok, hrem, load_of hseta, load_of hset, hv, deref_some]
    rw [if_neg (by omega), Go.bind_ok, usizeSub_len (n := (A ++ B ++ r :: R).length)]
    · rfl
    · rw [hml]; simp; omega
    · simp; omega
  · intro k
    have hsub : Ascending cmp (if B = [] then A ++ b :: B else A ++ B) := by
      have : Ascending cmp (A ++ b :: B) := asc.sublist (by simp)
      split
      · exact this
      · exact this.sublist (by simp)
    have hRa : Ascending cmp (r :: R) := asc.sublist (by
      rw [show A ++ b :: (B ++ r :: R) = (A ++ b :: B) ++ r :: R by simp]
      exact List.sublist_append_right _ _)
    have hYR : ∀ e ∈ A ++ b :: B, ∀ f ∈ r :: R, cmp e.1 f.1 = .lt := by
      have : Ascending cmp ((A ++ b :: B) ++ r :: R) := by simpa using asc
      exact (List.pairwise_append.1 this).2.2
    have htot : (if B = [] then A ++ b :: (B ++ r :: R) else A ++ B ++ r :: R) =
        (if B = [] then A ++ b :: B else A ++ B) ++ r :: R := by split <;> simp
    have hmem : ∀ e ∈ (if B = [] then A ++ b :: B else A ++ B), e ∈ A ++ b :: B := by
      intro e; split
      · exact id
      · intro he
        rcases List.mem_append.1 he with he | he
        · exact List.mem_append_left _ he
        · exact List.mem_append_right _ (List.mem_cons_of_mem _ he)
    rw [htot, OMap.lookup_append]
    rcases get_two (len := (A ++ B ++ r :: R).length) hc (a := a) (R := r :: R)
        (L := fun i => if i = 0 then (if B = [] then A ++ b :: B else A ++ B) else [])
        hseta hRa
        (by intro i; split
            · exact hsub
            · exact .nil)
        (by
          intro i hi
          match i with
          | 0 =>
            refine ⟨y, rfl, 0, ((A ++ B).length : Nat), cs, if B = [] then 0 else 1, hset.trans ?_⟩
            rw [hnd]
            by_cases hB : B = []
            · subst hB; simp
            · simp [hB]
          | 1 =>
            refine ⟨z, rfl, 0, 10, cz, 11, ?_⟩
            rw [List.getElem?_set_ne (by omega)]; exact hz
          | i + 2 =>
            simp only [List.length_cons] at hi
            have hlt : i < zs.length := by omega
            obtain ⟨cx, hx⟩ := hE zs[i] (List.getElem_mem hlt)
            refine ⟨zs[i], by simp [List.getElem?_append_left, hlt], 0, 10, cx, 11, ?_⟩
            rw [List.getElem?_set_ne (by rintro rfl; exact nyzs (List.getElem_mem hlt))]; exact hx) k with
      ⟨hm, hget⟩ | ⟨A', B', eR, hA', hB', hget⟩
    · rw [hget]
      obtain ⟨x, hx, hkx⟩ := OMap.mem_iff.1 hm
      rw [lookup_none_of (l := if B = [] then A ++ b :: B else A ++ B) (o := .gt) (by decide)]
      · rfl
      · intro e he
        rw [hc.eq_left hkx, ← hc.lt_iff]
        exact hYR e (hmem e he) x hx
    · rw [hget]
      cases A' with
      | nil =>
        simp only [List.nil_append] at eR
        rw [lookup_none_of (l := r :: R) (o := .lt) (by decide) (by rw [eR]; exact hB')]
        simp
      | cons x A' =>
        obtain ⟨rfl, rfl⟩ : r = x ∧ R = A' ++ B' := by simpa using eR
        have hrk := hA' r (by simp)
        have e1 : OMap.lookup cmp (if B = [] then A ++ b :: B else A ++ B) k = none := by
          refine lookup_none_of (o := .gt) (by decide) ?_
          intro e he
          rw [hc.gt_iff]
          exact hc.lt_trans (hYR e (hmem e he) r (by simp)) ((hc.lt_iff _ _).2 hrk)
        have e2 : OMap.lookup cmp (r :: (A' ++ B')) k = none := lookup_fresh (A := r :: A') hA' hB'
        rw [e1, e2]; rfl

/-- Get when the first key of the root is the last of the first child, and the second child has `Z`. -/
theorem get_shape (hc : LawfulCmp cmp) {h : BStore κ ν} {a y z len : Nat} {zs : List Nat} {mind n : Int}
    {A Z R : List (κ × ν)} {q : κ × ν} {t : List (Option κ)} {u : List (Option ν)} {w : List (Option Nat)}
    (asc : Ascending cmp (A ++ q :: (Z ++ R)))
    (ha : h[a]? = some ⟨false, mind, kS (q :: R) ++ none :: t, vS (q :: R) ++ u, n,
      some y :: some z :: (zs.map some ++ w)⟩)
    (hy : SlotsAt h y (A ++ [q])) (hz : SlotsAt h z Z) (hE : ∀ x ∈ zs, SlotsAt h x []) (hzs : zs.length = R.length)
    (k : κ) : BMap.get cmp h ⟨some a, len⟩ k = .ok ⟨OMap.lookup cmp (A ++ q :: (Z ++ R)) k⟩ := by
  have hAq : ∀ e ∈ A, ∀ f ∈ q :: (Z ++ R), cmp e.1 f.1 = .lt := (List.pairwise_append.1 asc).2.2
  have asc2 := List.pairwise_cons.1 (List.pairwise_append.1 asc).2.1
  have hZR := (List.pairwise_append.1 asc2.2).2.2
  have hqR : Ascending cmp (q :: R) := asc.sublist (by
    refine .trans ?_ (List.sublist_append_right A _)
    simp)
  rcases get_two (len := len) hc (L := fun i => if i = 0 then A ++ [q] else if i = 1 then Z else []) ha hqR
    (by
      intro i
      split
      · exact asc.sublist (by simp)
      · split
        · exact (List.pairwise_append.1 asc2.2).1
        · exact .nil)
    (by
      intro i hi
      match i with
      | 0 => exact ⟨y, rfl, hy⟩
      | 1 => exact ⟨z, rfl, hz⟩
      | i + 2 =>
        simp only [List.length_cons] at hi
        have hlt : i < zs.length := by omega
        exact ⟨zs[i], by simp [List.getElem?_append_left, hlt], hE _ (List.getElem_mem hlt)⟩) k with
    ⟨hm, hget⟩ | ⟨A', B', eR, hA', hB', hget⟩
  · rw [hget, OMap.lookup_append, lookup_none_of (l := A) (o := .gt) (by decide), Option.none_or,
      OMap.lookup_cons, OMap.lookup_cons]
    · by_cases hq : cmp k q.1 = .eq
      · rw [if_pos hq, if_pos hq]
      · rw [if_neg hq, if_neg hq, OMap.lookup_append]
        obtain ⟨x, hx, hkx⟩ := OMap.mem_iff.1 hm
        rcases List.mem_cons.1 hx with rfl | hx
        · exact absurd hkx hq
        · rw [lookup_none_of (l := Z) (o := .gt) (by decide), Option.none_or]
          intro e he
          rw [hc.eq_left hkx, ← hc.lt_iff]; exact hZR e he x hx
    · intro e he
      obtain ⟨x, hx, hkx⟩ := OMap.mem_iff.1 hm
      rw [hc.eq_left hkx, ← hc.lt_iff]
      refine hAq e he x ?_
      rcases List.mem_cons.1 hx with rfl | hx
      · simp
      · simp [hx]
  · rw [hget, OMap.lookup_append, OMap.lookup_cons, OMap.lookup_append]
    have hR : OMap.lookup cmp (q :: R) k = none := by rw [eR]; exact lookup_fresh hA' hB'
    rw [OMap.lookup_cons] at hR
    have hq : cmp k q.1 ≠ .eq := by intro hq; rw [if_pos hq] at hR; cases hR
    rw [if_neg hq] at hR
    rw [if_neg hq, hR, Option.or_none]
    cases A' with
    | nil =>
      simp only [List.nil_append] at eR
      have hkq : cmp k q.1 = .lt := hB' q (by rw [← eR]; simp)
      rw [lookup_none_of (l := Z) (o := .lt) (by decide)]
      · simp only [List.length_nil, if_true]
        rw [OMap.lookup_append, OMap.lookup_cons, if_neg hq, OMap.lookup_nil]
      · intro e he
        exact hc.lt_trans hkq (asc2.1 e (by simp [he]))
    | cons x A' =>
      obtain ⟨rfl, e2⟩ : q = x ∧ R = A' ++ B' := by simpa using eR
      have hqk := (hc.lt_iff _ _).2 (hA' q (by simp))
      rw [lookup_none_of (l := A) (o := .gt) (by decide), Option.none_or]
      · cases A' with
        | nil => rfl
        | cons x A' =>
          rw [lookup_none_of (l := Z) (o := .gt) (by decide)]
          · rfl
          · intro e he
            rw [hc.gt_iff]
            exact hc.lt_trans (hZR e he x (by rw [e2]; simp)) ((hc.lt_iff _ _).2 (hA' x (by simp)))
      · intro e he
        rw [hc.gt_iff]
        exact hc.lt_trans (hAq e he q (by simp)) hqk

theorem SlotsAt.empty {h : BStore κ ν} {z : Nat} (hz : EmptyAt h z) : SlotsAt h z ([] : List (κ × ν)) := by
  obtain ⟨cs, hz⟩ := hz
  exact ⟨0, 10, cs, 11, hz⟩

theorem EmptyAt.set {h : BStore κ ν} {z x : Nat} {nd : BNode κ ν} (hz : EmptyAt h z) (hne : x ≠ z) :
    EmptyAt (h.set x nd) z := hz.congr (List.getElem?_set_ne hne)

theorem getAt_last {α : Type} {A : List α} {q : α} (hA : A.length = 10) (t : List α) :
    getAt (A ++ q :: t) 10 = .ok q := getAt_mid A q t 10 (by omega)

/-- Remove of the twelfth key. -/
theorem Good.remove_twelfth (hc : LawfulCmp cmp) {h : BStore κ ν} {m : BMap} {A R : List (κ × ν)} {q r : κ × ν}
    {fp : List Nat} (hg : Good cmp h m (A ++ q :: r :: R) fp) (hA : A.length = 10) {key : κ}
    (hb : cmp key r.1 = .eq) :
    ∃ h' m', BMap.remove cmp h m key = .ok (h', m', ⟨some q.2⟩) ∧
      m'.len = (A ++ q :: R).length ∧
      ∀ k, BMap.get cmp h' m' k = .ok ⟨OMap.lookup cmp (A ++ q :: R) k⟩ := by
  have asc := hg.asc
  obtain ⟨a, y, z, zs, cs, cz, Y, r', R', e, hY11, hR9, hroot, hml, nay, naz, nyz, nazs, nyzs, hy, hz, ha, hzs, hE, nzzs⟩ :=
    hg.big (by simp; omega)
  obtain ⟨root, len⟩ := m
  simp only at hroot hml
  subst hroot
  have e1 : A ++ [q] = Y ∧ r :: R = r' :: R' :=
    List.append_inj (by simpa using e) (by simp; omega)
  obtain ⟨rfl, e1⟩ := e1
  cases e1
  have hyl := (List.getElem?_eq_some_iff.1 hy).1
  have hal := (List.getElem?_eq_some_iff.1 ha).1
  obtain ⟨d, hd⟩ : ∃ d, h.length = d + 1 := ⟨h.length - 1, by omega⟩
  have hb' : cmp r.1 key = .eq := (hc.eq_comm _ _).2 hb
  have hs : search cmp h key (h.length + 1) a = .ok (some (a, 0)) :=
    search_found ha (A := []) (B := R) (t := none :: List.replicate (9 - R.length) none) (by simp) (by simp) hb
  have hAq : ∀ e ∈ A, cmp q.1 e.1 = .gt := by
    intro e he
    rw [← hc.lt_iff]; exact (List.pairwise_append.1 asc).2.2 e he q (by simp)
  obtain ⟨na, hna⟩ : ∃ nd : BNode κ ν, nd = ⟨false, 11, some q.1 :: (kS R ++ none :: List.replicate (9 - R.length) none),
        some q.2 :: (vS R ++ none :: List.replicate (9 - R.length) none), R.length + 1,
        some y :: some z :: (zs.map some ++ none :: List.replicate (9 - R.length) none)⟩ := ⟨_, rfl⟩
  obtain ⟨ny, hny⟩ : ∃ nd : BNode κ ν, nd = ⟨true, 0, kS (A ++ []) ++ [some q.1], vS (A ++ []) ++ [some q.2],
    ((A ++ []).length : Nat), cs⟩ := ⟨_, rfl⟩
  have hy1 : (h.set a na)[y]? = some ⟨true, 0, kS (A ++ [q]) ++ [], vS (A ++ [q]) ++ [],
      ((A ++ [q]).length : Nat), cs⟩ := by
    rw [List.getElem?_set_ne nay, hy, hY11]; simp
  have hrem : removeNode cmp (h.length + 1) h a key = .ok ((h.set a na).set y ny) := by
    rw [removeNode, load_of ha, Go.bind_ok]
    have hk : findKeyLoop cmp key ((R.length : Int) + 1)
        (some r.1 :: (kS R ++ none :: List.replicate (9 - R.length) none)) 0 = .ok 0 := by
      have := findKeyLoop_eq (cmp := cmp) (A := ([] : List (κ × ν))) (key := key) (by simp)
        (some r.1 :: (kS R ++ none :: List.replicate (9 - R.length) none)) ((R.length : Int) + 1) 0
        (.inr ⟨by simp only [List.length_nil]; omega, r.1, _, rfl, by rw [hb']; decide⟩)
      simpa using this
    simp only [findKey, hk, Go.bind_ok]
    rw [if_pos (by omega)]
    have hg0 : ∀ {α : Type} (x : α) (t : List α), getAt (x :: t) 0 = .ok x := fun _ _ => rfl
    have hs0 : ∀ {α : Type} (x y : α) (t : List α), setAt (x :: t) 0 y = .ok (y :: t) := fun _ _ _ => rfl
    have hk10 : getAt (kS (A ++ [q])) 10 = .ok (some q.1) := by
      rw [kS_append]; exact getAt_last (by simpa using hA) []
    have hv10 : getAt (vS (A ++ [q])) 10 = .ok (some q.2) := by
      rw [vS_append]; exact getAt_last (by simpa using hA) []
    have hf := removeNode_found (d := d) hc (B := []) hy1 hAq (hc.refl q.1)
    simp only [hg0, Go.bind_ok, hb', decide_true, if_true, Bool.false_eq_true, if_false, removeFromNonLeaf,
      load_of ha, childN, load_of hy]
    rw [if_pos (by omega)]
    simp only [getPred, hg0, Go.bind_ok, predLoop, load_of hy, if_true, addr, deref_some]
    simp only [show (11 : Int) - 1 = 10 from rfl, hk10, hv10, hs0, Go.bind_ok, hd]
    rw [← hna, deref_some, Go.bind_ok, hf, hny]; simp
  have hset : ((h.set a na).set y ny)[y]? = some ny := List.getElem?_set_self (by simpa using hyl)
  have hseta : ((h.set a na).set y ny)[a]? = some na := by
    rw [List.getElem?_set_ne (Ne.symm nay), List.getElem?_set_self hal]
  refine ⟨(h.set a na).set y ny, ⟨some a, (A ++ q :: R).length⟩, ?_, rfl, ?_⟩
  rotate_left
  · intro k
    refine get_shape hc (Z := []) (mind := 11) (n := R.length + 1) (y := y) (z := z) (zs := zs)
      (t := List.replicate (9 - R.length) none) (u := none :: List.replicate (9 - R.length) none)
      (w := none :: List.replicate (9 - R.length) none)
      (asc.sublist (by simp)) (hseta.trans (by rw [hna]; simp)) ⟨0, 10, cs, 0, hset.trans ?_⟩ ?_ ?_ hzs k
    · rw [hny]; simp [hA]
    · exact .empty (EmptyAt.set (EmptyAt.set ⟨cz, hz⟩ naz) nyz)
    · intro x hx
      exact .empty (EmptyAt.set (EmptyAt.set (hE x hx) (by rintro rfl; exact nazs hx)) (by rintro rfl; exact nyzs hx))
  · simp only [BMap.remove, hs, Go.bind_ok, hrem, load_of hseta]
    rw [hna]
    simp only
    rw [if_neg (by omega)]
    simp only [Go.bind_ok, index, List.getElem?_cons_zero, deref_some]
    rw [usizeSub_len (n := (A ++ q :: R).length)]
    · rfl
    · rw [hml]; simp; omega
    · simp; omega

/-- Remove of an absent key above the twelfth and below the thirteenth: the entries move, nothing is lost. -/
theorem Good.remove_gap (hc : LawfulCmp cmp) {h : BStore κ ν} {m : BMap} {A R : List (κ × ν)} {q r : κ × ν}
    {fp : List Nat} (hg : Good cmp h m (A ++ q :: r :: R) fp) (hA : A.length = 10) {key : κ}
    (hr : cmp key r.1 = .gt) (hR : ∀ e ∈ R, cmp key e.1 = .lt) :
    ∃ (h' : BStore κ ν) (a y z : Nat) (zs : List Nat) (cs cz : List (Option Nat)),
      BMap.remove cmp h m key = .ok (h', m, ⟨none⟩) ∧ m.root = some a ∧ R.length ≤ 9 ∧
      h'[a]? = some ⟨false, 11, kS (q :: R) ++ none :: List.replicate (9 - R.length) none,
        vS (q :: R) ++ none :: List.replicate (9 - R.length) none, R.length + 1,
        some y :: some z :: (zs.map some ++ none :: List.replicate (9 - R.length) none)⟩ ∧
      h'[y]? = some ⟨true, 0, kS (A ++ [q]), vS (A ++ [q]), 10, cs⟩ ∧
      h'[z]? = some ⟨true, 0, some r.1 :: List.replicate 10 none, some r.2 :: List.replicate 10 none, 11, cz⟩ ∧
      zs.length = R.length ∧ ∀ x ∈ zs, EmptyAt h' x := by
  have asc := hg.asc
  obtain ⟨a, y, z, zs, cs, cz, Y, r', R', e, hY11, hR9, hroot, hml, nay, naz, nyz, nazs, nyzs, hy, hz, ha, hzs, hE, nzzs⟩ :=
    hg.big (by simp; omega)
  obtain ⟨root, len⟩ := m
  simp only at hroot hml
  subst hroot
  have e1 : A ++ [q] = Y ∧ r :: R = r' :: R' :=
    List.append_inj (by simpa using e) (by simp; omega)
  obtain ⟨rfl, e1⟩ := e1
  cases e1
  have hyl := (List.getElem?_eq_some_iff.1 hy).1
  have hzl := (List.getElem?_eq_some_iff.1 hz).1
  have hal := (List.getElem?_eq_some_iff.1 ha).1
  obtain ⟨d, hd⟩ : ∃ d, h.length = d + 1 := ⟨h.length - 1, by omega⟩
  have hr' : cmp r.1 key = .lt := (hc.lt_iff _ _).2 hr
  have hs : search cmp h key (h.length + 1) a = .ok none := by
    rw [search_fresh_node ha rfl (A := [r]) (B := R) (ch := z) (t := List.replicate (9 - R.length) none)
      (by simp) (by simpa using hr) hR (by simp), hd]
    exact search_fresh_leaf hz rfl (A := []) (B := []) (c := 11) rfl (by simp) (by simp)
  obtain ⟨na, hna⟩ : ∃ nd : BNode κ ν, nd = ⟨false, 11, some q.1 :: (kS R ++ none :: List.replicate (9 - R.length) none),
        some q.2 :: (vS R ++ none :: List.replicate (9 - R.length) none), R.length + 1,
        some y :: some z :: (zs.map some ++ none :: List.replicate (9 - R.length) none)⟩ := ⟨_, rfl⟩
  obtain ⟨ny, hny⟩ : ∃ nd : BNode κ ν, nd = ⟨true, 0, kS (A ++ [q]), vS (A ++ [q]), 10, cs⟩ := ⟨_, rfl⟩
  obtain ⟨nz, hnz⟩ : ∃ nd : BNode κ ν, nd = ⟨true, 0, some r.1 :: List.replicate 10 none,
    some r.2 :: List.replicate 10 none, 11, cz⟩ := ⟨_, rfl⟩
  have hg0 : ∀ {α : Type} (x : α) (t : List α), getAt (x :: t) 0 = .ok x := fun _ _ => rfl
  have hg1 : ∀ {α : Type} (x y : α) (t : List α), getAt (x :: y :: t) 1 = .ok y := fun _ _ _ => rfl
  have hs0 : ∀ {α : Type} (x y : α) (t : List α), setAt (x :: t) 0 y = .ok (y :: t) := fun _ _ _ => rfl
  have hk10 : getAt (kS (A ++ [q])) 10 = .ok (some q.1) := by
    rw [kS_append]; exact getAt_last (by simpa using hA) []
  have hv10 : getAt (vS (A ++ [q])) 10 = .ok (some q.2) := by
    rw [vS_append]; exact getAt_last (by simpa using hA) []
  have hborrow : borrowFromPrev h a 1 = .ok (((h.set z nz).set y ny).set a na) := by
    have hsh : forDown shiftR2 10 9 (List.replicate 11 (none : Option κ), List.replicate 11 (none : Option ν)) =
      .ok (none :: List.replicate 10 none, none :: List.replicate 10 none) := rfl
    simp only [borrowFromPrev, load_of ha, Go.bind_ok, hg1, show (1 : Int) - 1 = 0 from rfl, hg0, load_of hz,
      load_of hy, show ((10 : Int)).toNat = 10 from rfl, show (10 : Int) - 1 = 9 from rfl, hsh, Bool.not_true,
      Bool.false_eq_true, if_false, hs0, show (11 : Int) - 1 = 10 from rfl, hk10, hv10, addr, deref_some]
    rw [hna, hny, hnz]; rfl
  have hseta : (((h.set z nz).set y ny).set a na)[a]? = some na := List.getElem?_set_self (by simpa using hal)
  have hsety : (((h.set z nz).set y ny).set a na)[y]? = some ny := by
    rw [List.getElem?_set_ne nay, List.getElem?_set_self (by simpa using hyl)]
  have hsetz : (((h.set z nz).set y ny).set a na)[z]? = some nz := by
    rw [List.getElem?_set_ne naz, List.getElem?_set_ne nyz, List.getElem?_set_self hzl]
  have hlenn : (((h.set z nz).set y ny).set a na).length = d + 1 := by simpa using hd
  refine ⟨((h.set z nz).set y ny).set a na, a, y, z, zs, cs, cz, ?_, rfl, hR9, hseta.trans (by rw [hna]; rfl),
    hsety.trans (by rw [hny]), hsetz.trans (by rw [hnz]), hzs, ?_⟩
  · generalize hh : ((h.set z nz).set y ny).set a na = h' at *
    have hk : findKeyLoop cmp key ((R.length : Int) + 1)
        (some r.1 :: (kS R ++ none :: List.replicate (9 - R.length) none)) 0 = .ok 1 := by
      have := findKeyLoop_eq (cmp := cmp) (A := [r]) (key := key) (by simpa using hr')
        (kS R ++ none :: List.replicate (9 - R.length) none) ((R.length : Int) + 1) 0
        (by
          cases R with
          | nil => left; simp
          | cons f R =>
            right
            refine ⟨by simp; omega, f.1, _, rfl, ?_⟩
            rw [(hc.gt_iff _ _).2 (hR f (by simp))]; decide)
      simpa using this
    have hz1 : removeNode cmp (d + 1) h' z key = .ok h' := by
      rw [removeNode, load_of hsetz, hnz, Go.bind_ok]
      have : findKeyLoop cmp key 11 (some r.1 :: List.replicate 10 none) 0 = .ok 1 := by
        rw [findKeyLoop.eq_def]; simp only [show ((0 : Int) < 11) = True by decide, if_true, hr']
        rfl
      simp only [findKey, this, Go.bind_ok]
      rfl
    have hrem : removeNode cmp (h.length + 1) h a key = .ok h' := by
      rw [removeNode, load_of ha, Go.bind_ok]
      simp only [findKey, hk, Go.bind_ok]
      refine bind_of (v := false) ?_ ?_
      · cases R with
        | nil => rfl
        | cons f R =>
          rw [if_pos (by simp; omega)]
          have he := (hc.gt_iff _ _).2 (hR f (by simp))
          simp only [kS_cons, List.cons_append, hg1, Go.bind_ok, he]
          rfl
      simp only [Go.bind_ok, Bool.false_eq_true, if_false, childN, hg1, load_of hz]
      rw [if_pos (by omega)]
      have hfill : fill h a 1 = .ok h' := by
        simp only [fill, load_of ha, Go.bind_ok, childN, show (1 : Int) - 1 = 0 from rfl, hg0, load_of hy]
        rw [if_pos (by omega)]
        simp only [Go.bind_ok, show decide ((11 : Int) ≥ 11) = true from rfl, if_true, hborrow]
      rw [hfill, Go.bind_ok, load_of hseta, Go.bind_ok, hna]
      simp only
      have : (decide ((1 : Int) = (R.length : Int) + 1) && decide ((1 : Int) > (R.length : Int) + 1)) = false := by
        simp; omega
      rw [this]
      simp only [Bool.false_eq_true, if_false, hg1, Go.bind_ok, addr, deref_some, hd, hz1]
    simp only [BMap.remove, hs, Go.bind_ok, hrem, load_of hseta]
    rw [hna]
    simp only
    rw [if_neg (by omega)]
    rfl
  · intro x hx
    refine EmptyAt.set (EmptyAt.set ?_ (by rintro rfl; exact nyzs hx)) (by rintro rfl; exact nazs hx)
    exact EmptyAt.set (hE x hx) (by rintro rfl; exact nzzs hx)
end Gost.BTree
