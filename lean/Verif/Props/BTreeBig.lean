import Verif.Lemmas.BTreeBig
import Verif.Props.BTreeMap
/-
Properties C74 and C75 for maps with twelve keys or more: which calls of Remove work, and what the others do.
-/
namespace Gost
open Spec BTree

variable {κ ν : Type} {cmp : κ → κ → Ordering}

/-- The calls of Remove that work on a map with twelve keys or more: of a key below the thirteenth that is not
there, of one of the first ten keys when the next has the same value, and of the twelfth key when the
eleventh has the same value. -/
def RemoveOkBig (cmp : κ → κ → Ordering) (l : List (κ × ν)) (key : κ) : Prop :=
  (OMap.mem cmp l key = false ∧ ∀ e, l[12]? = some e → cmp key e.1 = .lt) ∨
  ∃ i e, l[i]? = some e ∧ cmp key e.1 = .eq ∧
    ((i < 10 ∧ (l[i + 1]?).map (·.2) = some e.2) ∨ (i = 11 ∧ (l[10]?).map (·.2) = some e.2))

theorem keys_inj (hc : LawfulCmp cmp) {l : List (κ × ν)} (hl : Ascending cmp l) {k : κ} {i j : Nat} {e f : κ × ν}
    (hi : l[i]? = some e) (hj : l[j]? = some f) (he : cmp k e.1 = .eq) (hf : cmp k f.1 = .eq) : i = j := by
  have hef : cmp e.1 f.1 = .eq := by rw [← hc.eq_left he]; exact hf
  obtain ⟨hi1, hi2⟩ := List.getElem?_eq_some_iff.1 hi
  obtain ⟨hj1, hj2⟩ := List.getElem?_eq_some_iff.1 hj
  rcases Nat.lt_trichotomy i j with h | h | h
  · have := List.pairwise_iff_getElem.1 hl i j hi1 hj1 h
    rw [hi2, hj2, hef] at this; cases this
  · exact h
  · have := List.pairwise_iff_getElem.1 hl j i hj1 hi1 h
    rw [hi2, hj2, (hc.eq_comm _ _).1 hef] at this; cases this

/-- The entry at a place of an ordered list, taken out of it. -/
theorem split_at {α : Type} {l : List α} {i : Nat} {e : α} (hi : l[i]? = some e) :
    ∃ A B, l = A ++ e :: B ∧ A.length = i := by
  obtain ⟨hi1, hi2⟩ := List.getElem?_eq_some_iff.1 hi
  refine ⟨l.take i, l.drop (i + 1), ?_, by simp; omega⟩
  rw [← hi2, ← List.drop_eq_getElem_cons hi1, List.take_append_drop]

/-- C74 fails: with twelve keys or more, Remove of one of the first ten returns the value of the next larger
key (and does remove the right one). -/
theorem C74_remove_low_fails (hc : LawfulCmp cmp) {h : BStore κ ν} {m : BMap} {l : List (κ × ν)}
    (hr : BMap.Reached cmp h m l) (hl : 12 ≤ l.length) {i : Nat} {e f : κ × ν} (hi : l[i]? = some e) (h10 : i < 10)
    (hf : l[i + 1]? = some f) {key : κ} (hb : cmp key e.1 = .eq) :
    ∃ h' m', BMap.remove cmp h m key = .ok (h', m', ⟨some f.2⟩) ∧ m'.length = l.length - 1 ∧
      ∀ k, BMap.get cmp h' m' k = .ok ⟨if cmp k key = .eq then none else OMap.lookup cmp l k⟩ := by
  obtain ⟨fp, hg⟩ := hr.good hc
  obtain ⟨A, B, rfl, rfl⟩ := split_at hi
  have hf' : B.head? = some f := by
    rw [List.getElem?_append_right (by omega)] at hf
    rw [List.head?_eq_getElem?]
    simpa using hf
  have hB : B = B.take (10 - A.length) ++ B.drop (10 - A.length) := (List.take_append_drop _ _).symm
  have hBl : 11 ≤ A.length + B.length := by simp at hl; omega
  rw [hB] at hg
  obtain ⟨h', m', e1, e2, e3⟩ := hg.remove_low hc (by
    intro h; have := congrArg List.length h; simp at this; omega) (by simp; omega) hb
  have hne : B.take (10 - A.length) ≠ [] := by
    intro h; have := congrArg List.length h; simp only [List.length_take, List.length_nil] at this; omega
  refine ⟨h', m', ?_, ?_, fun k => ?_⟩
  · rw [e1]
    have : (B.take (10 - A.length)).head? = some f := by
      rw [List.head?_take, if_neg (by omega), hf']
    rw [this]; rfl
  · rw [BMap.length, e2]; simp
  · rw [e3, if_neg hne, List.append_assoc, ← hB]
    rw [← hB] at hg
    have := OMap.lookup_remove hc (A ++ e :: B) key k
    rw [← this]
    have hrem : OMap.remove cmp (A ++ e :: B) key = A ++ B := by
      have hA : ∀ x ∈ A, cmp key x.1 ≠ .eq := by
        intro x hx hxe
        have := (List.pairwise_append.1 hg.asc).2.2 x hx e (by simp)
        rw [← hc.eq_left hxe, hb] at this; cases this
      have hB' : ∀ x ∈ B, cmp key x.1 ≠ .eq := by
        intro x hx hxe
        have := (List.pairwise_cons.1 (List.pairwise_append.1 hg.asc).2.1).1 x hx
        rw [← hc.eq_left hb, hxe] at this; cases this
      unfold OMap.remove
      rw [List.filter_append, List.filter_cons_of_neg (by simp [hb]), List.filter_eq_self.2, List.filter_eq_self.2]
      · intro x hx; simpa using hB' x hx
      · intro x hx; simpa using hA x hx
    rw [hrem]

/-- C74 fails: with twelve keys or more, Remove of the eleventh returns its value and lowers the count, but
the key stays. -/
theorem C74_remove_eleventh_fails (hc : LawfulCmp cmp) {h : BStore κ ν} {m : BMap} {l : List (κ × ν)}
    (hr : BMap.Reached cmp h m l) (hl : 12 ≤ l.length) {e : κ × ν} (hi : l[10]? = some e)
    {key : κ} (hb : cmp key e.1 = .eq) :
    ∃ h' m', BMap.remove cmp h m key = .ok (h', m', ⟨some e.2⟩) ∧ m'.length = l.length - 1 ∧
      ∀ k, BMap.get cmp h' m' k = .ok ⟨OMap.lookup cmp l k⟩ := by
  obtain ⟨fp, hg⟩ := hr.good hc
  obtain ⟨A, B, rfl, hA⟩ := split_at hi
  obtain ⟨h', m', e1, e2, e3⟩ := hg.remove_low (B := []) (l := B) hc (by rintro rfl; simp at hl; omega)
    (by simp; omega) hb
  refine ⟨h', m', e1, ?_, fun k => ?_⟩
  · rw [BMap.length, e2]; simp
  · rw [e3, if_pos rfl]; rfl

/-- C74 fails: with twelve keys or more, Remove of the twelfth returns the value of the eleventh (and does
remove the right one). -/
theorem C74_remove_twelfth_fails (hc : LawfulCmp cmp) {h : BStore κ ν} {m : BMap} {l : List (κ × ν)}
    (hr : BMap.Reached cmp h m l) {q e : κ × ν} (hq : l[10]? = some q) (hi : l[11]? = some e)
    {key : κ} (hb : cmp key e.1 = .eq) :
    ∃ h' m', BMap.remove cmp h m key = .ok (h', m', ⟨some q.2⟩) ∧ m'.length = l.length - 1 ∧
      ∀ k, BMap.get cmp h' m' k = .ok ⟨if cmp k key = .eq then none else OMap.lookup cmp l k⟩ := by
  obtain ⟨fp, hg⟩ := hr.good hc
  obtain ⟨A, B, rfl, hA⟩ := split_at hq
  cases B with
  | nil => rw [List.getElem?_eq_none (by simp; omega)] at hi; cases hi
  | cons r B =>
    rw [List.getElem?_append_right (by omega), show 11 - A.length = 1 by omega] at hi
    simp at hi
    subst hi
    obtain ⟨h', m', e1, e2, e3⟩ := hg.remove_twelfth hc hA hb
    refine ⟨h', m', e1, ?_, fun k => ?_⟩
    · rw [BMap.length, e2]; simp
    · rw [e3, ← OMap.lookup_remove hc]
      have hrem : OMap.remove cmp (A ++ q :: r :: B) key = A ++ q :: B := by
        have h1 : ∀ x ∈ A ++ [q], cmp key x.1 ≠ .eq := by
          intro x hx hxe
          have := (List.pairwise_append.1 (show Ascending cmp ((A ++ [q]) ++ r :: B) by simpa using hg.asc)).2.2 x hx r (by simp)
          rw [← hc.eq_left hxe, hb] at this; cases this
        have h2 : ∀ x ∈ B, cmp key x.1 ≠ .eq := by
          intro x hx hxe
          have := (List.pairwise_cons.1 (List.pairwise_cons.1 (List.pairwise_append.1 hg.asc).2.1).2).1 x hx
          rw [← hc.eq_left hb, hxe] at this; cases this
        unfold OMap.remove
        rw [show A ++ q :: r :: B = (A ++ [q]) ++ r :: B by simp, List.filter_append,
          List.filter_cons_of_neg (by simp [hb]), List.filter_eq_self.2, List.filter_eq_self.2]
        · simp
        · intro x hx; simpa using h2 x hx
        · intro x hx; simpa using h1 x hx
      rw [hrem]

/-- C74, in part: with twelve keys or more, exactly the calls `RemoveOkBig` work, that is, return the old
value, take away the key and only that, and count right.  Missing: all other calls, and there is none for a
key from the thirteenth on that does not panic (`C74_remove_panics_fails`). -/
theorem C74_remove_big_partial (hc : LawfulCmp cmp) {h : BStore κ ν} {m : BMap} {l : List (κ × ν)}
    (hr : BMap.Reached cmp h m l) (hl : 12 ≤ l.length) (key : κ) :
    (∃ h' m', BMap.remove cmp h m key = .ok (h', m', ⟨OMap.lookup cmp l key⟩) ∧
      m'.length = (if OMap.mem cmp l key then l.length - 1 else l.length) ∧
      ∀ k, BMap.get cmp h' m' k = .ok ⟨if cmp k key = .eq then none else OMap.lookup cmp l k⟩) ↔
    RemoveOkBig cmp l key := by
  obtain ⟨fp, hg⟩ := hr.good hc
  constructor
  · rintro ⟨h', m', e1, _, e2⟩
    have hno : ∀ e, l[12]? = some e → cmp key e.1 = .lt := by
      intro e he
      by_cases hk : cmp key e.1 = .lt
      · exact hk
      · obtain ⟨p, hp⟩ := C74_remove_panics_fails hc hr he hk
        rw [hp] at e1; cases e1
    cases hm : OMap.mem cmp l key with
    | false => exact .inl ⟨hm, hno⟩
    | true =>
      right
      obtain ⟨e, he, hke⟩ := OMap.mem_iff.1 hm
      obtain ⟨i, hi⟩ := List.mem_iff_getElem?.1 he
      have hi1 := (List.getElem?_eq_some_iff.1 hi).1
      have hlk := OMap.lookup_getElem hc hg.asc hi hke
      rw [hlk] at e1
      refine ⟨i, e, hi, hke, ?_⟩
      have hi12 : i < 12 := by
        refine Nat.lt_of_not_le fun h12 => ?_
        have h12l : 12 < l.length := by omega
        have hlt := hno l[12] (by simp [h12l])
        by_cases h : i = 12
        · subst h
          rw [List.getElem?_eq_getElem h12l] at hi
          cases hi
          rw [hke] at hlt; cases hlt
        · have := List.pairwise_iff_getElem.1 hg.asc 12 i h12l hi1 (by omega)
          rw [(List.getElem?_eq_some_iff.1 hi).2] at this
          have := hc.lt_trans hlt this
          rw [hke] at this; cases this
      rcases Nat.lt_trichotomy i 10 with h10 | h10 | h10
      · left
        have hf : l[i + 1]? = some l[i + 1] := by simp
        obtain ⟨h2, m2, f1, _⟩ := C74_remove_low_fails hc hr hl hi h10 hf hke
        rw [f1] at e1
        simp only [Except.ok.injEq, Prod.mk.injEq, Opt.mk.injEq] at e1
        exact ⟨h10, by rw [hf, Option.map_some, e1.2.2]⟩
      · subst h10
        exfalso
        obtain ⟨h2, m2, f1, _, f2⟩ := C74_remove_eleventh_fails hc hr hl hi hke
        rw [f1] at e1
        cases e1
        have := e2 key
        rw [f2, if_pos (hc.refl key), hlk] at this
        cases this
      · right
        obtain rfl : i = 11 := by omega
        have hq : l[10]? = some l[10] := by simp
        obtain ⟨h2, m2, f1, _⟩ := C74_remove_twelfth_fails hc hr hq hi hke
        rw [f1] at e1
        simp only [Except.ok.injEq, Prod.mk.injEq, Opt.mk.injEq] at e1
        exact ⟨rfl, by rw [hq, Option.map_some, e1.2.2]⟩
  · rintro (⟨hm, hlt⟩ | ⟨i, e, hi, hke, ⟨h10, hv⟩ | ⟨rfl, hv⟩⟩)
    · rw [OMap.lookup_eq_none.2 hm, hm]
      have hget : ∀ k, (if cmp k key = .eq then none else OMap.lookup cmp l k) = OMap.lookup cmp l k := by
        intro k
        split
        · next hk =>
          rw [OMap.lookup_eq_none.2]
          rw [OMap.mem_false] at hm ⊢
          intro x hx hkx
          exact hm x hx (by rw [← hc.eq_left hk]; exact hkx)
        · rfl
      have h11 : l[11]? = some l[11] := by simp
      by_cases h11k : cmp key l[11].1 = .lt
      · refine ⟨h, m, hg.remove_absent hc hm (by intro x hx; rw [h11] at hx; cases hx; exact h11k), hg.len, fun k => ?_⟩
        rw [hget, hg.get hc]
      · have h11g : cmp key l[11].1 = .gt := by
          cases hcm : cmp key l[11].1 with
          | lt => exact absurd hcm h11k
          | gt => rfl
          | eq => exact absurd hcm (OMap.mem_false.1 hm _ (by simp))
        have h10 : l[10]? = some l[10] := by simp
        obtain ⟨A, B, e, hA⟩ := split_at h10
        generalize hq : l[10] = q at *
        generalize hr11 : l[11] = r at *
        subst e
        cases B with
        | nil => simp at hl; omega
        | cons r' R =>
          rw [List.getElem?_append_right (by omega), show 11 - A.length = 1 by omega] at h11
          simp at h11
          subst h11
          have hR : ∀ x ∈ R, cmp key x.1 = .lt := by
            intro x hx
            cases R with
            | nil => simp at hx
            | cons s R =>
              have hs := hlt s (by
                rw [List.getElem?_append_right (by omega), show 12 - A.length = 2 by omega]; simp)
              rcases List.mem_cons.1 hx with rfl | hx
              · exact hs
              · have := (List.pairwise_cons.1 (List.pairwise_cons.1 (List.pairwise_cons.1
                  (List.pairwise_append.1 hg.asc).2.1).2).2).1 x hx
                exact hc.lt_trans hs this
          obtain ⟨h', a, y, z, zs, cs, cz, e1, e2, e3, ha, hy, hz, hzs, hE⟩ := hg.remove_gap hc hA h11g hR
          obtain ⟨root, len⟩ := m
          simp only at e2
          subst e2
          refine ⟨h', _, e1, hg.len, fun k => ?_⟩
          rw [hget]
          exact get_shape hc (Z := [r']) hg.asc ha ⟨0, 10, cs, 0, by rw [hy]; simp⟩ ⟨0, 11, cz, 10, hz⟩
            (fun x hx => .empty (hE x hx)) hzs k
    · obtain ⟨f, hf, hv⟩ := Option.map_eq_some_iff.1 hv
      obtain ⟨h', m', e1, e2, e3⟩ := C74_remove_low_fails hc hr hl hi h10 hf hke
      refine ⟨h', m', ?_, ?_, e3⟩
      · rw [e1, hv, OMap.lookup_getElem hc hg.asc hi hke]
      · rw [e2, if_pos (OMap.mem_iff.2 ⟨e, List.mem_of_getElem? hi, hke⟩)]
    · obtain ⟨f, hf, hv⟩ := Option.map_eq_some_iff.1 hv
      obtain ⟨h', m', e1, e2, e3⟩ := C74_remove_twelfth_fails hc hr hf hi hke
      refine ⟨h', m', ?_, ?_, e3⟩
      · rw [e1, hv, OMap.lookup_getElem hc hg.asc hi hke]
      · rw [e2, if_pos (OMap.mem_iff.2 ⟨e, List.mem_of_getElem? hi, hke⟩)]

-- thirteen keys: the calls that work, and some that do not
example : ∃ h m, BMap.Reached (compare : Nat → Nat → Ordering) h m ((List.range' 1 13).map fun i => (i, 10 * i)) :=
  reached_of (ops := down 13) (by decide) (by decide)
example : RemoveOkBig (compare : Nat → Nat → Ordering) ((List.range' 1 13).map fun i => (2 * i, i)) 25 :=
  .inl ⟨by decide, fun e he => by cases he; rfl⟩
example : RemoveOkBig (compare : Nat → Nat → Ordering) ((List.range' 1 13).map fun i => (i, 0)) 3 :=
  .inr ⟨2, (3, 0), rfl, rfl, .inl ⟨by decide, rfl⟩⟩
example : RemoveOkBig (compare : Nat → Nat → Ordering) ((List.range' 1 13).map fun i => (i, 0)) 12 :=
  .inr ⟨11, (12, 0), rfl, rfl, .inr ⟨rfl, rfl⟩⟩
example : ((runGo natStep (down 13 ++ [.remove 3, .containsKey 3, .get 4]) ([], BMap.new)).map (·.1.drop 13)) =
  .ok [.opt (some 40), .bool false, .opt (some 40)] := by decide +kernel
example : ((runGo natStep (down 13 ++ [.remove 11, .containsKey 11, .len]) ([], BMap.new)).map (·.1.drop 13)) =
  .ok [.opt (some 110), .bool true, .nat 12] := by decide +kernel
example : ((runGo natStep (down 13 ++ [.remove 12, .containsKey 12, .len]) ([], BMap.new)).map (·.1.drop 13)) =
  .ok [.opt (some 110), .bool false, .nat 12] := by decide +kernel

/-! ### C75 -/

/-- C75 fails: with twelve keys or more, Remove of a key above the twelfth and below the thirteenth that is
not there returns None and changes no lookup, but from then on IntoIter gives the eleventh entry twice. -/
theorem C75_iter_gap_fails (hc : LawfulCmp cmp) (g : Growth) {h : BStore κ ν} {m : BMap} {A R : List (κ × ν)}
    {q r : κ × ν} (hr : BMap.Reached cmp h m (A ++ q :: r :: R)) (hA : A.length = 10) {key : κ}
    (hk : cmp key r.1 = .gt) (hR : ∀ e ∈ R, cmp key e.1 = .lt) :
    ∃ h', BMap.remove cmp h m key = .ok (h', m, ⟨none⟩) ∧
      (∀ k, BMap.get cmp h' m k = .ok ⟨OMap.lookup cmp (A ++ q :: r :: R) k⟩) ∧
      ∃ it, BMap.intoIter g h' m = .ok it ∧
        ∀ n, it.nexts n = .ok ((List.range n).map fun i =>
          ((A ++ q :: q :: r :: R)[i]?).map fun e => ⟨e.1, e.2⟩) := by
  obtain ⟨fp, hg⟩ := hr.good hc
  obtain ⟨h', a, y, z, zs, cs, cz, e1, e2, e3, ha, hy, hz, hzs, hE⟩ := hg.remove_gap hc hA hk hR
  obtain ⟨root, len⟩ := m
  simp only at e2
  subst e2
  refine ⟨h', e1, fun k => ?_, ?_⟩
  · exact get_shape hc (Z := [r]) hg.asc ha ⟨0, 10, cs, 0, by rw [hy]; simp⟩ ⟨0, 11, cz, 10, hz⟩
      (fun x hx => .empty (hE x hx)) hzs k
  · obtain ⟨d, hd⟩ : ∃ d, h'.length = d + 1 :=
      ⟨h'.length - 1, by have := (List.getElem?_eq_some_iff.1 ha).1; omega⟩
    obtain ⟨wy, ey, dy⟩ := walk_leaf g (childs := cs) (sub := BTree.toVec g h' d)
      (emit := emitPair (kS (A ++ [q])) (vS (A ++ [q]))) (out := (A ++ [q]).map toPair) 11
      (fun j hj => by
        have := emitPair_slots (A ++ [q]) 0 j (by simp; omega)
        rw [List.replicate_zero, List.replicate_zero, List.append_nil, List.append_nil] at this
        exact this)
    have hkl : (kS (A ++ [q])).length = 11 := by simp [hA]
    have ty : BTree.toVec g h' (d + 1) y = .ok wy := by
      simp only [BTree.toVec, load_of hy, Go.bind_ok, toVecLoop_walk, hkl]; exact ey
    rw [List.take_of_length_le (by simp [hA])] at dy
    obtain ⟨wz, ez, dz⟩ := walk_leaf g (childs := cz) (sub := BTree.toVec g h' d)
      (emit := emitPair (some r.1 :: List.replicate 10 none) (some r.2 :: List.replicate 10 none))
      (out := [toPair r]) 11 (fun j hj => emitPair_slots [r] 10 j (by simp; omega))
    have tz : BTree.toVec g h' (d + 1) z = .ok wz := by
      simp only [BTree.toVec, load_of hz, Go.bind_ok, toVecLoop_walk]; exact ez
    have hkl2 : (kS (q :: R) ++ none :: List.replicate (9 - R.length) (none : Option κ)).length = 11 := by simp; omega
    obtain ⟨w, ew, dw⟩ := walk_eq g (leaf := false)
      (childs := some y :: some z :: (zs.map some ++ none :: List.replicate (9 - R.length) none))
      (sub := BTree.toVec g h' (d + 1))
      (emit := emitPair (kS (q :: R) ++ none :: List.replicate (9 - R.length) none)
        (vS (q :: R) ++ none :: List.replicate (9 - R.length) none))
      (out := fun j => ((q :: R).map toPair)[j]?)
      (ds := fun j => if j = 0 then (A ++ [q]).map toPair else if j = 1 then [toPair r] else []) 11 0 Vec.new
      (fun j _ hj => emitPair_slots (q :: R) ((9 - R.length) + 1) j (by simp; omega))
      (by
        intro j _ hj
        simp only [Bool.false_eq_true, if_false]
        match j with
        | 0 => exact .inr ⟨y, wy, rfl, ty, dy⟩
        | 1 => exact .inr ⟨z, wz, rfl, tz, dz⟩
        | j + 2 =>
          rw [if_neg (by omega), if_neg (by omega)]
          by_cases hlt : j < zs.length
          · obtain ⟨w, t, dt⟩ := (hE zs[j] (List.getElem_mem hlt)).toVec g d
            exact .inr ⟨zs[j], w, by simp [List.getElem?_append_left, hlt], t, dt⟩
          · refine .inl ⟨?_, rfl⟩
            have : ∀ (l : List (Option Nat)) (n i : Nat), l.length ≤ i → i < l.length + n →
                (l ++ List.replicate n none)[i]? = some none := by
              intro l n i h1 h2
              rw [List.getElem?_append_right h1, List.getElem?_replicate, if_pos (by omega)]
            have := this (zs.map some) (9 - R.length + 1) j (by simp; omega) (by simp; omega)
            simpa [List.replicate_succ] using this)
    have hdw : w.data = (A ++ q :: q :: r :: R).map toPair := by
      rw [dw]
      have h1 : List.range' 0 11 = 0 :: 1 :: List.range' 2 9 := by decide
      have h2 : ((List.range' 2 9).flatMap fun j => (if j = 0 then (A ++ [q]).map toPair else if j = 1 then [toPair r] else []) ++
          (((q :: R).map toPair)[j]?).toList) = (List.range' 2 9).flatMap fun j => (((q :: R).map toPair)[j]?).toList := by
        rw [List.flatMap_def, List.flatMap_def]
        congr 1
      rw [h1, List.flatMap_cons, List.flatMap_cons, h2, range_flatMap]
      cases R with
      | nil => simp [Vec.new]
      | cons s R =>
        have : R.length ≤ 9 := by simp at e3; omega
        simp [Vec.new, List.take_of_length_le, this]
    refine ⟨⟨w, 0⟩, ?_, fun n => nexts_map hdw n⟩
    simp only [BMap.intoIter, hd]
    rw [BTree.toVec]
    simp only [load_of ha, Go.bind_ok, toVecLoop_walk]
    rw [hkl2, ew]; rfl

-- thirteen keys, 2, 4, ..., 26, and the key 25
example : (∀ e ∈ [(26, 13)], compare (25 : Nat) (e : Nat × Nat).1 = .lt) ∧ compare (25 : Nat) 24 = .gt ∧
    ∃ h m, BMap.Reached (compare : Nat → Nat → Ordering) h m
      (((List.range' 1 10).map fun i => (2 * i, i)) ++ (22, 11) :: (24, 12) :: [(26, 13)]) :=
  ⟨by decide, rfl, reached_of (ops := (List.range' 0 13).map fun i => .insert (26 - 2 * i) (13 - i)) (by decide) (by decide)⟩
end Gost
