import Verif.Props.BTreeSet
/-
Property C98: Eq of BTreeMap.
-/
namespace Gost
open Spec BTree
variable {κ ν : Type} {cmp : κ → κ → Ordering}

/-- The map `m`, its nodes in the heap `h`, has the entries `l` (in ascending order). -/
def BMap.Has (cmp : κ → κ → Ordering) (h : BStore κ ν) (m : BMap) (l : List (κ × ν)) : Prop :=
  ∃ fp, Good cmp h m l fp

/-- The same keys, with values that `e` relates. -/
def Spec.SameMap (cmp : κ → κ → Ordering) (e : ν → ν → Bool) (la lb : List (κ × ν)) : Prop :=
  ∀ k, (OMap.lookup cmp la k = none ∧ OMap.lookup cmp lb k = none) ∨
    ∃ x y, OMap.lookup cmp la k = some x ∧ OMap.lookup cmp lb k = some y ∧ e y x = true

/-- What the loop of Eq checks for one entry. -/
def matchesIn (cmp : κ → κ → Ordering) (e : ν → ν → Bool) (lb : List (κ × ν)) (p : κ × ν) : Bool :=
  match OMap.lookup cmp lb p.1 with
  | none => false
  | some y => e y p.2

theorem BMap.eqLoop_spec (hc : LawfulCmp cmp) {h : BStore κ ν} {b : BMap} {lb : List (κ × ν)} {fp : List Nat}
    (hb : Good cmp h b lb fp) (e : ν → ν → Bool) (v : Vec (Pair κ ν)) (fuel i : Nat) (hf : v.len < i + fuel)
    (h0 : fuel ≠ 0) :
    BMap.eqLoop cmp (some e) h b fuel ⟨v, i⟩ =
      .ok (some ((v.data.drop i).all fun p => matchesIn cmp e lb (p.key, p.value))) := by
  induction fuel generalizing i with
  | zero => exact absurd rfl h0
  | succ fuel ih =>
    by_cases hi : i < v.len
    · have ih := ih (i + 1) (by omega) (by omega)
      simp only [BMap.eqLoop, VecIter.next_ok v i hi, Go.bind_ok, Opt.isNone, Opt.some,
        Bool.false_eq_true, if_false, Opt.unwrap, deref_some, hb.containsKey hc, hb.get hc, ih]
      rw [List.drop_eq_getElem_cons hi, List.all_cons, ← OMap.lookup_isSome]
      unfold matchesIn
      cases OMap.lookup cmp lb v.data[i].key with
      | none => rfl
      | some y =>
        simp only [Option.isSome_some, Bool.not_true, Bool.false_eq_true, if_false, deref_some, Go.bind_ok]
        cases e y v.data[i].value <;> rfl
    · have hi' : v.len ≤ i := by omega
      simp only [BMap.eqLoop, VecIter.next_end v i hi', Go.bind_ok, Opt.isNone, Opt.none,
        if_true, List.drop_of_length_le hi']
      rfl

theorem BMap.iter_data (g : Growth) {h : BStore κ ν} {m : BMap} {l : List (κ × ν)} {fp : List Nat}
    (hg : Good cmp h m l fp) :
    ∃ w : Vec (Pair κ ν), m.intoIter g h = .ok ⟨w, 0⟩ ∧ w.data = l.map fun e => ⟨e.1, e.2⟩ := by
  obtain ⟨root, len⟩ := m
  have ht := hg.tree
  simp only at ht
  cases root with
  | none => cases ht; exact ⟨_, rfl, rfl⟩
  | some a =>
    obtain ⟨⟨w, e, d⟩, _⟩ := ht.toVecs g
    exact ⟨w, by simp [BMap.intoIter, e], d⟩

/-- The keys alone. -/
def keysOf (l : List (κ × ν)) : List (κ × Unit) := l.map fun e => (e.1, ())

theorem keysOf_asc {l : List (κ × ν)} (h : Ascending cmp l) : Ascending cmp (keysOf l) := by
  unfold Ascending keysOf
  rw [List.pairwise_map]
  exact h

theorem keysOf_mem (l : List (κ × ν)) (k : κ) : OMap.mem cmp (keysOf l) k = OMap.mem cmp l k := by
  simp [OMap.mem, keysOf, List.any_map, Function.comp_def]

theorem lookup_of_mem (hc : LawfulCmp cmp) {l : List (κ × ν)} (hl : Ascending cmp l) {e : κ × ν} (he : e ∈ l)
    {k : κ} (hk : cmp k e.1 = .eq) : OMap.lookup cmp l k = some e.2 := by
  induction l with
  | nil => cases he
  | cons a l ih =>
    obtain ⟨h1, h2⟩ := List.pairwise_cons.1 hl
    rw [OMap.lookup_cons]
    rcases List.mem_cons.1 he with rfl | he
    · simp [hk]
    · have : cmp k a.1 ≠ .eq := by
        rw [hc.eq_left hk, (hc.lt_iff _ _).1 (h1 e he)]; decide
      simp [this, ih h2 he]

theorem lookup_resp (hc : LawfulCmp cmp) (l : List (κ × ν)) {k k' : κ} (h : cmp k k' = .eq) :
    OMap.lookup cmp l k = OMap.lookup cmp l k' := by
  unfold OMap.lookup
  congr 1
  congr 1
  funext e
  rw [hc.eq_left h]

theorem same_length (hc : LawfulCmp cmp) {la lb : List (κ × ν)} (ha : Ascending cmp la) (hb : Ascending cmp lb)
    (hs : ∀ k, OMap.mem cmp la k = OMap.mem cmp lb k) : la.length = lb.length := by
  have h1 := osubset_length hc (keysOf_asc ha) (keysOf_asc hb) ((osubset_iff hc _ _).2 fun k hk => by
    rw [keysOf_mem] at hk ⊢; rw [← hs k]; exact hk)
  have h2 := osubset_length hc (keysOf_asc hb) (keysOf_asc ha) ((osubset_iff hc _ _).2 fun k hk => by
    rw [keysOf_mem] at hk ⊢; rw [hs k]; exact hk)
  simp only [keysOf, List.length_map] at h1 h2
  omega

theorem sameMap_mem {e : ν → ν → Bool} {la lb : List (κ × ν)} (h : SameMap cmp e la lb) (k : κ) :
    OMap.mem cmp la k = OMap.mem cmp lb k := by
  rw [← OMap.lookup_isSome, ← OMap.lookup_isSome]
  rcases h k with ⟨h1, h2⟩ | ⟨x, y, h1, h2, _⟩ <;> rw [h1, h2] <;> rfl

/-- C98, in part: Eq of two BTreeMaps says whether they have the same keys with equal values, and never
panics if the values have an Eq method.  Missing: maps with lost or doubled entries (from the insertions and
removals of C72 and C74 that go wrong). -/
theorem C98_btree_eq_partial (hc : LawfulCmp cmp) (g : Growth) (e : ν → ν → Bool) {h : BStore κ ν} {a b : BMap}
    {la lb : List (κ × ν)} (ha : BMap.Has cmp h a la) (hb : BMap.Has cmp h b lb) :
    ∃ r, a.eq cmp g (some e) h b = .ok (some r) ∧ (r = true ↔ SameMap cmp e la lb) := by
  obtain ⟨fa, ga⟩ := ha
  obtain ⟨fb, gb⟩ := hb
  have hla : a.length = la.length := ga.len
  have hlb : b.length = lb.length := gb.len
  unfold BMap.eq
  by_cases hl : a.length = b.length
  · rw [if_neg (by simpa using hl)]
    obtain ⟨w, ew, dw⟩ := BMap.iter_data g ga
    have hw := BMap.eqLoop_spec hc gb e w (w.len + 1) 0 (by omega) (by omega)
    simp only [ew, Go.bind_ok, VecIter.rounds, hw]
    refine ⟨_, rfl, ?_⟩
    rw [List.drop_zero, dw, List.all_map]
    simp only [List.all_eq_true, Function.comp]
    constructor
    · intro hall
      have key : ∀ p ∈ la, ∃ y, OMap.lookup cmp lb p.1 = some y ∧ e y p.2 = true := by
        intro p hp
        have := hall p hp
        unfold matchesIn at this
        cases hy : OMap.lookup cmp lb p.1 with
        | none => simp only [hy] at this; cases this
        | some y => simp only [hy] at this; exact ⟨y, rfl, this⟩
      have hsub : osubset cmp (keysOf la) (keysOf lb) = true := by
        rw [osubset_iff hc]
        intro k hk
        rw [keysOf_mem] at hk ⊢
        obtain ⟨p, hp, hkp⟩ := OMap.mem_iff.1 hk
        obtain ⟨y, hy, _⟩ := key p hp
        rw [← OMap.lookup_isSome, lookup_resp hc lb hkp, hy]; rfl
      have hsup := osubset_same hc (keysOf_asc ga.asc) (keysOf_asc gb.asc) hsub
        (by simp only [keysOf, List.length_map]; omega)
      rw [osubset_iff hc] at hsup
      intro k
      cases hk : OMap.mem cmp la k with
      | false =>
        left
        refine ⟨OMap.lookup_eq_none.2 hk, OMap.lookup_eq_none.2 ?_⟩
        cases hkb : OMap.mem cmp lb k with
        | false => rfl
        | true =>
          have := hsup k (by rw [keysOf_mem]; exact hkb)
          rw [keysOf_mem, hk] at this; cases this
      | true =>
        right
        obtain ⟨p, hp, hkp⟩ := OMap.mem_iff.1 hk
        obtain ⟨y, hy, hey⟩ := key p hp
        exact ⟨p.2, y, lookup_of_mem hc ga.asc hp hkp, by rw [lookup_resp hc lb hkp, hy], hey⟩
    · intro hs p hp
      have hp' := lookup_of_mem hc ga.asc hp (hc.refl p.1)
      unfold matchesIn
      rcases hs p.1 with ⟨h1, _⟩ | ⟨x, y, h1, h2, h3⟩
      · rw [hp'] at h1; cases h1
      · rw [hp'] at h1
        cases h1
        simp only [h2]; exact h3
  · refine ⟨false, by rw [if_pos (by simpa using hl)], ?_⟩
    simp only [Bool.false_eq_true, false_iff]
    intro hs
    have := same_length hc ga.asc gb.asc (sameMap_mem hs)
    omega

/-- C98 fails: without an Eq method of the values, Eq of two maps of the same length whose first keys match
panics. -/
theorem C98_btree_eq_fails (hc : LawfulCmp cmp) (g : Growth) {h : BStore κ ν} {a b : BMap}
    {p : κ × ν} {la lb : List (κ × ν)} (ha : BMap.Has cmp h a (p :: la)) (hb : BMap.Has cmp h b lb)
    (hl : lb.length = la.length + 1) (hm : OMap.mem cmp lb p.1 = true) :
    a.eq cmp g none h b = .error .nilDeref := by
  obtain ⟨fa, ga⟩ := ha
  obtain ⟨fb, gb⟩ := hb
  have hla : a.length = la.length + 1 := ga.len
  have hlb : b.length = lb.length := gb.len
  unfold BMap.eq
  rw [if_neg (by simp only [ne_eq, Decidable.not_not]; omega)]
  obtain ⟨w, ew, dw⟩ := BMap.iter_data g ga
  have hi : 0 < w.len := by rw [Vec.len, dw]; simp
  have h0 : w.data[0] = ⟨p.1, p.2⟩ := by simp [dw]
  obtain ⟨y, hy⟩ : ∃ y, OMap.lookup cmp lb p.1 = some y := by
    rw [← OMap.lookup_isSome] at hm
    exact Option.isSome_iff_exists.1 hm
  simp only [ew, Go.bind_ok, VecIter.rounds, BMap.eqLoop, VecIter.next_ok w 0 hi, Opt.isNone, Opt.some,
    Bool.false_eq_true, if_false, Opt.unwrap, deref_some, gb.containsKey hc, gb.get hc, h0, hm, hy,
    Bool.not_true]

theorem two_maps (xs ys : List (HOp Nat Nat)) (hx : Admissible (compare : Nat → Nat → Ordering) xs [])
    (hy : Admissible (compare : Nat → Nat → Ordering) ys []) :
    ∃ h a b, BMap.Has compare h a (runMap (ordStep compare) xs []).2 ∧
      BMap.Has compare h b (runMap (ordStep compare) ys []).2 := by
  obtain ⟨h, a, fa, _, ga, _⟩ := BMap.run_refines natLawful xs (Good.new (cmp := compare) []) hx
  obtain ⟨h', b, fb, _, gb, f⟩ := BMap.run_refines natLawful ys (Good.new (cmp := compare) h) hy
  exact ⟨h', a, b, ⟨fa, ga.frame f⟩, ⟨fb, gb⟩⟩

-- two maps with the same entries inserted in different orders, and one with another value
example : ∃ h a b, BMap.Has (compare : Nat → Nat → Ordering) h a [(1, 10), (2, 20)] ∧
    BMap.Has compare h b [(1, 10), (2, 20)] :=
  two_maps [.insert 1 10, .insert 2 20] [.insert 2 5, .insert 1 10, .insert 2 20] (by decide) (by decide)
example : SameMap (compare : Nat → Nat → Ordering) (· == ·) [(1, 10), (2, 20)] [(1, 10), (2, 20)] := by
  intro k
  cases h : OMap.lookup compare [(1, 10), (2, 20)] k with
  | none => exact .inl ⟨rfl, rfl⟩
  | some x => exact .inr ⟨x, x, rfl, rfl, by simp⟩
example : ¬ SameMap (compare : Nat → Nat → Ordering) (· == ·) [(1, 10), (2, 20)] [(1, 10), (2, 21)] := by
  intro h
  rcases h 2 with ⟨h, _⟩ | ⟨x, y, h1, h2, h3⟩
  · revert h; decide
  · have e1 : x = 20 := (Option.some.inj h1).symm
    have e2 : y = 21 := (Option.some.inj h2).symm
    subst e1; subst e2
    revert h3; decide
end Gost
