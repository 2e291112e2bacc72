import Verif.Props.BTreeEq
import Verif.Props.BTreeBig
/-
Property C123: a copy (`b := a`) of a BTreeMap or a BTreeSet.  The struct holds a pointer to the root and the
number of keys, so both variables have the same `BMap`; a call through `b` gives a new heap and a new `b`, and `a`
is read in the new heap.
-/
namespace Gost
open Spec BTree
variable {κ ν : Type} {cmp : κ → κ → Ordering}

/-- What the map `a` gives after an insertion through a copy of it: `la` are the entries it shows, its Len is
still that of `l`. -/
structure Spec.CopyShows (cmp : κ → κ → Ordering) (g : Growth) (h : BStore κ ν) (a : BMap) (la : List (κ × ν))
    (len : Nat) : Prop where
  get : ∀ k, BMap.get cmp h a k = .ok ⟨OMap.lookup cmp la k⟩
  contains : ∀ k, BMap.containsKey cmp h a k = .ok (OMap.mem cmp la k)
  iter : ∃ w : Vec (Pair κ ν), a.intoIter g h = .ok ⟨w, 0⟩ ∧ w.data = la.map fun e => ⟨e.1, e.2⟩
  length : a.length = len

theorem CopyShows.of_good (hc : LawfulCmp cmp) (g : Growth) {h : BStore κ ν} {a b : BMap} {la : List (κ × ν)}
    {fp : List Nat} (hg : Good cmp h b la fp) (hroot : a.root = b.root) {len : Nat} (hl : a.len = len) :
    CopyShows cmp g h a la len := by
  have e1 : ∀ k, BMap.get cmp h a k = BMap.get cmp h b k := fun k => by simp only [BMap.get, hroot]
  have e2 : ∀ k, BMap.containsKey cmp h a k = BMap.containsKey cmp h b k := fun k => by
    simp only [BMap.containsKey, hroot]
  have e3 : a.intoIter g h = b.intoIter g h := by simp only [BMap.intoIter, hroot]
  exact ⟨fun k => by rw [e1, hg.get hc], fun k => by rw [e2, hg.containsKey hc], by
    rw [e3]; exact BMap.iter_data g hg, hl⟩

/-- An insertion through a copy, and what the original shows then. -/
theorem copy_insert (hc : LawfulCmp cmp) (g : Growth) {h : BStore κ ν} {m : BMap} {l : List (κ × ν)}
    {fp : List Nat} (hg : Good cmp h m l fp) {key : κ} (hf : Fits cmp l key) (value : ν) :
    ∃ h' m', BMap.insert cmp h m key value = .ok (h', m', ⟨OMap.lookup cmp l key⟩) ∧
      BMap.Has cmp h' m' (OMap.insert cmp l key value) ∧
      CopyShows cmp g h' m
        (if l = [] then [] else if l.length = 11 ∧ OMap.mem cmp l key = false then
          OMap.insert cmp (l.take 10) key value else OMap.insert cmp l key value) l.length := by
  cases hm : OMap.mem cmp l key with
  | true =>
    obtain ⟨h', h1, h2, _⟩ := hg.insert_found hc hm value
    have hne : l ≠ [] := by rintro rfl; cases hm
    refine ⟨h', m, h1, ⟨fp, h2⟩, ?_⟩
    rw [if_neg hne, if_neg (by simp)]
    exact CopyShows.of_good hc g h2 rfl hg.len
  | false =>
    obtain ⟨h', m', fp', h1, h2, _, h3, h4⟩ := hg.insert_fresh_root hc hm (by
      rcases hf with hf | hf
      · rw [hm] at hf; cases hf
      · exact hf) value
    refine ⟨h', m', by rw [OMap.lookup_eq_none.2 hm]; exact h1, ⟨fp', h2⟩, ?_⟩
    by_cases hne : l = []
    · subst hne
      rw [if_pos rfl]
      have hmn : m = BMap.new := by
        obtain ⟨root, len⟩ := m
        obtain ⟨_, hlen, tree⟩ := hg
        simp only at hlen tree
        cases root with
        | none => rw [hlen]; rfl
        | some a =>
          exfalso
          generalize hl : ([] : List (κ × ν)) = l0 at tree
          cases tree with
          | leaf hne _ => exact hne hl.symm
          | node _ hr => exact hr (List.append_eq_nil_iff.1 hl.symm).2
      subst hmn
      exact CopyShows.of_good hc g (Good.new h') rfl rfl
    · rw [if_neg hne]
      by_cases h11 : l.length = 11
      · rw [if_pos ⟨h11, rfl⟩]
        obtain ⟨a, ha, hleaf⟩ := h4 h11
        have hm10 : OMap.mem cmp (l.take 10) key = false :=
          OMap.mem_false.2 fun e he => OMap.mem_false.1 hm e (List.mem_of_mem_take he)
        have hlen := OMap.length_insert hc (l.take 10) key value
        rw [hm10] at hlen
        simp only [Bool.false_eq_true, if_false, List.length_take, h11] at hlen
        have g' : Good cmp h' m (OMap.insert cmp (l.take 10) key value) [a] := by
          refine ⟨OMap.ascending_insert hc (hg.asc.sublist (List.take_sublist _ _)) key value, ?_, ?_⟩
          · rw [hg.len, hlen, h11]; rfl
          · rw [ha]; exact .leaf (by intro h; rw [h] at hlen; simp at hlen) hleaf
        exact CopyShows.of_good hc g g' rfl hg.len
      · rw [if_neg (fun h => h11 h.1)]
        exact CopyShows.of_good hc g h2 (h3 hne h11).symm hg.len

/-! ### C123 -/

/-- C123, in part: after `b := a` and an insertion through `b`, every Get through `a` gives what it gave before
exactly when the map was empty or the insertion did not change the value of its key.
Missing: all other insertions (`C123_copy_shared_fails`, `C123_copy_full_fails`). -/
theorem C123_copy_insert_partial (hc : LawfulCmp cmp) {h : BStore κ ν} {a : BMap} {l : List (κ × ν)}
    (hr : BMap.Reached cmp h a l) {key : κ} (hf : Fits cmp l key) (value : ν) :
    ∃ h' b, BMap.insert cmp h a key value = .ok (h', b, ⟨OMap.lookup cmp l key⟩) ∧
      ((∀ k, BMap.get cmp h' a k = BMap.get cmp h a k) ↔ l = [] ∨ OMap.lookup cmp l key = some value) := by
  obtain ⟨fp, hg⟩ := hr.good hc
  obtain ⟨h', b, e, _, s⟩ := copy_insert hc doubling hg hf value
  refine ⟨h', b, e, ?_⟩
  have hget := s.get
  constructor
  · intro hs
    by_cases hne : l = []
    · exact .inl hne
    right
    have h1 := hs key
    rw [hget, hg.get hc, if_neg hne] at h1
    have h2 : OMap.lookup cmp l key = some value := by
      by_cases h11 : l.length = 11 ∧ OMap.mem cmp l key = false
      · rw [if_pos h11, OMap.lookup_insert hc, if_pos (hc.refl key)] at h1
        simpa using h1.symm
      · rw [if_neg h11, OMap.lookup_insert hc, if_pos (hc.refl key)] at h1
        simpa using h1.symm
    exact h2
  · intro hs k
    rw [hget, hg.get hc]
    by_cases hne : l = []
    · rw [if_pos hne, hne]
    · have hl := hs.resolve_left hne
      have hm : OMap.mem cmp l key = true := by rw [← OMap.lookup_isSome, hl]; rfl
      rw [if_neg hne, if_neg (by simp [hm]), OMap.lookup_insert hc]
      by_cases hk : cmp k key = .eq
      · rw [if_pos hk, lookup_resp hc l hk, hl]
      · rw [if_neg hk]

/-- C123 fails: after `b := a`, an insertion through `b` that finds its key, or that finds between one and
twenty keys but not eleven, shows in `a`: Get, ContainsKey and the iteration of `a` give the new entries, while
its Len stays. -/
theorem C123_copy_shared_fails (hc : LawfulCmp cmp) (g : Growth) {h : BStore κ ν} {a : BMap} {l : List (κ × ν)}
    (hr : BMap.Reached cmp h a l) (hne : l ≠ []) {key : κ} (hf : Fits cmp l key)
    (h11 : l.length ≠ 11 ∨ OMap.mem cmp l key = true) (value : ν) :
    ∃ h' b, BMap.insert cmp h a key value = .ok (h', b, ⟨OMap.lookup cmp l key⟩) ∧
      CopyShows cmp g h' a (OMap.insert cmp l key value) l.length := by
  obtain ⟨fp, hg⟩ := hr.good hc
  obtain ⟨h', b, e, _, s⟩ := copy_insert hc g hg hf value
  rw [if_neg hne, if_neg (by rintro ⟨h1, h2⟩; rcases h11 with h | h; · exact h h1
                             · rw [h2] at h; cases h)] at s
  exact ⟨h', b, e, s⟩

/-- C123 fails: after `b := a` with eleven keys, the insertion of a new smaller key through `b` puts that key in
`a` and takes the largest key out of it. -/
theorem C123_copy_full_fails (hc : LawfulCmp cmp) (g : Growth) {h : BStore κ ν} {a : BMap} {l : List (κ × ν)}
    (hr : BMap.Reached cmp h a l) (h11 : l.length = 11) {q : κ × ν} (hq : l[10]? = some q) {key : κ}
    (hlt : cmp key q.1 = .lt) (hm : OMap.mem cmp l key = false) (value : ν) :
    ∃ h' b, BMap.insert cmp h a key value = .ok (h', b, ⟨none⟩) ∧
      CopyShows cmp g h' a (OMap.insert cmp (l.take 10) key value) 11 ∧
      BMap.get cmp h a q.1 = .ok ⟨some q.2⟩ ∧ BMap.get cmp h' a q.1 = .ok ⟨none⟩ ∧
      BMap.get cmp h' b q.1 = .ok ⟨some q.2⟩ := by
  have hne : l ≠ [] := by intro h; rw [h] at h11; cases h11
  obtain ⟨fp, hg⟩ := hr.good hc
  obtain ⟨h', b, e, ⟨fp', hb⟩, s⟩ := copy_insert hc g hg (key := key) (.inr (.inr ⟨by omega, q, hq, hlt⟩)) value
  rw [if_neg hne, if_pos ⟨h11, hm⟩, h11] at s
  rw [OMap.lookup_eq_none.2 hm] at e
  have hql : OMap.lookup cmp l q.1 = some q.2 := lookup_of_mem hc hg.asc (List.mem_of_getElem? hq) (hc.refl _)
  have hk : cmp q.1 key ≠ .eq := by rw [(hc.gt_iff _ _).2 hlt]; simp
  refine ⟨h', b, e, s, by rw [hg.get hc, hql], ?_, by rw [hb.get hc, OMap.lookup_insert hc, if_neg hk, hql]⟩
  rw [s.get, OMap.lookup_insert hc, if_neg hk]
  have : OMap.lookup cmp (l.take 10) q.1 = none := by
    refine OMap.lookup_eq_none.2 (OMap.mem_false.2 fun x hx hxq => ?_)
    obtain ⟨i, hi, hix⟩ := List.mem_take_iff_getElem.1 hx
    have := keys_inj hc hg.asc (k := q.1) (i := i) (j := 10) (e := x) (f := q)
      (by rw [List.getElem?_eq_getElem (by omega), hix]) hq hxq (hc.refl _)
    omega
  rw [this]

/-- C123 fails for BTreeSet: after `t := s` with at least one element, the insertion of a new element through `t`
puts it in `s`, whose Len stays. -/
theorem C123_set_copy_fails (hc : LawfulCmp cmp) {h : BSet.Store κ} {s : BSet} {l : List (κ × Unit)}
    (hs : BSet.Has cmp h s l) (hne : l ≠ []) {key : κ} (hf : Fits cmp l key) (hm : OMap.mem cmp l key = false) :
    ∃ h' t, s.insert cmp h key = .ok (h', t, true) ∧ s.contains cmp h key = .ok false ∧
      s.contains cmp h' key = .ok true ∧ s.length = l.length ∧ t.length = l.length + 1 := by
  obtain ⟨fp, hg⟩ := hs
  obtain ⟨h', b, e, ⟨fp', hb⟩, c⟩ := copy_insert hc doubling hg hf ()
  have hl := OMap.length_insert hc l key ()
  rw [hm] at hl
  refine ⟨h', ⟨b⟩, ?_, by rw [BSet.contains, hg.containsKey hc, hm], ?_, hg.len, by
    rw [BSet.length, BMap.length, hb.len]; exact hl⟩
  · simp only [BSet.insert, e, Go.bind_ok, isSome_lookup, hm]; rfl
  · rw [BSet.contains, c.contains, if_neg hne, ← OMap.lookup_isSome]
    by_cases h11 : l.length = 11 ∧ OMap.mem cmp l key = false
    · rw [if_pos h11, OMap.lookup_insert hc, if_pos (hc.refl key)]; rfl
    · rw [if_neg h11, OMap.lookup_insert hc, if_pos (hc.refl key)]; rfl

-- one key: the copy inserts 7, and the original, of Len 1, finds it
example : ∃ h m, BMap.Reached (compare : Nat → Nat → Ordering) h m [(1, 10)] ∧
    Fits (compare : Nat → Nat → Ordering) [(1, 10)] 7 := by
  obtain ⟨h, m, hr⟩ := reached_of (ops := down 1) (l := [(1, 10)]) (by decide) (by decide)
  exact ⟨h, m, hr, by decide⟩
example : (do
    let (h, a, _) ← BMap.insert compare [] BMap.new 1 10
    let (h, b, _) ← BMap.insert compare h a 7 70
    let r ← a.get compare h 7
    .ok (r, a.length, b.length) : Go (Opt Nat × Nat × Nat)) = .ok (⟨some 70⟩, 1, 2) := rfl
-- eleven keys: the copy inserts 0, and the original loses 11
example : ∃ h m, BMap.Reached (compare : Nat → Nat → Ordering) h m ((List.range' 1 11).map fun i => (i, 10 * i)) ∧
    compare 0 11 = Ordering.lt ∧
    OMap.mem (compare : Nat → Nat → Ordering) ((List.range' 1 11).map fun i => (i, 10 * i)) 0 = false := by
  obtain ⟨h, m, hr⟩ := reached_of (ops := down 11) (l := (List.range' 1 11).map fun i => (i, 10 * i)) (by decide)
    (by decide)
  exact ⟨h, m, hr, by decide, by decide⟩
example : (do
    let (_, h, a) ← runGo natStep (down 11) ([], BMap.new)
    let (h, b, _) ← BMap.insert compare h a 0 0
    let r ← a.get compare h 11
    let s ← b.get compare h 11
    let t ← a.get compare h 0
    .ok (r, s, t, a.length, b.length) : Go (Opt Nat × Opt Nat × Opt Nat × Nat × Nat)) =
  .ok (⟨none⟩, ⟨some 110⟩, ⟨some 0⟩, 11, 12) := by decide +kernel
end Gost
