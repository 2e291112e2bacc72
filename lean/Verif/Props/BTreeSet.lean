import Verif.Props.BTreeMap
import Verif.Props.HashSet
/-
Property C76: BTreeSet as a mathematical set.  A set is specified by the ascending list of its elements
(as an ordered map to Unit).
-/
namespace Gost
open Spec BTree

variable {κ : Type} {cmp : κ → κ → Ordering}

/-! ### Histories -/

/-- The operations of C76 on one set. -/
inductive TOp (κ : Type) where
  | insert (k : κ) | remove (k : κ) | contains (k : κ) | len | isEmpty | clear

/-- What they do on a mathematical set. -/
def Spec.osetStep (cmp : κ → κ → Ordering) : TOp κ → List (κ × Unit) → List (κ × Unit) × Obs κ
  | .insert k, l => (OMap.insert cmp l k (), .bool (!OMap.mem cmp l k))
  | .remove k, l => (OMap.remove cmp l k, .bool (OMap.mem cmp l k))
  | .contains k, l => (l, .bool (OMap.mem cmp l k))
  | .len, l => (l, .nat l.length)
  | .isEmpty, l => (l, .bool (l.length == 0))
  | .clear, _ => ([], .unit)

/-- The library's operations. -/
def BSet.step (cmp : κ → κ → Ordering) : TOp κ → BSet.Store κ × BSet → Go ((BSet.Store κ × BSet) × Obs κ)
  | .insert k, (h, s) => do let (h, s, b) ← s.insert cmp h k; .ok ((h, s), .bool b)
  | .remove k, (h, s) => do let (h, s, b) ← s.remove cmp h k; .ok ((h, s), .bool b)
  | .contains k, (h, s) => do let b ← s.contains cmp h k; .ok ((h, s), .bool b)
  | .len, (h, s) => .ok ((h, s), .nat s.length)
  | .isEmpty, (h, s) => .ok ((h, s), .bool s.isEmpty)
  | .clear, (h, s) => .ok ((h, s.clear), .unit)

/-- The operations that work: insertions that fit; Remove of an absent element below the twelfth, of the only
element, and (with at most eleven elements) of one that is not the largest. -/
def SetAllowed (cmp : κ → κ → Ordering) (l : List (κ × Unit)) : TOp κ → Prop
  | .insert k => Fits cmp l k
  | .remove k => RemoveOk cmp l k
  | _ => True

instance (l : List (κ × Unit)) (o : TOp κ) : Decidable (SetAllowed cmp l o) := by
  cases o <;> unfold SetAllowed <;> infer_instance

/-- Histories all of whose operations work. -/
def SetAdmissible (cmp : κ → κ → Ordering) : List (TOp κ) → List (κ × Unit) → Prop
  | [], _ => True
  | o :: os, l => SetAllowed cmp l o ∧ SetAdmissible cmp os (osetStep cmp o l).1

instance decSetAdmissible (cmp : κ → κ → Ordering) : (ops : List (TOp κ)) → (l : List (κ × Unit)) →
    Decidable (SetAdmissible cmp ops l)
  | [], _ => isTrue trivial
  | o :: os, l =>
    @instDecidableAnd (SetAllowed cmp l o) _ inferInstance (decSetAdmissible cmp os (osetStep cmp o l).1)

/-- The set `s`, its nodes in the heap `h`, has the elements `l` (in ascending order). -/
def BSet.Has (cmp : κ → κ → Ordering) (h : BSet.Store κ) (s : BSet) (l : List (κ × Unit)) : Prop :=
  ∃ fp, Good cmp h s.treemap l fp

theorem isSome_lookup (l : List (κ × Unit)) (k : κ) :
    (⟨OMap.lookup cmp l k⟩ : Opt Unit).isSome = OMap.mem cmp l k := by
  rw [← OMap.lookup_isSome]
  cases OMap.lookup cmp l k <;> rfl

theorem BTree.Good.setInsert (hc : LawfulCmp cmp) {h : BSet.Store κ} {s : BSet} {l : List (κ × Unit)}
    {fp : List Nat} (hg : Good cmp h s.treemap l fp) {k : κ} (hf : Fits cmp l k) :
    ∃ h' s' fp', s.insert cmp h k = .ok (h', s', !OMap.mem cmp l k) ∧
      Good cmp h' s'.treemap (OMap.insert cmp l k ()) fp' ∧ Frame h fp h' fp' := by
  obtain ⟨h', m', fp', e1, g, f⟩ := hg.insert hc hf ()
  refine ⟨h', ⟨m'⟩, fp', ?_, g, f⟩
  simp only [BSet.insert, e1, Go.bind_ok, isSome_lookup]
  cases OMap.mem cmp l k <;> rfl

theorem BSet.step_refines (hc : LawfulCmp cmp) {h : BSet.Store κ} {s : BSet} {l : List (κ × Unit)}
    {fp : List Nat} (hg : Good cmp h s.treemap l fp) {o : TOp κ} (ho : SetAllowed cmp l o) :
    ∃ h' s' fp', BSet.step cmp o (h, s) = .ok ((h', s'), (osetStep cmp o l).2) ∧
      Good cmp h' s'.treemap (osetStep cmp o l).1 fp' ∧ Frame h fp h' fp' := by
  cases o with
  | insert k =>
    obtain ⟨h', s', fp', e1, g, f⟩ := hg.setInsert hc ho
    exact ⟨h', s', fp', by simp [BSet.step, e1, osetStep], g, f⟩
  | remove k =>
    obtain ⟨h', m', fp', e1, g, f⟩ := hg.remove hc ho
    refine ⟨h', ⟨m'⟩, fp', ?_, g, f⟩
    simp only [BSet.step, BSet.remove, e1, Go.bind_ok, isSome_lookup, osetStep]
    cases OMap.mem cmp l k <;> rfl
  | contains k =>
    exact ⟨h, s, fp, by simp [BSet.step, BSet.contains, hg.containsKey hc, osetStep], hg, .rfl' h fp⟩
  | len => exact ⟨h, s, fp, by simp [BSet.step, hg.len, osetStep], hg, .rfl' h fp⟩
  | isEmpty =>
    exact ⟨h, s, fp, by simp [BSet.step, BSet.isEmpty, BMap.isEmpty, hg.len, osetStep], hg, .rfl' h fp⟩
  | clear =>
    exact ⟨h, s.clear, [], rfl, Good.new h, Nat.le_refl _, fun _ _ _ => rfl, by simp⟩

theorem BSet.run_refines (hc : LawfulCmp cmp) (ops : List (TOp κ)) {h : BSet.Store κ} {s : BSet}
    {l : List (κ × Unit)} {fp : List Nat} (hg : Good cmp h s.treemap l fp) (ha : SetAdmissible cmp ops l) :
    ∃ h' s' fp', runGo (BSet.step cmp) ops (h, s) = .ok ((runMap (osetStep cmp) ops l).1, (h', s')) ∧
      Good cmp h' s'.treemap (runMap (osetStep cmp) ops l).2 fp' ∧ Frame h fp h' fp' := by
  induction ops generalizing h s l fp with
  | nil => exact ⟨h, s, fp, rfl, hg, .rfl' h fp⟩
  | cons o ops ih =>
    obtain ⟨h1, s1, fp1, e1, g1, f1⟩ := step_refines hc hg ha.1
    obtain ⟨h2, s2, fp2, e2, g2, f2⟩ := ih g1 ha.2
    exact ⟨h2, s2, fp2, by simp [runGo, e1, e2, runMap], g2, f1.trans f2⟩

theorem BTree.Good.frame {ν : Type} {h h' : BStore κ ν} {m : BMap} {l : List (κ × ν)} {fp fp' : List Nat}
    (hg : Good cmp h m l fp) (hf : Frame h [] h' fp') : Good cmp h' m l fp :=
  hg.congr fun a ha => hf.others a (hg.tree.lt a ha) (by simp)

/-- C76, in part: every admissible history of Insert, Remove, Contains, Len, IsEmpty and Clear on a new
BTreeSet gives the results of a mathematical set, nothing panics, and all other sets stay as they are.
Missing: other histories (`C76_insert_fails`, `C76_remove_fails`). -/
theorem C76_set_history_partial (hc : LawfulCmp cmp) (ops : List (TOp κ)) (ha : SetAdmissible cmp ops [])
    (h : BSet.Store κ) :
    ∃ h' s', runGo (BSet.step cmp) ops (h, BSet.new) = .ok ((runMap (osetStep cmp) ops []).1, (h', s')) ∧
      BSet.Has cmp h' s' (runMap (osetStep cmp) ops []).2 ∧
      ∀ t l, BSet.Has cmp h t l → BSet.Has cmp h' t l := by
  obtain ⟨h', s', fp, e1, g, f⟩ := BSet.run_refines hc ops (s := BSet.new) (Good.new (cmp := cmp) h) ha
  exact ⟨h', s', e1, ⟨fp, g⟩, fun t l ⟨fpt, gt⟩ => ⟨fpt, gt.frame f⟩⟩

/-- C76, in part: a set with the elements `l` has these in ascending order, contains exactly them, counts
them, and (if there are any) IntoIter gives each of them once and in that order.  Missing: IntoIter of the
empty set (`C76_empty_fails`). -/
theorem C76_set_elements_partial (hc : LawfulCmp cmp) (g : Growth) {h : BSet.Store κ} {s : BSet}
    {l : List (κ × Unit)} (hs : BSet.Has cmp h s l) :
    Ascending cmp l ∧ (∀ k, s.contains cmp h k = .ok (OMap.mem cmp l k)) ∧ s.length = l.length ∧
    s.isEmpty = (l.length == 0) ∧
    (l ≠ [] → ∃ it, s.intoIter g h = .ok it ∧
      ∀ n, it.nexts n = .ok ((List.range n).map fun i => (l[i]?).map (·.1))) := by
  obtain ⟨fp, hg⟩ := hs
  refine ⟨hg.asc, hg.containsKey hc, hg.len, by simp [BSet.isEmpty, BMap.isEmpty, hg.len], fun hne => ?_⟩
  have ht := hg.tree
  cases hr : s.treemap.root with
  | none => rw [hr] at ht; cases ht; exact absurd rfl hne
  | some a =>
    rw [hr] at ht
    obtain ⟨_, ⟨w, e, d⟩, _⟩ := ht.toVecs g
    exact ⟨⟨w, 0⟩, by simp [BSet.intoIter, hr, addr, e], fun n => nexts_map d n⟩

/-- C76 fails: with eleven to twenty elements, Insert of a new one above the eleventh answers true, but the
element is not in the set. -/
theorem C76_insert_fails (hc : LawfulCmp cmp) {h : BSet.Store κ} {s : BSet} {l : List (κ × Unit)}
    (hs : BSet.Has cmp h s l) (h21 : l.length < 21) {q : κ × Unit} (hq : l[10]? = some q) {key : κ}
    (hlt : cmp q.1 key = .lt) (hm : OMap.mem cmp l key = false) :
    ∃ h' s', s.insert cmp h key = .ok (h', s', true) ∧ s'.length = l.length + 1 ∧
      s'.contains cmp h' key = .ok false := by
  obtain ⟨fp, hg⟩ := hs
  obtain ⟨h', m', e1, e2, _, e3⟩ := hg.insert_lost hc hm hq hlt h21 ()
  exact ⟨h', ⟨m'⟩, by simp only [BSet.insert, e1, Go.bind_ok]; rfl, e2, e3⟩

/-- C76 fails: with two to eleven elements, Remove of the largest answers true, but it stays. -/
theorem C76_remove_fails (hc : LawfulCmp cmp) {h : BSet.Store κ} {s : BSet} {l : List (κ × Unit)}
    {b : κ × Unit} (hs : BSet.Has cmp h s (l ++ [b])) (hne : l ≠ []) (hlen : l.length ≤ 10) {key : κ}
    (hb : cmp key b.1 = .eq) :
    ∃ h' s', s.remove cmp h key = .ok (h', s', true) ∧ s'.contains cmp h' key = .ok true := by
  obtain ⟨fp, hg⟩ := hs
  obtain ⟨h', m', a, cs, e1, e2, e3, e4⟩ := hg.remove_last hc hne (by simpa using hlen) hb
  have hA : ∀ e ∈ l, cmp key e.1 = .gt := by
    intro e he
    have := (List.pairwise_append.1 hg.asc).2.2 e he b (by simp)
    rw [hc.eq_left hb, hc.gt_iff]; exact this
  obtain ⟨_, g2⟩ := get_of_slots (cmp := cmp) e3 e4 (A := l) (b := b) (B := []) rfl rfl hA hb
  exact ⟨h', ⟨m'⟩, by simp only [BSet.remove, e1, Go.bind_ok]; rfl, g2⟩

/-! ### Comparisons -/

theorem iter_data (g : Growth) {h : BSet.Store κ} {s : BSet} {l : List (κ × Unit)}
    {fp : List Nat} (hg : Good cmp h s.treemap l fp) (hne : l ≠ []) :
    ∃ w : Vec κ, s.intoIter g h = .ok ⟨w, 0⟩ ∧ w.data = l.map (·.1) := by
  have ht := hg.tree
  cases hr : s.treemap.root with
  | none => rw [hr] at ht; cases ht; exact absurd rfl hne
  | some a =>
    rw [hr] at ht
    obtain ⟨_, ⟨w, e, d⟩, _⟩ := ht.toVecs g
    exact ⟨w, by simp [BSet.intoIter, hr, addr, e], d⟩

theorem iter_empty (g : Growth) {h : BSet.Store κ} {s : BSet} {fp : List Nat}
    (hg : Good cmp h s.treemap [] fp) : s.intoIter g h = .error .nilDeref := by
  have ht := hg.tree
  cases hr : s.treemap.root with
  | none => simp only [BSet.intoIter, hr, addr]; rfl
  | some a =>
    rw [hr] at ht
    exfalso
    generalize hl : ([] : List (κ × Unit)) = l at ht
    cases ht with
    | leaf h1 _ => exact h1 hl.symm
    | node h1 h2 =>
      have := congrArg List.length hl
      simp at this
      omega

theorem BSet.loops_eq (hc : LawfulCmp cmp) {h : BSet.Store κ} {b : BSet} {lb : List (κ × Unit)} {fp : List Nat}
    (hb : Good cmp h b.treemap lb fp) (v : Vec κ) (fuel i : Nat) (hf : v.len < i + fuel) :
    BSet.subsetLoop cmp h b fuel ⟨v, i⟩ = .ok (some ((v.data.drop i).all (OMap.mem cmp lb))) ∧
    BSet.disjointLoop cmp h b fuel ⟨v, i⟩ = .ok (some ((v.data.drop i).all fun k => !OMap.mem cmp lb k)) ∨
      fuel = 0 := by
  induction fuel generalizing i with
  | zero => right; rfl
  | succ fuel ih =>
    left
    by_cases hi : i < v.len
    · have hf' : fuel ≠ 0 := by omega
      obtain ⟨ih1, ih2⟩ := (ih (i + 1) (by omega)).resolve_right hf'
      simp only [BSet.subsetLoop, BSet.disjointLoop, VecIter.next_ok v i hi, Go.bind_ok, Opt.isNone, Opt.some,
        Bool.false_eq_true, if_false, Opt.unwrap, deref_some, BSet.contains, hb.containsKey hc, ih1, ih2]
      rw [List.drop_eq_getElem_cons hi, List.all_cons, List.all_cons]
      cases OMap.mem cmp lb v.data[i] <;> exact ⟨rfl, rfl⟩
    · have hi' : v.len ≤ i := by omega
      simp only [BSet.subsetLoop, BSet.disjointLoop, VecIter.next_end v i hi', Go.bind_ok, Opt.isNone, Opt.none,
        if_true, List.drop_of_length_le hi']
      exact ⟨rfl, rfl⟩

/-- Every element of the first is one of the second. -/
def Spec.osubset (cmp : κ → κ → Ordering) (la lb : List (κ × Unit)) : Bool := la.all fun e => OMap.mem cmp lb e.1

theorem osubset_iff (hc : LawfulCmp cmp) (la lb : List (κ × Unit)) :
    osubset cmp la lb = true ↔ ∀ k, OMap.mem cmp la k = true → OMap.mem cmp lb k = true := by
  simp only [osubset, List.all_eq_true]
  constructor
  · intro h k hk
    obtain ⟨e, he, hke⟩ := OMap.mem_iff.1 hk
    obtain ⟨e', he', hke'⟩ := OMap.mem_iff.1 (h e he)
    exact OMap.mem_iff.2 ⟨e', he', by rw [hc.eq_left hke]; exact hke'⟩
  · intro h e he
    exact h e.1 (OMap.mem_iff.2 ⟨e, he, hc.refl _⟩)

theorem mem_remove (hc : LawfulCmp cmp) (l : List (κ × Unit)) (k k' : κ) :
    OMap.mem cmp (OMap.remove cmp l k) k' = if cmp k' k = .eq then false else OMap.mem cmp l k' := by
  rw [← OMap.lookup_isSome, OMap.lookup_remove hc, ← OMap.lookup_isSome]
  split <;> rfl

theorem osubset_length (hc : LawfulCmp cmp) {la lb : List (κ × Unit)} (ha : Ascending cmp la)
    (hb : Ascending cmp lb) (hs : osubset cmp la lb = true) : la.length ≤ lb.length := by
  induction la generalizing lb with
  | nil => simp
  | cons a la ih =>
    obtain ⟨h1, h2⟩ := List.pairwise_cons.1 ha
    simp only [osubset, List.all_cons, Bool.and_eq_true, List.all_eq_true] at hs
    have hr := OMap.length_remove hc hb a.1
    rw [hs.1] at hr
    simp only [if_true] at hr
    have hpos : 0 < lb.length := by
      obtain ⟨e, he, _⟩ := OMap.mem_iff.1 hs.1
      exact List.length_pos_of_mem he
    have := ih h2 (OMap.ascending_remove hb a.1) (by
      simp only [osubset, List.all_eq_true]
      intro e he
      rw [mem_remove hc, if_neg, hs.2 e he]
      rw [(hc.lt_iff _ _).1 (h1 e he)]; decide)
    simp only [List.length_cons]
    omega

theorem osubset_same (hc : LawfulCmp cmp) {la lb : List (κ × Unit)} (ha : Ascending cmp la)
    (hb : Ascending cmp lb) (hs : osubset cmp la lb = true) (hl : la.length = lb.length) :
    osubset cmp lb la = true := by
  rw [osubset_iff hc]
  intro k hk
  cases hka : OMap.mem cmp la k with
  | true => rfl
  | false =>
    exfalso
    have hr := OMap.length_remove hc hb k
    rw [hk] at hr
    simp only [if_true] at hr
    have hpos : 0 < lb.length := by
      obtain ⟨e, he, _⟩ := OMap.mem_iff.1 hk
      exact List.length_pos_of_mem he
    have := osubset_length hc ha (OMap.ascending_remove hb k) (by
      rw [osubset_iff hc] at hs ⊢
      intro k' hk'
      rw [mem_remove hc, if_neg, hs k' hk']
      intro he
      obtain ⟨e, h1, h2⟩ := OMap.mem_iff.1 hk'
      rw [OMap.mem_false] at hka
      exact hka e h1 (by rw [← hc.eq_left he]; exact h2))
    omega

/-- C76, in part: IsSubset, IsSuperset, IsDisjoint and Eq give the right answer for operands that are not
empty (IsDisjoint only iterates over the receiver, and Eq and IsSubset compare the lengths first).
Missing: empty ones, see `C76_empty_fails`. -/
theorem C76_set_comparisons_partial (hc : LawfulCmp cmp) (g : Growth) {h : BSet.Store κ} {a b : BSet}
    {la lb : List (κ × Unit)} (ha : BSet.Has cmp h a la) (hb : BSet.Has cmp h b lb) (hne : la ≠ []) :
    (∃ r, a.isSubset cmp g h b = .ok (some r) ∧
      (r = true ↔ ∀ k, OMap.mem cmp la k = true → OMap.mem cmp lb k = true)) ∧
    (∃ r, b.isSuperset cmp g h a = .ok (some r) ∧
      (r = true ↔ ∀ k, OMap.mem cmp la k = true → OMap.mem cmp lb k = true)) ∧
    (∃ r, a.isDisjoint cmp g h b = .ok (some r) ∧
      (r = true ↔ ∀ k, ¬ (OMap.mem cmp la k = true ∧ OMap.mem cmp lb k = true))) ∧
    (∃ r, a.eq cmp g h b = .ok (some r) ∧
      (r = true ↔ ∀ k, OMap.mem cmp la k = OMap.mem cmp lb k)) := by
  obtain ⟨fa, ga⟩ := ha
  obtain ⟨fb, gb⟩ := hb
  obtain ⟨w, ew, dw⟩ := iter_data g ga hne
  obtain ⟨l1, l2⟩ := (BSet.loops_eq hc gb w (w.len + 1) 0 (by omega)).resolve_right (by omega)
  rw [List.drop_zero, dw, List.all_map] at l1 l2
  have hsub : ∃ r, a.isSubset cmp g h b = .ok (some r) ∧
      (r = true ↔ ∀ k, OMap.mem cmp la k = true → OMap.mem cmp lb k = true) := by
    rw [← osubset_iff hc]
    unfold BSet.isSubset
    by_cases hl : a.length > b.length
    · refine ⟨false, by rw [if_pos hl], ?_⟩
      simp only [Bool.false_eq_true, false_iff]
      intro hs
      have := osubset_length hc ga.asc gb.asc hs
      rw [BSet.length, BSet.length, BMap.length, BMap.length, ga.len, gb.len] at hl
      omega
    · rw [if_neg hl]
      simp only [ew, Go.bind_ok, VecIter.rounds, l1]
      exact ⟨_, rfl, Iff.rfl⟩
  refine ⟨hsub, hsub, ?_, ?_⟩
  · simp only [BSet.isDisjoint, ew, Go.bind_ok, VecIter.rounds, l2]
    refine ⟨_, rfl, ?_⟩
    simp only [List.all_eq_true, Function.comp, Bool.not_eq_true']
    constructor
    · rintro hd k ⟨h1, h2⟩
      obtain ⟨e, he, hke⟩ := OMap.mem_iff.1 h1
      obtain ⟨e', he', hke'⟩ := OMap.mem_iff.1 h2
      exact OMap.mem_false.1 (hd e he) e' he' (by rw [← hc.eq_left hke]; exact hke')
    · intro hd e he
      have := hd e.1
      rw [OMap.mem_iff.2 ⟨e, he, hc.refl _⟩] at this
      simpa using this
  · unfold BSet.eq
    by_cases hl : a.length = b.length
    · rw [if_neg (by simpa using hl)]
      simp only [ew, Go.bind_ok, VecIter.rounds, l1]
      refine ⟨_, rfl, ?_⟩
      rw [BSet.length, BSet.length, BMap.length, BMap.length, ga.len, gb.len] at hl
      constructor
      · intro hs k
        have h1 := (osubset_iff hc la lb).1 hs k
        have h2 := (osubset_iff hc lb la).1 (osubset_same hc ga.asc gb.asc hs hl) k
        rw [Bool.eq_iff_iff]; exact ⟨h1, h2⟩
      · intro hs
        exact (osubset_iff hc la lb).2 fun k hk => by rw [← hs k]; exact hk
    · refine ⟨false, by rw [if_pos (by simpa using hl)], ?_⟩
      simp only [Bool.false_eq_true, false_iff]
      intro hs
      have h1 := osubset_length hc ga.asc gb.asc ((osubset_iff hc la lb).2 fun k hk => by rw [← hs k]; exact hk)
      have h2 := osubset_length hc gb.asc ga.asc ((osubset_iff hc lb la).2 fun k hk => by rw [hs k]; exact hk)
      rw [BSet.length, BSet.length, BMap.length, BMap.length, ga.len, gb.len] at hl
      omega

/-- C76 fails: with an empty receiver IntoIter, IsSubset, IsDisjoint, Intersection, Union,
SymmetricDifference and Clone panic, IsSuperset with an empty argument does, and Eq of two empty sets. -/
theorem C76_empty_fails (g : Growth) {h : BSet.Store κ} {a b : BSet} {lb : List (κ × Unit)}
    (ha : BSet.Has cmp h a []) (hb : BSet.Has cmp h b lb) (cK : Option (κ → κ)) (fuel : Nat) :
    a.intoIter g h = .error .nilDeref ∧
    a.isSubset cmp g h b = .error .nilDeref ∧ b.isSuperset cmp g h a = .error .nilDeref ∧
    a.isDisjoint cmp g h b = .error .nilDeref ∧
    (a.intersection cmp g b h).1 = .error .nilDeref ∧ (a.union cmp g b h).1 = .error .nilDeref ∧
    (a.symmetricDifference cmp g b h).1 = .error .nilDeref ∧
    (a.clone cmp g cK (fuel + 1) h).1 = .error .nilDeref ∧
    (lb = [] → a.eq cmp g h b = .error .nilDeref) := by
  obtain ⟨fa, ga⟩ := ha
  obtain ⟨fb, gb⟩ := hb
  have hi := iter_empty g ga
  have hla : a.length = 0 := ga.len
  have hsub : a.isSubset cmp g h b = .error .nilDeref := by
    unfold BSet.isSubset
    rw [if_neg (by omega), hi]; rfl
  refine ⟨hi, hsub, hsub, ?_, ?_, ?_, ?_, ?_, ?_⟩
  · simp only [BSet.isDisjoint, hi]; rfl
  · simp only [BSet.intersection, BSet.intoIterE, Eff.bind_run, hi]
  · simp only [BSet.union, BSet.intoIterE, Eff.bind_run, hi]
  · simp only [BSet.symmetricDifference, BSet.intoIterE, Eff.bind_run, hi]
  · simp only [BSet.clone, BSet.cloneLoop, BSet.intoIterE, Eff.bind_run, hi]
  · rintro rfl
    have hlb : b.length = 0 := gb.len
    unfold BSet.eq
    rw [if_neg (by simp [hla, hlb]), hi]; rfl

/-! ### Building new sets -/

/-- Add the elements of a list that satisfy `c`. -/
def Spec.addAll (cmp : κ → κ → Ordering) (c : κ → Bool) (l : List (κ × Unit)) (xs : List κ) : List (κ × Unit) :=
  xs.foldl (fun l v => if c v then OMap.insert cmp l v () else l) l

theorem mem_insert' (hc : LawfulCmp cmp) (l : List (κ × Unit)) (v k : κ) :
    OMap.mem cmp (OMap.insert cmp l v ()) k = (decide (cmp k v = .eq) || OMap.mem cmp l k) := by
  rw [← OMap.lookup_isSome, OMap.lookup_insert hc, ← OMap.lookup_isSome]
  by_cases h : cmp k v = .eq <;> simp [h]

theorem addAll_mem (hc : LawfulCmp cmp) (c : κ → Bool) (l : List (κ × Unit)) (xs : List κ) (k : κ) :
    OMap.mem cmp (addAll cmp c l xs) k = (OMap.mem cmp l k || xs.any fun v => c v && cmp k v == .eq) := by
  induction xs generalizing l with
  | nil => simp [addAll]
  | cons a xs ih =>
    have : addAll cmp c l (a :: xs) = addAll cmp c (if c a then OMap.insert cmp l a () else l) xs := rfl
    rw [this, ih, List.any_cons]
    cases c a with
    | false => simp
    | true =>
      simp only [if_true, mem_insert' hc, Bool.true_and]
      have : decide (cmp k a = .eq) = (cmp k a == .eq) := by
        cases cmp k a <;> rfl
      rw [this]
      cases cmp k a == .eq <;> cases OMap.mem cmp l k <;> rfl

theorem addAll_length (hc : LawfulCmp cmp) (c : κ → Bool) (l : List (κ × Unit)) (xs : List κ) :
    l.length ≤ (addAll cmp c l xs).length := by
  induction xs generalizing l with
  | nil => exact Nat.le_refl _
  | cons a xs ih =>
    have : addAll cmp c l (a :: xs) = addAll cmp c (if c a then OMap.insert cmp l a () else l) xs := rfl
    rw [this]
    refine Nat.le_trans ?_ (ih _)
    split
    · rw [OMap.length_insert hc]; split <;> omega
    · exact Nat.le_refl _

/-- One round of the loops that build a new set. -/
def Builds (cmp : κ → κ → Ordering) (h0 : BSet.Store κ) (c : κ → Bool)
    (step : BSet → κ → Eff (BSet.Store κ) BSet) : Prop :=
  ∀ h s l fp v, Frame h0 [] h fp → Good cmp h s.treemap l fp →
    step s v h = (if c v then s.insertE cmp v else pure s : Eff (BSet.Store κ) BSet) h

theorem BSet.addLoop (hc : LawfulCmp cmp) {h0 : BSet.Store κ} {c : κ → Bool}
    {step : BSet → κ → Eff (BSet.Store κ) BSet} (hstep : Builds cmp h0 c step) (xs : List κ)
    {h : BSet.Store κ} {s : BSet} {l : List (κ × Unit)} {fp : List Nat} (hf : Frame h0 [] h fp)
    (hs : Good cmp h s.treemap l fp) (hl : (addAll cmp c l xs).length ≤ 11) :
    ∃ h' s' fp', foldE step s xs h = (.ok s', h') ∧ Frame h0 [] h' fp' ∧
      Good cmp h' s'.treemap (addAll cmp c l xs) fp' := by
  induction xs generalizing h s l fp with
  | nil => exact ⟨h, s, fp, rfl, hf, hs⟩
  | cons a xs ih =>
    have hadd : addAll cmp c l (a :: xs) = addAll cmp c (if c a then OMap.insert cmp l a () else l) xs := rfl
    rw [hadd] at hl ⊢
    have e := hstep h s l fp a hf hs
    cases hca : c a with
    | false =>
      rw [hca] at e hl
      obtain ⟨h2, s2, fp2, e2, f2, g2⟩ := ih hf hs hl
      exact ⟨h2, s2, fp2, by simp only [foldE, Eff.bind_run, e, Bool.false_eq_true, if_false, Eff.pure_run, e2], f2, g2⟩
    | true =>
      rw [hca] at e hl
      simp only [if_true] at e hl ⊢
      have hfit : Fits cmp l a := by
        cases hm : OMap.mem cmp l a with
        | true => exact .inl hm
        | false =>
          have h1 := addAll_length hc c (OMap.insert cmp l a ()) xs
          rw [OMap.length_insert hc, hm] at h1
          simp only [Bool.false_eq_true, if_false] at h1
          exact .inr (.inl (by omega))
      obtain ⟨h1, s1, fp1, e1, g1, f1⟩ := hs.setInsert hc hfit
      obtain ⟨h2, s2, fp2, e2, f2, g2⟩ := ih (hf.trans f1) g1 hl
      refine ⟨h2, s2, fp2, ?_, f2, g2⟩
      simp only [foldE, Eff.bind_run, e, BSet.insertE, e1, e2]

theorem BSet.drain_iter {S : Type} (step : S → κ → Eff (BSet.Store κ) S) {w : Vec κ} {xs : List κ}
    (hw : w.data = xs) (s : S) :
    VecIter.drain step (⟨w, 0⟩ : VecIter κ).rounds ⟨w, 0⟩ s = foldE step s xs >>= fun r => pure (some r) := by
  have := VecIter.drain_eq step w (⟨w, 0⟩ : VecIter κ).rounds 0 s (by simp [VecIter.rounds]) (by simp [VecIter.rounds])
  rw [List.drop_zero, hw] at this
  exact this

theorem builds_all (h0 : BSet.Store κ) :
    Builds cmp h0 (fun _ => true) fun (newSet : BSet) v => newSet.insertE cmp v :=
  fun _ _ _ _ _ _ _ => rfl

theorem builds_contains (hc : LawfulCmp cmp) {h0 : BSet.Store κ} {b : BSet} {lb : List (κ × Unit)} {fb : List Nat}
    (hb : Good cmp h0 b.treemap lb fb) :
    Builds cmp h0 (OMap.mem cmp lb) (fun (newSet : BSet) v => do
      let c ← b.containsE cmp v
      if c then newSet.insertE cmp v else pure newSet) := by
  intro h s l fp v hf hs
  simp only [Eff.bind_run, BSet.containsE, BSet.contains, (hb.frame hf).containsKey hc]

theorem builds_not_contains (hc : LawfulCmp cmp) {h0 : BSet.Store κ} {b : BSet} {lb : List (κ × Unit)}
    {fb : List Nat} (hb : Good cmp h0 b.treemap lb fb) :
    Builds cmp h0 (fun v => !OMap.mem cmp lb v) (fun (newSet : BSet) v => do
      let c ← b.containsE cmp v
      if !c then newSet.insertE cmp v else pure newSet) := by
  intro h s l fp v hf hs
  simp only [Eff.bind_run, BSet.containsE, BSet.contains, (hb.frame hf).containsKey hc]

theorem frame_new (h : BSet.Store κ) : Frame h [] h [] := .rfl' h []

theorem any_keys (la : List (κ × Unit)) (c : κ → Bool)
    (hcr : ∀ k k', cmp k k' = .eq → c k = c k') (k : κ) :
    ((la.map (·.1)).any fun v => c v && cmp k v == .eq) = (OMap.mem cmp la k && c k) := by
  rw [Bool.eq_iff_iff]
  simp only [List.any_eq_true, List.mem_map, Bool.and_eq_true, beq_iff_eq, OMap.mem_iff]
  constructor
  · rintro ⟨x, ⟨e, he, rfl⟩, h1, h2⟩
    exact ⟨⟨e, he, h2⟩, by rw [hcr k e.1 h2]; exact h1⟩
  · rintro ⟨⟨e, he, h2⟩, h1⟩
    exact ⟨e.1, ⟨e, he, rfl⟩, by rw [← hcr k e.1 h2]; exact h1, h2⟩

theorem mem_resp (hc : LawfulCmp cmp) (l : List (κ × Unit)) (k k' : κ) (h : cmp k k' = .eq) :
    OMap.mem cmp l k = OMap.mem cmp l k' := by
  unfold OMap.mem
  congr 1
  funext e
  rw [hc.eq_left h]

/-- The keys in both, in the order of the first. -/
def Spec.ointer (cmp : κ → κ → Ordering) (la lb : List (κ × Unit)) : List (κ × Unit) :=
  la.filter fun e => OMap.mem cmp lb e.1

theorem addAll_filter (hc : LawfulCmp cmp) (c : κ → Bool) (la l : List (κ × Unit)) (ha : Ascending cmp la)
    (hl : ∀ x ∈ l, ∀ e ∈ la, cmp x.1 e.1 = .lt) :
    addAll cmp c l (la.map (·.1)) = l ++ la.filter fun e => c e.1 := by
  induction la generalizing l with
  | nil => simp [addAll]
  | cons a la ih =>
    obtain ⟨h1, h2⟩ := List.pairwise_cons.1 ha
    have : addAll cmp c l ((a :: la).map (·.1)) =
      addAll cmp c (if c a.1 then OMap.insert cmp l a.1 () else l) (la.map (·.1)) := rfl
    rw [this, List.filter_cons]
    cases c a.1 with
    | false =>
      simp only [Bool.false_eq_true, if_false]
      exact ih l h2 fun x hx e he => hl x hx e (by simp [he])
    | true =>
      simp only [if_true]
      have hi : OMap.insert cmp l a.1 () = l ++ [a] := by
        have := insert_fresh hc (A := l) (B := []) (key := a.1)
          (fun e he => (hc.gt_iff _ _).2 (hl e he a (by simp))) (by simp) ()
        rw [List.append_nil] at this
        exact this
      rw [hi, ih (l ++ [a]) h2]
      · simp
      · intro x hx e he
        rcases List.mem_append.1 hx with hx | hx
        · exact hl x hx e (by simp [he])
        · simp at hx; subst hx; exact h1 e he

/-- C76, in part: Intersection of a set that is not empty with another gives, if they have at most eleven
elements in common, a new set with exactly these; no existing set changes.  Missing: an empty receiver
(`C76_empty_fails`) and more common elements (`C76_intersection_fails`). -/
theorem C76_set_intersection_partial (hc : LawfulCmp cmp) (g : Growth) {h : BSet.Store κ} {a b : BSet}
    {la lb : List (κ × Unit)} (ha : BSet.Has cmp h a la) (hb : BSet.Has cmp h b lb) (hne : la ≠ [])
    (h11 : (ointer cmp la lb).length ≤ 11) :
    ∃ h' s l, a.intersection cmp g b h = (.ok (some s), h') ∧ BSet.Has cmp h' s l ∧
      (∀ k, OMap.mem cmp l k = (OMap.mem cmp la k && OMap.mem cmp lb k)) ∧
      ∀ t lt, BSet.Has cmp h t lt → BSet.Has cmp h' t lt := by
  obtain ⟨fa, ga⟩ := ha
  obtain ⟨fb, gb⟩ := hb
  obtain ⟨w, ew, dw⟩ := iter_data g ga hne
  have hadd := addAll_filter hc (OMap.mem cmp lb) la [] ga.asc (by simp)
  rw [List.nil_append] at hadd
  obtain ⟨h', s', fp', e1, f1, g1⟩ := BSet.addLoop hc (builds_contains hc gb) (la.map (·.1)) (s := BSet.new)
    (frame_new h) (Good.new h) (by rw [hadd]; exact h11)
  refine ⟨h', s', _, ?_, ⟨fp', g1⟩, ?_, fun t lt ⟨ft, gt⟩ => ⟨ft, gt.frame f1⟩⟩
  · simp only [BSet.intersection, BSet.intoIterE, Eff.bind_run, ew, BSet.drain_iter _ dw, e1]; rfl
  · intro k
    rw [addAll_mem hc, any_keys _ _ (mem_resp hc lb)]
    rfl

theorem foldE_append {S : Type} (step : S → κ → Eff (BSet.Store κ) S) (s s' : S) (xs ys : List κ)
    (h h' : BSet.Store κ) (e : foldE step s xs h = (.ok s', h')) :
    foldE step s (xs ++ ys) h = foldE step s' ys h' := by
  induction xs generalizing s h with
  | nil => cases e; rfl
  | cons x xs ih =>
    simp only [List.cons_append, foldE, Eff.bind_run] at e ⊢
    cases hs : step s x h with
    | mk r h1 =>
      rw [hs] at e
      cases r with
      | error p => cases e
      | ok s1 => exact ih s1 h1 e

theorem addAll_count (hc : LawfulCmp cmp) (xs l : List (κ × Unit)) (hx : Ascending cmp xs) :
    (addAll cmp (fun _ => true) l (xs.map (·.1))).length =
      l.length + (xs.filter fun e => !OMap.mem cmp l e.1).length := by
  induction xs generalizing l with
  | nil => rfl
  | cons x xs ih =>
    obtain ⟨h1, h2⟩ := List.pairwise_cons.1 hx
    have e : addAll cmp (fun _ => true) l ((x :: xs).map (·.1)) =
      addAll cmp (fun _ => true) (OMap.insert cmp l x.1 ()) (xs.map (·.1)) := rfl
    have hf : (xs.filter fun e => !OMap.mem cmp (OMap.insert cmp l x.1 ()) e.1) =
        xs.filter fun e => !OMap.mem cmp l e.1 := by
      apply List.filter_congr
      intro y hy
      rw [mem_insert' hc]
      have : cmp y.1 x.1 ≠ .eq := by rw [(hc.lt_iff _ _).1 (h1 y hy)]; decide
      simp [this]
    rw [e, ih _ h2, hf, OMap.length_insert hc, List.filter_cons]
    cases OMap.mem cmp l x.1 <;> simp
    omega

/-- C76, in part: Union of two sets that are not empty and have at most eleven different elements gives a new
set with exactly the elements of either.  Missing: empty operands (`C76_empty_fails`,
`C76_union_empty_fails`) and more elements (`C76_union_fails`). -/
theorem C76_set_union_partial (hc : LawfulCmp cmp) (g : Growth) {h : BSet.Store κ} {a b : BSet}
    {la lb : List (κ × Unit)} (ha : BSet.Has cmp h a la) (hb : BSet.Has cmp h b lb) (hna : la ≠ []) (hnb : lb ≠ [])
    (h11 : (la ++ lb.filter fun e => !OMap.mem cmp la e.1).length ≤ 11) :
    ∃ h' s l, a.union cmp g b h = (.ok (some s), h') ∧ BSet.Has cmp h' s l ∧
      (∀ k, OMap.mem cmp l k = (OMap.mem cmp la k || OMap.mem cmp lb k)) ∧
      ∀ t lt, BSet.Has cmp h t lt → BSet.Has cmp h' t lt := by
  obtain ⟨fa, ga⟩ := ha
  obtain ⟨fb, gb⟩ := hb
  have hadd := addAll_filter hc (fun _ => true) la [] ga.asc (by simp)
  rw [List.nil_append, List.filter_eq_self.2 (by simp)] at hadd
  have hlen : (addAll cmp (fun _ => true) la (lb.map (·.1))).length ≤ 11 := by
    rw [addAll_count hc lb la gb.asc]
    simpa using h11
  have hla : la.length ≤ 11 := by simp at h11; omega
  obtain ⟨w, ew, dw⟩ := iter_data g ga hna
  obtain ⟨h1, s1, fp1, e1, f1, g1⟩ := BSet.addLoop hc (builds_all (cmp := cmp) h) (la.map (·.1)) (s := BSet.new)
    (frame_new h) (Good.new h) (by rw [hadd]; exact hla)
  rw [hadd] at g1
  obtain ⟨w2, ew2, dw2⟩ := iter_data g (gb.frame f1) hnb
  obtain ⟨h2, s2, fp2, e2, f2, g2⟩ := BSet.addLoop hc (builds_all (cmp := cmp) h) (lb.map (·.1)) f1 g1 hlen
  refine ⟨h2, s2, _, ?_, ⟨fp2, g2⟩, ?_, fun t lt ⟨ft, gt⟩ => ⟨ft, gt.frame f2⟩⟩
  · simp only [BSet.union, BSet.intoIterE, Eff.bind_run, ew, BSet.drain_iter _ dw, e1, Eff.pure_run, ew2,
      BSet.drain_iter _ dw2, e2]
  · intro k
    rw [addAll_mem hc, any_keys _ _ (fun _ _ _ => rfl)]
    simp

/-- C76, in part: likewise SymmetricDifference.  Missing: empty operands and results with more than eleven
elements. -/
theorem C76_set_symmetricDifference_partial (hc : LawfulCmp cmp) (g : Growth) {h : BSet.Store κ} {a b : BSet}
    {la lb : List (κ × Unit)} (ha : BSet.Has cmp h a la) (hb : BSet.Has cmp h b lb) (hna : la ≠ []) (hnb : lb ≠ [])
    (h11 : ((la.filter fun e => !OMap.mem cmp lb e.1) ++ lb.filter fun e => !OMap.mem cmp la e.1).length ≤ 11) :
    ∃ h' s l, a.symmetricDifference cmp g b h = (.ok (some s), h') ∧ BSet.Has cmp h' s l ∧
      (∀ k, OMap.mem cmp l k = (OMap.mem cmp la k ^^ OMap.mem cmp lb k)) ∧
      ∀ t lt, BSet.Has cmp h t lt → BSet.Has cmp h' t lt := by
  obtain ⟨fa, ga⟩ := ha
  obtain ⟨fb, gb⟩ := hb
  have hadd := addAll_filter hc (fun v => !OMap.mem cmp lb v) la [] ga.asc (by simp)
  rw [List.nil_append] at hadd
  have key : ∀ (c : κ → Bool) (xs l : List (κ × Unit)),
      (addAll cmp c l (xs.map (·.1))).length ≤ l.length + (xs.filter fun e => c e.1).length := by
    intro c xs
    induction xs with
    | nil => intro l; exact Nat.le_refl _
    | cons x xs ih =>
      intro l
      have e : addAll cmp c l ((x :: xs).map (·.1)) =
        addAll cmp c (if c x.1 then OMap.insert cmp l x.1 () else l) (xs.map (·.1)) := rfl
      rw [e, List.filter_cons]
      refine Nat.le_trans (ih _) ?_
      cases c x.1 with
      | false => simp
      | true =>
        simp only [if_true, OMap.length_insert hc, List.length_cons]
        split <;> omega
  rw [List.length_append] at h11
  obtain ⟨w, ew, dw⟩ := iter_data g ga hna
  obtain ⟨h1, s1, fp1, e1, f1, g1⟩ := BSet.addLoop hc (builds_not_contains hc gb) (la.map (·.1)) (s := BSet.new)
    (frame_new h) (Good.new h) (by rw [hadd]; omega)
  obtain ⟨w2, ew2, dw2⟩ := iter_data g (gb.frame f1) hnb
  obtain ⟨h2, s2, fp2, e2, f2, g2⟩ := BSet.addLoop hc (builds_not_contains hc ga) (lb.map (·.1)) f1 g1 (by
    refine Nat.le_trans (key _ _ _) ?_
    rw [hadd]; omega)
  refine ⟨h2, s2, _, ?_, ⟨fp2, g2⟩, ?_, fun t lt ⟨ft, gt⟩ => ⟨ft, gt.frame f2⟩⟩
  · simp only [BSet.symmetricDifference, BSet.intoIterE, Eff.bind_run, ew, BSet.drain_iter _ dw, e1, Eff.pure_run,
      ew2, BSet.drain_iter _ dw2, e2]
  · intro k
    have n1 : ∀ (l : List (κ × Unit)) (k k' : κ), cmp k k' = .eq →
        (fun v => !OMap.mem cmp l v) k = (fun v => !OMap.mem cmp l v) k' := by
      intro l k k' hk; simp only [mem_resp hc l k k' hk]
    rw [addAll_mem hc, any_keys _ _ (n1 la), addAll_mem hc, any_keys _ _ (n1 lb)]
    have : OMap.mem cmp ([] : List (κ × Unit)) k = false := rfl
    rw [this]
    cases OMap.mem cmp la k <;> cases OMap.mem cmp lb k <;> rfl

/-- C76 fails: Union and SymmetricDifference with an empty argument panic. -/
theorem C76_union_empty_fails (hc : LawfulCmp cmp) (g : Growth) {h : BSet.Store κ} {a b : BSet}
    {la : List (κ × Unit)} (ha : BSet.Has cmp h a la) (hb : BSet.Has cmp h b []) (hna : la ≠ [])
    (h11 : la.length ≤ 11) :
    (a.union cmp g b h).1 = .error .nilDeref ∧ (a.symmetricDifference cmp g b h).1 = .error .nilDeref := by
  obtain ⟨fa, ga⟩ := ha
  obtain ⟨fb, gb⟩ := hb
  obtain ⟨w, ew, dw⟩ := iter_data g ga hna
  constructor
  · have hadd := addAll_filter hc (fun _ => true) la [] ga.asc (by simp)
    rw [List.nil_append, List.filter_eq_self.2 (by simp)] at hadd
    obtain ⟨h1, s1, fp1, e1, f1, g1⟩ := BSet.addLoop hc (builds_all (cmp := cmp) h) (la.map (·.1)) (s := BSet.new)
      (frame_new h) (Good.new h) (by rw [hadd]; exact h11)
    simp only [BSet.union, BSet.intoIterE, Eff.bind_run, ew, BSet.drain_iter _ dw, e1, Eff.pure_run,
      iter_empty g (gb.frame f1)]
  · have hadd := addAll_filter hc (fun v => !OMap.mem cmp ([] : List (κ × Unit)) v) la [] ga.asc (by simp)
    rw [List.nil_append] at hadd
    obtain ⟨h1, s1, fp1, e1, f1, g1⟩ := BSet.addLoop hc (builds_not_contains hc gb) (la.map (·.1)) (s := BSet.new)
      (frame_new h) (Good.new h) (by
        rw [hadd]
        exact Nat.le_trans (List.length_filter_le _ _) h11)
    simp only [BSet.symmetricDifference, BSet.intoIterE, Eff.bind_run, ew, BSet.drain_iter _ dw, e1, Eff.pure_run,
      iter_empty g (gb.frame f1)]

/-- C76 fails: when two sets have twelve elements in common, the largest of these is missing from their
Intersection. -/
theorem C76_intersection_fails (hc : LawfulCmp cmp) (g : Growth) {h : BSet.Store κ} {a b : BSet}
    {la lb I : List (κ × Unit)} {x : κ × Unit} (ha : BSet.Has cmp h a la) (hb : BSet.Has cmp h b lb)
    (hI : ointer cmp la lb = I ++ [x]) (h11 : I.length = 11) :
    ∃ h' s, a.intersection cmp g b h = (.ok (some s), h') ∧ s.contains cmp h' x.1 = .ok false := by
  obtain ⟨fa, ga⟩ := ha
  obtain ⟨fb, gb⟩ := hb
  -- where x is
  have split : ∀ (la I : List (κ × Unit)) (x : κ × Unit), ointer cmp la lb = I ++ [x] →
      ∃ A B, la = A ++ x :: B ∧ ointer cmp A lb = I ∧ OMap.mem cmp lb x.1 = true ∧ ointer cmp B lb = [] := by
    intro la I x hI
    induction la using snoc_induction with
    | nil => simp [ointer] at hI
    | snoc la y ih =>
      have hap : ointer cmp (la ++ [y]) lb = ointer cmp la lb ++ ointer cmp [y] lb := List.filter_append ..
      rw [hap] at hI
      cases hy : OMap.mem cmp lb y.1 with
      | true =>
        have : ointer cmp [y] lb = [y] := by simp [ointer, hy]
        rw [this] at hI
        obtain ⟨h1, h2⟩ := List.append_inj' hI rfl
        simp at h2
        subst h2
        exact ⟨la, [], rfl, h1, hy, rfl⟩
      | false =>
        have hy' : ointer cmp [y] lb = [] := by simp [ointer, hy]
        rw [hy', List.append_nil] at hI
        obtain ⟨A, B, e, h1, h2, h3⟩ := ih hI
        refine ⟨A, B ++ [y], by rw [e]; simp, h1, h2, ?_⟩
        have : ointer cmp (B ++ [y]) lb = ointer cmp B lb ++ ointer cmp [y] lb := List.filter_append ..
        rw [this, h3, hy']; rfl
  obtain ⟨A, B, rfl, hA, hx, hB⟩ := split la I x hI
  obtain ⟨w, ew, dw⟩ := iter_data g ga (by simp)
  have hasc := List.pairwise_append.1 ga.asc
  have hadd := addAll_filter hc (OMap.mem cmp lb) A [] hasc.1 (by simp)
  rw [List.nil_append] at hadd
  change _ = ointer cmp A lb at hadd
  rw [hA] at hadd
  have hstep := builds_contains hc gb
  obtain ⟨h1, s1, fp1, e1, f1, g1⟩ := BSet.addLoop hc hstep (A.map (·.1)) (s := BSet.new)
    (frame_new h) (Good.new h) (by rw [hadd]; omega)
  rw [hadd] at g1
  obtain ⟨Y, q, rfl⟩ : ∃ Y q, I = Y ++ [q] :=
    ⟨_, _, (List.dropLast_concat_getLast (by intro h; rw [h] at h11; simp at h11)).symm⟩
  have hsub : ∀ e ∈ Y ++ [q], e ∈ A := by
    intro e he
    rw [← hA] at he
    exact (List.mem_filter.1 he).1
  have hlt : cmp q.1 x.1 = .lt := hasc.2.2 q (hsub q (by simp)) x (by simp)
  have hY : Y.length = 10 := by simpa using h11
  have hq10 : (Y ++ [q])[10]? = some q := by rw [← hY]; simp
  have hm : OMap.mem cmp (Y ++ [q]) x.1 = false := by
    rw [OMap.mem_false]
    intro e he
    rw [(hc.lt_iff _ _).1 (hasc.2.2 e (hsub e he) x (by simp))]; decide
  obtain ⟨h2, r, y, z, cs, e2, _, _, _, _, _, hgrow, hframe⟩ := g1.insert_max hc h11 hlt ()
  obtain ⟨h2', m2, e2', _, _, hcont⟩ := g1.insert_lost hc hm hq10 hlt (by omega) ()
  rw [e2] at e2'
  cases e2'
  have gb2 : Good cmp h2 b.treemap lb fb := by
    refine gb.congr ?_
    intro r hr
    have hlt := gb.tree.lt r hr
    rw [hframe r (Nat.lt_of_lt_of_le hlt f1.grows), f1.others r hlt (by simp)]
    intro hr1
    rcases f1.nodes r hr1 with h' | h'
    · simp at h'
    · omega
  -- the rest adds nothing
  have rest : ∀ (B : List (κ × Unit)) (s : BSet), ointer cmp B lb = [] →
      foldE (fun (newSet : BSet) v => do
        let c ← b.containsE cmp v
        if c then newSet.insertE cmp v else pure newSet) s (B.map (·.1)) h2 = (.ok s, h2) := by
    intro B s hB
    induction B with
    | nil => rfl
    | cons y B ih =>
      have hy : OMap.mem cmp lb y.1 = false := by
        have := List.filter_eq_nil_iff.1 hB y (by simp)
        simpa using this
      have hB' : ointer cmp B lb = [] := by
        rw [ointer, List.filter_cons, hy] at hB; exact hB
      have h1 : b.containsE cmp y.1 h2 = (.ok false, h2) := by
        simp only [BSet.containsE, BSet.contains, gb2.containsKey hc, hy]
      have h2' := ih hB'
      simp only [List.map_cons, foldE, Eff.bind_run, h1, Bool.false_eq_true, if_false, Eff.pure_run] at h2' ⊢
      exact h2'
  refine ⟨h2, ⟨⟨some r, 12⟩⟩, ?_, hcont⟩
  have hcx : b.containsE cmp x.1 h1 = (.ok true, h1) := by
    simp only [BSet.containsE, BSet.contains, (gb.frame f1).containsKey hc, hx]
  have hix : s1.insertE cmp x.1 h1 = (.ok ⟨⟨some r, 12⟩⟩, h2) := by
    simp only [BSet.insertE, BSet.insert, e2, Go.bind_ok]
  have hfold := foldE_append _ _ _ _ ((x :: B).map (·.1)) _ _ e1
  rw [← List.map_append] at hfold
  simp only [List.map_cons, foldE] at hfold
  simp only [BSet.intersection, BSet.intoIterE, Eff.bind_run, ew, BSet.drain_iter _ dw, hfold, hcx, if_true, hix,
    rest B _ hB]
  rfl

/-- C76 fails: when the largest element of the argument is above all others, and there are eleven others in the
two sets together, it is missing from their Union. -/
theorem C76_union_fails (hc : LawfulCmp cmp) (g : Growth) {h : BSet.Store κ} {a b : BSet}
    {la lb : List (κ × Unit)} {x : κ × Unit} (ha : BSet.Has cmp h a la) (hb : BSet.Has cmp h b (lb ++ [x]))
    (hna : la ≠ []) (hx : ∀ e ∈ la, cmp e.1 x.1 = .lt)
    (h11 : (la ++ lb.filter fun e => !OMap.mem cmp la e.1).length = 11) :
    ∃ h' s, a.union cmp g b h = (.ok (some s), h') ∧ s.contains cmp h' x.1 = .ok false := by
  obtain ⟨fa, ga⟩ := ha
  obtain ⟨fb, gb⟩ := hb
  have hasc := List.pairwise_append.1 gb.asc
  have hadd := addAll_filter hc (fun _ => true) la [] ga.asc (by simp)
  rw [List.nil_append, List.filter_eq_self.2 (by simp)] at hadd
  have hlen : (addAll cmp (fun _ => true) la (lb.map (·.1))).length = 11 := by
    rw [addAll_count hc lb la hasc.1]
    simpa using h11
  have hla : la.length ≤ 11 := by simp at h11; omega
  obtain ⟨w, ew, dw⟩ := iter_data g ga hna
  obtain ⟨h1, s1, fp1, e1, f1, g1⟩ := BSet.addLoop hc (builds_all (cmp := cmp) h) (la.map (·.1)) (s := BSet.new)
    (frame_new h) (Good.new h) (by rw [hadd]; exact hla)
  rw [hadd] at g1
  obtain ⟨w2, ew2, dw2⟩ := iter_data g (gb.frame f1) (by simp)
  obtain ⟨h2, s2, fp2, e2, f2, g2⟩ := BSet.addLoop hc (builds_all (cmp := cmp) h) (lb.map (·.1)) f1 g1
    (by omega)
  have hall : ∀ k, OMap.mem cmp (addAll cmp (fun _ => true) la (lb.map (·.1))) k = true → cmp k x.1 = .lt := by
    intro k hk
    rw [addAll_mem hc, any_keys _ _ (fun _ _ _ => rfl), Bool.and_true, Bool.or_eq_true] at hk
    rcases hk with hk | hk
    · obtain ⟨e, he, hke⟩ := OMap.mem_iff.1 hk
      rw [hc.eq_left hke]; exact hx e he
    · obtain ⟨e, he, hke⟩ := OMap.mem_iff.1 hk
      rw [hc.eq_left hke]; exact hasc.2.2 e he x (by simp)
  have hm : OMap.mem cmp (addAll cmp (fun _ => true) la (lb.map (·.1))) x.1 = false := by
    cases hm : OMap.mem cmp (addAll cmp (fun _ => true) la (lb.map (·.1))) x.1 with
    | false => rfl
    | true => have := hall _ hm; rw [hc.refl] at this; cases this
  obtain ⟨q, hq⟩ : ∃ q, (addAll cmp (fun _ => true) la (lb.map (·.1)))[10]? = some q :=
    ⟨_, List.getElem?_eq_getElem (by omega)⟩
  have hqlt := hall q.1 (OMap.mem_iff.2 ⟨q, List.mem_of_getElem? hq, hc.refl _⟩)
  obtain ⟨h3, m3, e3, _, _, hcont⟩ := g2.insert_lost hc hm hq hqlt (by omega) ()
  refine ⟨h3, ⟨m3⟩, ?_, hcont⟩
  have hix : s2.insertE cmp x.1 h2 = (.ok ⟨m3⟩, h3) := by
    simp only [BSet.insertE, BSet.insert, e3, Go.bind_ok]
  have hfold := foldE_append _ _ _ _ ((x :: []).map (·.1)) _ _ e2
  rw [← List.map_append] at hfold
  simp only [List.map_cons, List.map_nil, foldE, Eff.bind_run, hix, Eff.pure_run] at hfold
  simp only [BSet.union, BSet.intoIterE, Eff.bind_run, ew, BSet.drain_iter _ dw, e1, Eff.pure_run, ew2,
    BSet.drain_iter _ dw2, hfold]

/-- C76 fails: Clone of a set that is not empty never ends: however many rounds its loop has made, it is still
running. -/
theorem C76_clone_fails (hc : LawfulCmp cmp) (g : Growth) {h : BSet.Store κ} {a : BSet} {la : List (κ × Unit)}
    (ha : BSet.Has cmp h a la) (hne : la ≠ []) (cK : κ → κ) (fuel : Nat) :
    (a.clone cmp g (some cK) fuel h).1 = .ok none := by
  obtain ⟨fa, ga⟩ := ha
  obtain ⟨e, la, rfl⟩ : ∃ e la', la = e :: la' := by
    cases la with
    | nil => exact absurd rfl hne
    | cons e la => exact ⟨e, la, rfl⟩
  have key : ∀ (fuel : Nat) (h' : BSet.Store κ) (s : BSet) (l : List (κ × Unit)) (fp : List Nat),
      Frame h [] h' fp → Good cmp h' s.treemap l fp → (l = [] ∨ l = [(cK e.1, ())]) →
      (BSet.cloneLoop cmp g (some cK) a fuel s h').1 = .ok none := by
    intro fuel
    induction fuel with
    | zero => intros; rfl
    | succ fuel ih =>
      intro h' s l fp hf hs hl
      obtain ⟨w, ew, dw⟩ := iter_data g (ga.frame hf) (by simp)
      have hwl : 0 < w.len := by
        show 0 < w.data.length
        rw [dw]; simp
      have hw0 : w.data[0] = e.1 := by simp [dw]
      have hfit : Fits cmp l (cK e.1) := .inr (.inl (by rcases hl with rfl | rfl <;> simp))
      obtain ⟨h1, s1, fp1, e1, g1, f1⟩ := hs.setInsert hc hfit
      have hins : OMap.insert cmp l (cK e.1) () = [(cK e.1, ())] := by
        rcases hl with rfl | rfl
        · rfl
        · simp [OMap.insert, OMap.mem, hc.refl]
      rw [hins] at g1
      have := ih h1 s1 _ fp1 (hf.trans f1) g1 (.inr rfl)
      simp only [BSet.cloneLoop, BSet.intoIterE, Eff.bind_run, ew, Eff.lift, VecIter.next_ok w 0 hwl, hw0]
      show ((if false = true then pure (some s) else do
        let e' ← Eff.lift (.ok e.1)
        let n ← BSet.insertE cmp s (cK e')
        BSet.cloneLoop cmp g (some cK) a fuel n) h').1 = _
      rw [if_neg (by decide)]
      simp only [Eff.bind_run, Eff.lift, BSet.insertE, e1]
      exact this
  exact key fuel h BSet.new [] [] (frame_new h) (Good.new h) (.inl rfl)
/-! ### Concrete cases -/

/-- The history that inserts the elements. -/
def adds (ks : List Nat) : List (TOp Nat) := ks.map .insert
/-- BTreeSet of int. -/
abbrev natSet := BSet.step (compare : Nat → Nat → Ordering)

theorem two_sets (xs ys : List Nat) (hx : SetAdmissible (compare : Nat → Nat → Ordering) (adds xs) [])
    (hy : SetAdmissible (compare : Nat → Nat → Ordering) (adds ys) []) :
    ∃ h a b, BSet.Has compare h a (runMap (osetStep compare) (adds xs) []).2 ∧
      BSet.Has compare h b (runMap (osetStep compare) (adds ys) []).2 := by
  obtain ⟨h, a, _, ha, _⟩ := C76_set_history_partial natLawful (adds xs) hx []
  obtain ⟨h', b, _, hb, keep⟩ := C76_set_history_partial natLawful (adds ys) hy h
  exact ⟨h', a, b, keep _ _ ha, hb⟩

example : SetAdmissible (compare : Nat → Nat → Ordering)
    [.insert 5, .insert 3, .insert 5, .remove 4, .contains 5, .insert 4, .remove 3, .contains 3, .len, .clear,
      .isEmpty] [] := by decide
example : ((runGo natSet [.insert 5, .insert 3, .insert 5, .remove 4, .contains 5, .insert 4, .remove 3,
    .contains 3, .len, .clear, .isEmpty] ([], BSet.new)).map (·.1)) =
  .ok [.bool true, .bool true, .bool false, .bool false, .bool true, .bool true, .bool true, .bool false, .nat 2,
    .unit, .bool true] := by decide +kernel
-- operands as in the partial theorems: {1, 2, 3} and {2, 3, 4}; and an empty one
example : ∃ h a b, BSet.Has (compare : Nat → Nat → Ordering) h a [(1, ()), (2, ()), (3, ())] ∧
    BSet.Has compare h b [(2, ()), (3, ()), (4, ())] := two_sets [3, 1, 2] [4, 2, 3] (by decide) (by decide)
example : ∃ h a b, BSet.Has (compare : Nat → Nat → Ordering) h a [] ∧ BSet.Has compare h b [(2, ()), (3, ())] :=
  two_sets [] [2, 3] (by decide) (by decide)
example : (ointer (compare : Nat → Nat → Ordering) [(1, ()), (2, ()), (3, ())] [(2, ()), (3, ()), (4, ())]) =
  [(2, ()), (3, ())] := by decide
-- eleven elements and a twelfth above them
example : ∃ h a b, BSet.Has (compare : Nat → Nat → Ordering) h a ((List.range' 1 11).map fun i => (i, ())) ∧
    BSet.Has compare h b [(12, ())] :=
  two_sets ((List.range' 1 11).reverse) [12] (by decide) (by decide)
example : ((runGo natSet (adds (List.range' 1 12) ++ [.contains 12, .len]) ([], BSet.new)).map fun r => r.1.drop 11) =
  .ok [.bool true, .bool false, .nat 12] := by decide +kernel
example : ((runGo natSet (adds [1, 2] ++ [.remove 2, .contains 2]) ([], BSet.new)).map fun r => r.1.drop 2) =
  .ok [.bool true, .bool true] := by decide +kernel
-- twelve in common (14 is only in the first, 0 only in the second)
example : ∃ h a b, BSet.Has (compare : Nat → Nat → Ordering) h a
      (((List.range' 1 12).map fun i => (i, ())) ++ [(14, ())]) ∧
    BSet.Has compare h b ((List.range' 0 13).map fun i => (i, ())) :=
  two_sets (14 :: (List.range' 1 12).reverse) (List.range' 0 13).reverse (by decide) (by decide)
example : ointer (compare : Nat → Nat → Ordering) (((List.range' 1 12).map fun i => (i, ())) ++ [(14, ())])
    ((List.range' 0 13).map fun i => (i, ())) = ((List.range' 1 11).map fun i => (i, ())) ++ [(12, ())] := by decide
end Gost
