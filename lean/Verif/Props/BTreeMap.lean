import Verif.Lemmas.BTreeFill
import Verif.Props.HashMap
import Verif.Props.Misc
/-
Properties C72-C75: BTreeMap as an ordered finite map, its capacity, Remove, and the iterators.
The histories are those of C69 (`HOp`), the specification is `Spec.OMap`.
-/
namespace Gost
open Spec BTree

variable {κ ν : Type} {cmp : κ → κ → Ordering}

/-- What the operations do on a mathematical ordered map. -/
def Spec.ordStep (cmp : κ → κ → Ordering) : HOp κ ν → List (κ × ν) → List (κ × ν) × Obs ν
  | .insert k v, l => (OMap.insert cmp l k v, .opt (OMap.lookup cmp l k))
  | .remove k, l => (OMap.remove cmp l k, .opt (OMap.lookup cmp l k))
  | .get k, l => (l, .opt (OMap.lookup cmp l k))
  | .containsKey k, l => (l, .bool (OMap.mem cmp l k))
  | .len, l => (l, .nat l.length)
  | .isEmpty, l => (l, .bool (l.length == 0))
  | .clear, _ => ([], .unit)

/-- The library's operations. -/
def BMap.step (cmp : κ → κ → Ordering) : HOp κ ν → BStore κ ν × BMap → Go ((BStore κ ν × BMap) × Obs ν)
  | .insert k v, (h, m) => do let (h, m, r) ← m.insert cmp h k v; .ok ((h, m), .opt r.value)
  | .remove k, (h, m) => do let (h, m, r) ← m.remove cmp h k; .ok ((h, m), .opt r.value)
  | .get k, (h, m) => do let r ← m.get cmp h k; .ok ((h, m), .opt r.value)
  | .containsKey k, (h, m) => do let b ← m.containsKey cmp h k; .ok ((h, m), .bool b)
  | .len, (h, m) => .ok ((h, m), .nat m.length)
  | .isEmpty, (h, m) => .ok ((h, m), .bool m.isEmpty)
  | .clear, (h, m) => .ok ((h, m.clear), .unit)

/-- The calls of Remove that work: of an absent key below the twelfth, of the only key, and (with at most
eleven keys) of a key whose successor has the same value. -/
def RemoveOk (cmp : κ → κ → Ordering) (l : List (κ × ν)) (key : κ) : Prop :=
  (OMap.mem cmp l key = false ∧ ((l[11]?).all fun e => cmp key e.1 == .lt) = true) ∨
  (OMap.mem cmp l key = true ∧ l.length = 1) ∨
  (l.length ≤ 11 ∧ OMap.mem cmp l key = true ∧
    (OMap.above cmp l key).head?.map (·.2) = OMap.lookup cmp l key)

instance [DecidableEq ν] (l : List (κ × ν)) (key : κ) : Decidable (RemoveOk cmp l key) := by
  unfold RemoveOk; infer_instance

/-- The operations that work on an ordered map `l`. -/
def Allowed (cmp : κ → κ → Ordering) (l : List (κ × ν)) : HOp κ ν → Prop
  | .insert k _ => Fits cmp l k
  | .remove k => RemoveOk cmp l k
  | _ => True

instance [DecidableEq ν] (l : List (κ × ν)) (o : HOp κ ν) : Decidable (Allowed cmp l o) := by
  cases o <;> unfold Allowed <;> infer_instance

/-- Histories all of whose operations work. -/
def Admissible (cmp : κ → κ → Ordering) : List (HOp κ ν) → List (κ × ν) → Prop
  | [], _ => True
  | o :: os, l => Allowed cmp l o ∧ Admissible cmp os (ordStep cmp o l).1

instance decAdmissible [DecidableEq ν] (cmp : κ → κ → Ordering) : (ops : List (HOp κ ν)) →
    (l : List (κ × ν)) → Decidable (Admissible cmp ops l)
  | [], _ => isTrue trivial
  | o :: os, l => @instDecidableAnd (Allowed cmp l o) _ inferInstance (decAdmissible cmp os (ordStep cmp o l).1)

theorem above_found (hc : LawfulCmp cmp) {A B : List (κ × ν)} {b : κ × ν} {key : κ}
    (hA : ∀ e ∈ A, cmp key e.1 = .gt) (hb : cmp key b.1 = .eq) (hB : ∀ e ∈ B, cmp key e.1 = .lt) :
    OMap.above cmp (A ++ b :: B) key = B := by
  have h := above_eq hc hA hB
  unfold OMap.above at h ⊢
  rw [List.filter_append] at h ⊢
  rw [List.filter_cons, (hc.eq_comm _ _).1 hb]
  exact h

theorem BTree.Good.length_le {h : BStore κ ν} {m : BMap} {l : List (κ × ν)} {fp : List Nat}
    (hg : Good cmp h m l fp) : l.length ≤ 21 := by
  obtain ⟨root, len⟩ := m
  obtain ⟨_, _, tree⟩ := hg
  simp only at tree
  cases tree with
  | nil => simp
  | leaf _ hl => have := hl.1; omega
  | node h1 h2 h3 => simp; omega

/-- Remove where it works. -/
theorem BTree.Good.remove (hc : LawfulCmp cmp) {h : BStore κ ν} {m : BMap} {l : List (κ × ν)} {fp : List Nat}
    (hg : Good cmp h m l fp) {key : κ} (hr : RemoveOk cmp l key) :
    ∃ h' m' fp', BMap.remove cmp h m key = .ok (h', m', ⟨OMap.lookup cmp l key⟩) ∧
      Good cmp h' m' (OMap.remove cmp l key) fp' ∧ Frame h fp h' fp' := by
  rcases locate hc hg.asc key with ⟨A, b, B, rfl, hA, hb, hB⟩ | ⟨A, B, rfl, hA, hB⟩
  · have hm := mem_found (A := A) (B := B) hb
    rw [lookup_found hc hg.asc hb, remove_found hA hb hB]
    rcases hr with ⟨h1, _⟩ | ⟨_, h1⟩ | ⟨h1, _, h2⟩
    · rw [hm] at h1; cases h1
    · have hA0 : A = [] := List.length_eq_zero_iff.1 (by simp at h1; omega)
      have hB0 : B = [] := List.length_eq_zero_iff.1 (by simp at h1; omega)
      subst hA0 hB0
      obtain ⟨h', e1, e2, e3⟩ := Good.remove_only hc hg hb
      exact ⟨h', _, [], e1, e2, e3⟩
    · rw [above_found hc hA hb hB, lookup_found hc hg.asc hb] at h2
      cases B with
      | nil => cases h2
      | cons c B =>
        simp only [List.head?_cons, Option.map_some, Option.some.injEq] at h2
        obtain ⟨h', m', e1, e2, e3⟩ := Good.remove_inner hc hg h1 hA hb
        exact ⟨h', m', fp, by rw [e1, h2], e2, e3⟩
  · have hm := mem_fresh hA hB
    rw [lookup_fresh hA hB, remove_fresh hA hB]
    rcases hr with ⟨_, h1⟩ | ⟨h1, _⟩ | ⟨_, h1, _⟩
    · refine ⟨h, m, fp, Good.remove_absent hc hg hm ?_, hg, .rfl' h fp⟩
      intro e he
      rw [he] at h1
      simpa using h1
    · rw [hm] at h1; cases h1
    · rw [hm] at h1; cases h1

theorem BMap.step_refines (hc : LawfulCmp cmp) {h : BStore κ ν} {m : BMap} {l : List (κ × ν)} {fp : List Nat}
    (hg : Good cmp h m l fp) {o : HOp κ ν} (ho : Allowed cmp l o) :
    ∃ h' m' fp', BMap.step cmp o (h, m) = .ok ((h', m'), (ordStep cmp o l).2) ∧
      Good cmp h' m' (ordStep cmp o l).1 fp' ∧ Frame h fp h' fp' := by
  cases o with
  | insert k v =>
    obtain ⟨h', m', fp', e1, e2, e3⟩ := hg.insert hc ho v
    exact ⟨h', m', fp', by simp [BMap.step, e1, ordStep], e2, e3⟩
  | remove k =>
    obtain ⟨h', m', fp', e1, e2, e3⟩ := hg.remove hc ho
    exact ⟨h', m', fp', by simp [BMap.step, e1, ordStep], e2, e3⟩
  | get k => exact ⟨h, m, fp, by simp [BMap.step, hg.get hc, ordStep], hg, .rfl' h fp⟩
  | containsKey k => exact ⟨h, m, fp, by simp [BMap.step, hg.containsKey hc, ordStep], hg, .rfl' h fp⟩
  | len => exact ⟨h, m, fp, by simp [BMap.step, hg.len, ordStep], hg, .rfl' h fp⟩
  | isEmpty => exact ⟨h, m, fp, by simp [BMap.step, BMap.isEmpty, hg.len, ordStep], hg, .rfl' h fp⟩
  | clear =>
    exact ⟨h, m.clear, [], rfl, Good.new h, Nat.le_refl _, fun _ _ _ => rfl, by simp⟩

theorem BMap.run_refines (hc : LawfulCmp cmp) (ops : List (HOp κ ν)) {h : BStore κ ν} {m : BMap}
    {l : List (κ × ν)} {fp : List Nat} (hg : Good cmp h m l fp) (ha : Admissible cmp ops l) :
    ∃ h' m' fp', runGo (BMap.step cmp) ops (h, m) = .ok ((runMap (ordStep cmp) ops l).1, (h', m')) ∧
      Good cmp h' m' (runMap (ordStep cmp) ops l).2 fp' ∧ Frame h fp h' fp' := by
  induction ops generalizing h m l fp with
  | nil => exact ⟨h, m, fp, rfl, hg, .rfl' h fp⟩
  | cons o ops ih =>
    obtain ⟨h1, m1, fp1, e1, g1, f1⟩ := step_refines hc hg ha.1
    obtain ⟨h2, m2, fp2, e2, g2, f2⟩ := ih g1 ha.2
    exact ⟨h2, m2, fp2, by simp [runGo, e1, e2, runMap], g2, f1.trans f2⟩

/-- The map `m` (its nodes in the heap `h`) has been made by an admissible history and has the entries `l`. -/
def BMap.Reached (cmp : κ → κ → Ordering) (h : BStore κ ν) (m : BMap) (l : List (κ × ν)) : Prop :=
  ∃ h0 ops rs, Admissible cmp ops [] ∧ runGo (BMap.step cmp) ops (h0, BMap.new) = .ok (rs, (h, m)) ∧
    l = (runMap (ordStep cmp) ops []).2

theorem BMap.Reached.good (hc : LawfulCmp cmp) {h : BStore κ ν} {m : BMap} {l : List (κ × ν)}
    (hr : BMap.Reached cmp h m l) : ∃ fp, Good cmp h m l fp := by
  obtain ⟨h0, ops, rs, h1, h2, rfl⟩ := hr
  obtain ⟨h', m', fp, e1, g, _⟩ := run_refines hc ops (Good.new (cmp := cmp) h0) h1
  rw [e1] at h2
  cases h2
  exact ⟨fp, g⟩

/-! ### C72 -/

/-- C72, in part: every admissible history of Insert, Remove, Get, ContainsKey, Len, IsEmpty and Clear on a
new BTreeMap gives the results of a mathematical ordered map, nothing panics, and nodes that were there
before are not touched.  Missing: histories with an insertion that does not fit, see `C72_insert_partial`. -/
theorem C72_btree_history_partial (hc : LawfulCmp cmp) (ops : List (HOp κ ν)) (ha : Admissible cmp ops [])
    (h : BStore κ ν) :
    ∃ h' m', runGo (BMap.step cmp) ops (h, BMap.new) = .ok ((runMap (ordStep cmp) ops []).1, (h', m')) ∧
      ∀ r, r < h.length → h'[r]? = h[r]? := by
  obtain ⟨h', m', fp, e1, _, f⟩ := BMap.run_refines hc ops (Good.new (cmp := cmp) h) ha
  exact ⟨h', m', e1, fun r hr => f.others r hr (by simp)⟩

/-- C72, in part: exactly the insertions that fit work, where working means to return the old value, to make
Get give the new one and the old ones for other keys, and to count the keys.  With fewer than eleven keys all
fit; with eleven or more, of the new keys only those below the eleventh, and none when there are 21.
Missing: the insertions that do not fit (`C72_insert_fails`). -/
theorem C72_insert_partial (hc : LawfulCmp cmp) {h : BStore κ ν} {m : BMap} {l : List (κ × ν)}
    (hr : BMap.Reached cmp h m l) (key : κ) (value : ν) :
    (∃ h' m', BMap.insert cmp h m key value = .ok (h', m', ⟨OMap.lookup cmp l key⟩) ∧
      m'.length = (OMap.insert cmp l key value).length ∧
      ∀ k, BMap.get cmp h' m' k = .ok ⟨if cmp k key = .eq then some value else OMap.lookup cmp l k⟩) ↔
    Fits cmp l key := by
  obtain ⟨fp, hg⟩ := hr.good hc
  constructor
  · rintro ⟨h', m', e1, _, e2⟩
    by_cases hf : Fits cmp l key
    · exact hf
    exfalso
    have hm : OMap.mem cmp l key = false := by
      cases h : OMap.mem cmp l key with
      | false => rfl
      | true => exact absurd (.inl h) hf
    have h11 : ¬ l.length < 11 := fun h => hf (.inr (.inl h))
    have h21 := hg.length_le
    have e3 := e2 key
    rw [if_pos (hc.refl key)] at e3
    by_cases hfull : l.length = 21
    · obtain ⟨e, he⟩ := hg.insert_full hfull hm value
      rw [he] at e1; cases e1
    · have hq : l[10]? = some l[10] := List.getElem?_eq_getElem (by omega)
      have hlt : cmp l[10].1 key = .lt := by
        cases hk : cmp key l[10].1 with
        | lt => exact absurd (.inr (.inr ⟨by omega, _, hq, hk⟩)) hf
        | eq => exact absurd hk (OMap.mem_false.1 hm _ (List.getElem_mem _))
        | gt => exact (hc.gt_iff _ _).1 hk
      obtain ⟨h2, m2, e4, _, e5, _⟩ := hg.insert_lost hc hm hq hlt (by omega) value
      rw [e4, OMap.lookup_eq_none.2 hm] at e1
      cases e1
      rw [e5] at e3
      cases e3
  · intro hf
    obtain ⟨h', m', fp', e1, g, _⟩ := hg.insert hc hf value
    refine ⟨h', m', e1, g.len, fun k => ?_⟩
    rw [g.get hc, OMap.lookup_insert hc]

/-- C72 fails: with eleven to twenty keys, a new key above the eleventh is counted but cannot be found. -/
theorem C72_insert_fails (hc : LawfulCmp cmp) {h : BStore κ ν} {m : BMap} {l : List (κ × ν)}
    (hr : BMap.Reached cmp h m l) (h21 : l.length < 21) {q : κ × ν} (hq : l[10]? = some q) {key : κ}
    (hlt : cmp q.1 key = .lt) (hm : OMap.mem cmp l key = false) (value : ν) :
    ∃ h' m', BMap.insert cmp h m key value = .ok (h', m', ⟨none⟩) ∧ m'.length = l.length + 1 ∧
      BMap.get cmp h' m' key = .ok ⟨none⟩ ∧ BMap.containsKey cmp h' m' key = .ok false := by
  obtain ⟨fp, hg⟩ := hr.good hc
  exact hg.insert_lost hc hm hq hlt h21 value

theorem natLawful : LawfulCmp (compare : Nat → Nat → Ordering) := natCmp_lawful.lawfulCmp

/-- The library's operations for keys and values of type Nat. -/
abbrev natStep := BMap.step (ν := Nat) (compare : Nat → Nat → Ordering)

-- an admissible history with removals, and what it gives
example : Admissible (compare : Nat → Nat → Ordering)
    [.insert 5 50, .insert 3 30, .insert 5 51, .remove 4, .get 5, .insert 4 30, .remove 3, .containsKey 3, .len,
      .clear, .isEmpty] ([] : List (Nat × Nat)) := by decide
example : ((runGo natStep [.insert 5 50, .insert 3 30, .insert 5 51, .remove 4, .get 5, .insert 4 30, .remove 3,
    .containsKey 3, .len, .clear, .isEmpty] ([], BMap.new)).map (·.1)) =
  .ok [.opt none, .opt none, .opt (some 50), .opt none, .opt (some 51), .opt none, .opt (some 30), .bool false,
    .nat 2, .unit, .bool true] := rfl

/-- n, n-1, ..., 1, each with ten times itself. -/
def down : Nat → List (HOp Nat Nat)
  | 0 => []
  | n + 1 => .insert (n + 1) (10 * (n + 1)) :: down n

-- a history that fills a map: 21 keys in descending order
example : Admissible (compare : Nat → Nat → Ordering) (down 21) [] := by decide
-- a reached map of eleven keys and a key (12) that does not fit
example : ∃ h m, BMap.Reached (compare : Nat → Nat → Ordering) h m ((List.range' 1 11).map fun i => (i, 10 * i)) ∧
    ¬ Fits (compare : Nat → Nat → Ordering) ((List.range' 1 11).map fun i => (i, 10 * i)) 12 := by
  obtain ⟨h, m, e, _⟩ := C72_btree_history_partial natLawful (down 11) (by decide) []
  exact ⟨h, m, ⟨[], down 11, _, by decide, e, by decide⟩, by decide⟩
example : (((down 11 ++ [.insert 12 120, .get 12, .containsKey 12, .len]) |> (runGo natStep · ([], BMap.new))).map
    fun r => r.1.drop 11) = .ok [.opt none, .opt none, .bool false, .nat 12] := rfl

/-! ### C73 -/

/-- The history that inserts the entries one after the other. -/
def inserts (es : List (κ × ν)) : List (HOp κ ν) := es.map fun e => .insert e.1 e.2

/-- No two keys are equal. -/
def DistinctKeys (cmp : κ → κ → Ordering) (es : List (κ × ν)) : Prop :=
  es.Pairwise fun a b => cmp a.1 b.1 ≠ .eq

theorem runGo_cons_ok {S O R : Type} {step : O → S → Go (S × R)} {o : O} {os : List O} {s s' : S} {rs : List R}
    (h : runGo step (o :: os) s = .ok (rs, s')) :
    ∃ s1 r rs', step o s = .ok (s1, r) ∧ runGo step os s1 = .ok (rs', s') := by
  simp only [runGo] at h
  obtain ⟨⟨s1, r⟩, h1, h⟩ := bind_ok_inv h
  obtain ⟨⟨rs', s2⟩, h2, h⟩ := bind_ok_inv h
  cases h
  exact ⟨s1, r, rs', h1, h2⟩

theorem step_insert_ok {h : BStore κ ν} {m : BMap} {k : κ} {v : ν} {s : BStore κ ν × BMap} {r : Obs ν}
    (hs : BMap.step cmp (.insert k v) (h, m) = .ok (s, r)) :
    ∃ o, BMap.insert cmp h m k v = .ok (s.1, s.2, o) := by
  simp only [BMap.step] at hs
  obtain ⟨⟨h', m', o⟩, h1, hs⟩ := bind_ok_inv hs
  cases hs
  exact ⟨o, h1⟩

theorem wide_inserts (hc : LawfulCmp cmp) (es : List (κ × ν)) {h : BStore κ ν} {a n len : Nat} {P : κ → Prop}
    (hw : Wide h a n P) (hf : ∀ e ∈ es, ∀ k, P k → cmp e.1 k ≠ .eq) (hd : DistinctKeys cmp es)
    (hn : 11 ≤ n + es.length) : ∃ e, runGo (BMap.step cmp) (inserts es) (h, ⟨some a, len⟩) = .error e := by
  induction es generalizing h n len P with
  | nil =>
    obtain ⟨_, _, _, _, _, _, h10, _⟩ := hw
    simp at hn; omega
  | cons e es ih =>
    cases hrun : runGo (BMap.step cmp) (inserts (e :: es)) (h, ⟨some a, len⟩) with
    | error p => exact ⟨p, rfl⟩
    | ok r =>
      exfalso
      obtain ⟨rs, s'⟩ := r
      obtain ⟨s1, r, rs', h1, h2⟩ := runGo_cons_ok hrun
      obtain ⟨o, h1⟩ := step_insert_ok h1
      obtain ⟨h9, len', hm, hw'⟩ := hw.insert_inv (hf e (by simp)) h1
      obtain ⟨hd1, hd2⟩ := List.pairwise_cons.1 hd
      obtain ⟨s1, s2⟩ := s1
      simp only at hm hw' h2
      subst hm
      obtain ⟨p, hp⟩ := ih (len := len') hw' (by
        intro x hx k hk
        rcases hk with hk | rfl
        · exact hf x (by simp [hx]) k hk
        · intro he; exact hd1 x hx ((hc.eq_comm _ _).1 he)) hd2 (by simp at hn; omega)
      rw [inserts] at hp
      rw [hp] at h2
      cases h2

theorem good_inserts (hc : LawfulCmp cmp) (es : List (κ × ν)) {h : BStore κ ν} {m : BMap} {l : List (κ × ν)}
    {fp : List Nat} (hg : Good cmp h m l fp) (hl : l.length ≤ 11)
    (hf : ∀ e ∈ es, OMap.mem cmp l e.1 = false) (hd : DistinctKeys cmp es)
    (hn : 22 ≤ l.length + es.length) : ∃ e, runGo (BMap.step cmp) (inserts es) (h, m) = .error e := by
  induction es generalizing h m l fp with
  | nil => simp at hn; omega
  | cons e es ih =>
    cases hrun : runGo (BMap.step cmp) (inserts (e :: es)) (h, m) with
    | error p => exact ⟨p, rfl⟩
    | ok r =>
      exfalso
      obtain ⟨rs, s'⟩ := r
      obtain ⟨⟨h', m'⟩, r, rs', h1, h2⟩ := runGo_cons_ok hrun
      obtain ⟨o, h1⟩ := step_insert_ok h1
      simp only at h1
      obtain ⟨hd1, hd2⟩ := List.pairwise_cons.1 hd
      have hfe := hf e (by simp)
      by_cases h11 : l.length = 11
      · obtain ⟨a, len, rfl, hw⟩ := hg.insert_twelfth hc h11 hfe h1
        obtain ⟨p, hp⟩ := wide_inserts hc es (len := len) hw (by
          intro x hx k hk
          rcases hk with ⟨y, hy, rfl⟩ | rfl
          · exact OMap.mem_false.1 (hf x (by simp [hx])) y hy
          · intro he; exact hd1 x hx ((hc.eq_comm _ _).1 he)) hd2 (by simp at hn; omega)
        rw [inserts] at hp
        rw [hp] at h2
        cases h2
      · obtain ⟨h3, m3, fp3, e1, g, _⟩ := hg.insert hc (key := e.1) (.inr (.inl (by omega))) e.2
        rw [e1] at h1
        cases h1
        have hlen := OMap.length_insert hc l e.1 e.2
        rw [hfe] at hlen
        simp only [Bool.false_eq_true, if_false] at hlen
        obtain ⟨p, hp⟩ := ih g (by omega) (by
          intro x hx
          have hx' := OMap.lookup_eq_none.2 (hf x (by simp [hx]))
          rw [← OMap.lookup_eq_none, OMap.lookup_insert hc, hx']
          have : cmp x.1 e.1 ≠ .eq := fun he => hd1 x hx ((hc.eq_comm _ _).1 he)
          simp [this]) hd2 (by simp at hn; omega)
        rw [inserts] at hp
        rw [hp] at h2
        cases h2

/-- C73 fails: inserting 22 or more different keys into a new BTreeMap panics, in whatever order. -/
theorem C73_btree_capacity_fails (hc : LawfulCmp cmp) (es : List (κ × ν)) (hd : DistinctKeys cmp es)
    (hn : 22 ≤ es.length) (h : BStore κ ν) :
    ∃ e, runGo (BMap.step cmp) (inserts es) (h, BMap.new) = .error e :=
  good_inserts hc es (Good.new (cmp := cmp) h) (by simp) (fun _ _ => rfl) hd (by simpa using hn)

theorem runMap_inserts (e : κ × ν) (es l : List (κ × ν)) :
    (runMap (ordStep cmp) (inserts (e :: es)) l).2 =
      (runMap (ordStep cmp) (inserts es) (OMap.insert cmp l e.1 e.2)).2 := rfl

theorem lookup_inserts (hc : LawfulCmp cmp) (es : List (κ × ν)) (hd : DistinctKeys cmp es) (l : List (κ × ν))
    (k : κ) : OMap.lookup cmp (runMap (ordStep cmp) (inserts es) l).2 k =
      (OMap.lookup cmp es k).or (OMap.lookup cmp l k) := by
  induction es generalizing l with
  | nil => rfl
  | cons e es ih =>
    obtain ⟨hd1, hd2⟩ := List.pairwise_cons.1 hd
    rw [runMap_inserts, ih hd2, OMap.lookup_insert hc, OMap.lookup_cons]
    by_cases hk : cmp k e.1 = .eq
    · rw [if_pos hk, if_pos hk]
      have : OMap.lookup cmp es k = none := by
        rw [OMap.lookup_eq_none, OMap.mem_false]
        intro x hx
        rw [hc.eq_left hk]; exact hd1 x hx
      rw [this]; rfl
    · rw [if_neg hk, if_neg hk]

theorem length_inserts (hc : LawfulCmp cmp) (es : List (κ × ν)) (hd : DistinctKeys cmp es) (l : List (κ × ν))
    (hf : ∀ e ∈ es, OMap.mem cmp l e.1 = false) :
    (runMap (ordStep cmp) (inserts es) l).2.length = l.length + es.length := by
  induction es generalizing l with
  | nil => rfl
  | cons e es ih =>
    obtain ⟨hd1, hd2⟩ := List.pairwise_cons.1 hd
    rw [runMap_inserts, ih hd2, OMap.length_insert hc, hf e (by simp)]
    · simp; omega
    · intro x hx
      rw [← OMap.lookup_eq_none, OMap.lookup_insert hc, OMap.lookup_eq_none.2 (hf x (by simp [hx]))]
      have : cmp x.1 e.1 ≠ .eq := fun he => hd1 x hx ((hc.eq_comm _ _).1 he)
      simp [this]

theorem admissible_few (hc : LawfulCmp cmp) (es l : List (κ × ν)) (hn : l.length + es.length ≤ 11) :
    Admissible cmp (inserts es) l := by
  induction es generalizing l with
  | nil => trivial
  | cons e es ih =>
    simp at hn
    refine ⟨.inr (.inl (by omega)), ih _ ?_⟩
    have : (OMap.insert cmp l e.1 e.2).length ≤ l.length + 1 := by
      rw [OMap.length_insert hc]; split <;> omega
    simp only [ordStep]
    omega

theorem mem_insert {l : List (κ × ν)} {k : κ} {v : ν} (hm : OMap.mem cmp l k = false) {x : κ × ν}
    (hx : x ∈ OMap.insert cmp l k v) : x = (k, v) ∨ x ∈ l := by
  unfold OMap.insert at hx
  rw [hm] at hx
  simp only [Bool.false_eq_true, if_false, List.mem_append, List.mem_cons, OMap.below, OMap.above,
    List.mem_filter] at hx
  rcases hx with h | h | h
  · exact .inr h.1
  · exact .inl h
  · exact .inr h.1

theorem admissible_descending (hc : LawfulCmp cmp) (es l : List (κ × ν)) (hn : l.length + es.length ≤ 21)
    (hl : ∀ e ∈ es, ∀ x ∈ l, cmp e.1 x.1 = .lt) (hd : es.Pairwise fun a b => cmp b.1 a.1 = .lt) :
    Admissible cmp (inserts es) l := by
  induction es generalizing l with
  | nil => trivial
  | cons e es ih =>
    simp at hn
    obtain ⟨hd1, hd2⟩ := List.pairwise_cons.1 hd
    have hm : OMap.mem cmp l e.1 = false := by
      rw [OMap.mem_false]; intro x hx; rw [hl e (by simp) x hx]; decide
    constructor
    · by_cases h : l.length < 11
      · exact .inr (.inl h)
      · exact .inr (.inr ⟨by omega, l[10], List.getElem?_eq_getElem _, hl e (by simp) _ (List.getElem_mem _)⟩)
    · refine ih _ ?_ ?_ hd2
      · simp only [ordStep]
        rw [OMap.length_insert hc, hm]; simp; omega
      · intro y hy x hx
        rcases mem_insert hm hx with rfl | hx
        · exact hd1 y hy
        · exact hl y (by simp [hy]) x hx

/-- C73, in part: any at most eleven different keys, and any at most 21 keys in descending order, can be
inserted into a new BTreeMap; all of them are found afterwards and counted.  Missing: more keys
(`C73_btree_capacity_fails`: 22 never can be inserted) and other orders of 12 to 21 keys
(`C72_insert_partial` says which insertions work). -/
theorem C73_btree_capacity_partial (hc : LawfulCmp cmp) (es : List (κ × ν))
    (hd : (DistinctKeys cmp es ∧ es.length ≤ 11) ∨
      ((es.Pairwise fun a b => cmp b.1 a.1 = .lt) ∧ es.length ≤ 21)) (h : BStore κ ν) :
    ∃ rs h' m', runGo (BMap.step cmp) (inserts es) (h, BMap.new) = .ok (rs, (h', m')) ∧
      rs = es.map (fun _ => .opt none) ∧ m'.length = es.length ∧
      (∀ e ∈ es, BMap.get cmp h' m' e.1 = .ok ⟨some e.2⟩) := by
  have hdist : DistinctKeys cmp es := by
    rcases hd with ⟨hd, _⟩ | ⟨hd, _⟩
    · exact hd
    · refine hd.imp ?_
      intro a b hab he
      rw [(hc.eq_comm _ _).1 he] at hab; cases hab
  have ha : Admissible cmp (inserts es) [] := by
    rcases hd with ⟨_, hn⟩ | ⟨hd, hn⟩
    · exact admissible_few hc es [] (by simpa using hn)
    · exact admissible_descending hc es [] (by simpa using hn) (by simp) hd
  obtain ⟨h', m', fp, e1, g, _⟩ := BMap.run_refines hc (inserts es) (Good.new (cmp := cmp) h) ha
  refine ⟨_, h', m', e1, ?_, ?_, ?_⟩
  · have key : ∀ (es l : List (κ × ν)), DistinctKeys cmp es → (∀ e ∈ es, OMap.mem cmp l e.1 = false) →
        (runMap (ordStep cmp) (inserts es) l).1 = es.map (fun _ => .opt none) := by
      intro es
      induction es with
      | nil => intros; rfl
      | cons e es ih =>
        intro l hd hf
        obtain ⟨hd1, hd2⟩ := List.pairwise_cons.1 hd
        have : (runMap (ordStep cmp) (inserts (e :: es)) l).1 = .opt (OMap.lookup cmp l e.1) ::
          (runMap (ordStep cmp) (inserts es) (OMap.insert cmp l e.1 e.2)).1 := rfl
        rw [this, ih _ hd2, OMap.lookup_eq_none.2 (hf e (by simp))]
        · rfl
        · intro x hx
          rw [← OMap.lookup_eq_none, OMap.lookup_insert hc, OMap.lookup_eq_none.2 (hf x (by simp [hx]))]
          have : cmp x.1 e.1 ≠ .eq := fun he => hd1 x hx ((hc.eq_comm _ _).1 he)
          simp [this]
    exact key es [] hdist (fun _ _ => rfl)
  · rw [BMap.length, g.len, length_inserts hc es hdist [] (fun _ _ => rfl)]; simp
  · intro e he
    rw [g.get hc, lookup_inserts hc es hdist]
    obtain ⟨A, B, rfl⟩ := List.append_of_mem he
    have hA : OMap.lookup cmp A e.1 = none := by
      rw [OMap.lookup_eq_none, OMap.mem_false]
      intro x hx h'
      exact (List.pairwise_append.1 hdist).2.2 x hx e (by simp) ((hc.eq_comm _ _).1 h')
    rw [OMap.lookup_append, hA, OMap.lookup_cons, if_pos (hc.refl _)]
    rfl

example : DistinctKeys (compare : Nat → Nat → Ordering) ((List.range 22).map fun i => (i, i)) := by
  unfold DistinctKeys; decide
example : (runGo natStep (inserts ((List.range 22).map fun i => (i, i))) ([], BMap.new)) = .error (.indexOutOfRange) := rfl
example : DistinctKeys (compare : Nat → Nat → Ordering) [(3, 0), (1, 1), (2, 2)] := by unfold DistinctKeys; decide
example : ((List.range 21).map fun i => (21 - i, i)).Pairwise fun a b => compare b.1 a.1 = .lt := by decide

/-! ### C74 -/

theorem get_of_slots {h : BStore κ ν} {m : BMap} {a : Nat} {node : BNode κ ν} (hroot : m.root = some a)
    (hn : h[a]? = some node) {A B : List (κ × ν)} {b : κ × ν} {key : κ} {t : List (Option κ)} {u : List (Option ν)}
    (hk : node.keys = kS (A ++ b :: B) ++ t) (hv : node.values = vS (A ++ b :: B) ++ u)
    (hA : ∀ e ∈ A, cmp key e.1 = .gt) (hb : cmp key b.1 = .eq) :
    BMap.get cmp h m key = .ok ⟨some b.2⟩ ∧ BMap.containsKey cmp h m key = .ok true := by
  obtain ⟨root, len⟩ := m
  simp only at hroot
  subst hroot
  have hi : index node.values A.length = .ok (some b.2) := by
    rw [hv]; unfold index; simp
  constructor
  · simp only [BMap.get, search_found hn hk hA hb, Go.bind_ok, load_of hn, hi, deref_some]; rfl
  · simp only [BMap.containsKey, search_found hn hk hA hb, Go.bind_ok]; rfl

/-- C74 fails: with two to eleven keys, Remove of the largest returns its value and lowers the count, but the
key and its value stay. -/
theorem C74_remove_largest_fails (hc : LawfulCmp cmp) {h : BStore κ ν} {m : BMap} {l : List (κ × ν)}
    {b : κ × ν} (hr : BMap.Reached cmp h m (l ++ [b])) (hne : l ≠ []) (hlen : l.length ≤ 10) {key : κ}
    (hb : cmp key b.1 = .eq) :
    ∃ h' m', BMap.remove cmp h m key = .ok (h', m', ⟨some b.2⟩) ∧ m'.length = l.length ∧
      BMap.containsKey cmp h' m' key = .ok true ∧ BMap.get cmp h' m' key = .ok ⟨some b.2⟩ := by
  obtain ⟨fp, hg⟩ := hr.good hc
  obtain ⟨h', m', a, cs, e1, e2, e3, e4⟩ := hg.remove_last hc hne (by simpa using hlen) hb
  have hA : ∀ e ∈ l, cmp key e.1 = .gt := by
    intro e he
    have := (List.pairwise_append.1 hg.asc).2.2 e he b (by simp)
    rw [hc.eq_left hb, hc.gt_iff]; exact this
  obtain ⟨g1, g2⟩ := get_of_slots (cmp := cmp) e3 e4 (A := l) (b := b) (B := []) rfl rfl hA hb
  exact ⟨h', m', e1, e2, g2, g1⟩

/-- C74 fails: with at most eleven keys, Remove of a key that is not the largest returns the value of the
next larger key (and does remove the right one). -/
theorem C74_remove_inner_fails (hc : LawfulCmp cmp) {h : BStore κ ν} {m : BMap} {A B : List (κ × ν)}
    {b c : κ × ν} (hr : BMap.Reached cmp h m (A ++ b :: c :: B)) (hlen : (A ++ b :: c :: B).length ≤ 11)
    {key : κ} (hb : cmp key b.1 = .eq) :
    ∃ h' m', BMap.remove cmp h m key = .ok (h', m', ⟨some c.2⟩) ∧
      m'.length = (A ++ c :: B).length ∧
      ∀ k, BMap.get cmp h' m' k = .ok ⟨OMap.lookup cmp (A ++ c :: B) k⟩ := by
  obtain ⟨fp, hg⟩ := hr.good hc
  have hA : ∀ e ∈ A, cmp key e.1 = .gt := by
    intro e he
    have := (List.pairwise_append.1 hg.asc).2.2 e he b (by simp)
    rw [hc.eq_left hb, hc.gt_iff]; exact this
  obtain ⟨h', m', e1, g, _⟩ := hg.remove_inner hc hlen hA hb
  exact ⟨h', m', e1, g.len, fun k => g.get hc k⟩

/-- C74 fails: with thirteen or more keys, Remove of any key, there or not, that is not below the thirteenth
panics. -/
theorem C74_remove_panics_fails (hc : LawfulCmp cmp) {h : BStore κ ν} {m : BMap} {l : List (κ × ν)}
    (hr : BMap.Reached cmp h m l) {e : κ × ν} (he : l[12]? = some e) {key : κ} (hk : cmp key e.1 ≠ .lt) :
    ∃ p, BMap.remove cmp h m key = .error p := by
  obtain ⟨fp, hg⟩ := hr.good hc
  exact hg.remove_panics hc he hk

/-- C74, in part: with at most eleven keys, exactly the calls `RemoveOk` work, that is, return the old value,
take away the key and only that, and count right: those of absent keys, of the only key, and of a key whose
successor has the same value.  Missing: all other calls (`C74_*_fails`); for more than eleven keys see
`C74_remove_big_partial`. -/
theorem C74_remove_partial (hc : LawfulCmp cmp) {h : BStore κ ν} {m : BMap} {l : List (κ × ν)}
    (hr : BMap.Reached cmp h m l) (hlen : l.length ≤ 11) (key : κ) :
    (∃ h' m', BMap.remove cmp h m key = .ok (h', m', ⟨OMap.lookup cmp l key⟩) ∧
      m'.length = (if OMap.mem cmp l key then l.length - 1 else l.length) ∧
      ∀ k, BMap.get cmp h' m' k = .ok ⟨if cmp k key = .eq then none else OMap.lookup cmp l k⟩) ↔
    RemoveOk cmp l key := by
  obtain ⟨fp, hg⟩ := hr.good hc
  constructor
  · rintro ⟨h', m', e1, _, e2⟩
    rcases locate hc hg.asc key with ⟨A, b, B, rfl, hA, hb, hB⟩ | ⟨A, B, rfl, hA, hB⟩
    · have hm := mem_found (A := A) (B := B) hb
      cases B with
      | nil =>
        by_cases hA0 : A = []
        · subst hA0; exact .inr (.inl ⟨hm, rfl⟩)
        · exfalso
          obtain ⟨h2, m2, f1, _, _, f2⟩ := C74_remove_largest_fails hc hr hA0 (by simp at hlen; omega) hb
          rw [f1, lookup_found hc hg.asc hb] at e1
          cases e1
          have := e2 key
          rw [f2, if_pos (hc.refl key)] at this
          cases this
      | cons c B =>
        obtain ⟨h2, m2, f1, _⟩ := C74_remove_inner_fails hc hr hlen hb
        rw [f1, lookup_found hc hg.asc hb] at e1
        refine .inr (.inr ⟨hlen, hm, ?_⟩)
        rw [above_found hc hA hb hB, lookup_found hc hg.asc hb]
        simp only [Except.ok.injEq, Prod.mk.injEq, Opt.mk.injEq, Option.some.injEq] at e1
        simp [e1.2.2]
    · refine .inl ⟨mem_fresh hA hB, ?_⟩
      rw [List.getElem?_eq_none (by omega)]; rfl
  · intro ho
    obtain ⟨h', m', fp', e1, g, _⟩ := hg.remove hc ho
    refine ⟨h', m', e1, ?_, fun k => ?_⟩
    · rw [BMap.length, g.len, OMap.length_remove hc hg.asc]
    · rw [g.get hc, OMap.lookup_remove hc]

/-- C74, in part: Remove of an absent key below the twelfth changes nothing, whatever the size. -/
theorem C74_remove_absent_partial (hc : LawfulCmp cmp) {h : BStore κ ν} {m : BMap} {l : List (κ × ν)}
    (hr : BMap.Reached cmp h m l) {key : κ} (hm : OMap.mem cmp l key = false)
    (hlt : ∀ e, l[11]? = some e → cmp key e.1 = .lt) : BMap.remove cmp h m key = .ok (h, m, ⟨none⟩) := by
  obtain ⟨fp, hg⟩ := hr.good hc
  exact hg.remove_absent hc hm hlt

/-- Maps reached by an admissible history from nothing. -/
theorem reached_of {ops : List (HOp Nat Nat)} {l : List (Nat × Nat)}
    (ha : Admissible (compare : Nat → Nat → Ordering) ops [])
    (hl : l = (runMap (ordStep compare) ops []).2) : ∃ h m, BMap.Reached compare h m l := by
  obtain ⟨h, m, e, _⟩ := C72_btree_history_partial natLawful ops ha []
  exact ⟨h, m, [], ops, _, ha, e, hl⟩

-- two keys, the largest, an inner one with another value than its successor, and a working call
example : (∃ h m, BMap.Reached (compare : Nat → Nat → Ordering) h m ([(1, 10)] ++ [(2, 20)])) ∧
    ¬ RemoveOk (compare : Nat → Nat → Ordering) [(1, 10), (2, 20)] 2 ∧
    ¬ RemoveOk (compare : Nat → Nat → Ordering) [(1, 10), (2, 20)] 1 ∧
    RemoveOk (compare : Nat → Nat → Ordering) [(1, 10), (2, 20)] 3 ∧
    RemoveOk (compare : Nat → Nat → Ordering) [(1, 10), (2, 10)] 1 :=
  ⟨reached_of (ops := down 2) (by decide) (by decide), by decide, by decide, by decide, by decide⟩
example : ((runGo natStep [.insert 1 10, .insert 2 20, .remove 2, .containsKey 2] ([], BMap.new)).map (·.1)) =
  .ok [.opt none, .opt none, .opt (some 20), .bool true] := rfl
example : ((runGo natStep [.insert 1 10, .insert 2 20, .remove 1, .containsKey 1] ([], BMap.new)).map (·.1)) =
  .ok [.opt none, .opt none, .opt (some 20), .bool false] := rfl
-- thirteen keys, and the absent key 14
example : ∃ h m, BMap.Reached (compare : Nat → Nat → Ordering) h m ((List.range' 1 13).map fun i => (i, 10 * i)) :=
  reached_of (ops := down 13) (by decide) (by decide)
example : runGo natStep (down 13 ++ [.remove 14]) ([], BMap.new) = .error .indexOutOfRange := by decide +kernel
example : OMap.mem (compare : Nat → Nat → Ordering) ((List.range' 1 13).map fun i => (2 * i, i)) 5 = false := by decide

/-! ### C75 -/

theorem nexts_map {α β : Type} {v : Vec β} {l : List α} {f : α → β} (hd : v.data = l.map f) (n : Nat) :
    VecIter.nexts n ⟨v, 0⟩ = .ok ((List.range n).map fun i => (l[i]?).map f) := by
  have h := C53_vec_iter_next v n
  rw [hd] at h
  simp only [List.getElem?_map] at h
  exact h

/-- C75, in part: after every admissible history IntoIter, Keys and Values give every entry exactly once and
in ascending order of the keys, and then None for ever.  Missing: other histories, see `C75_iter_lost_fails`
and `C75_iter_removed_fails`. -/
theorem C75_btree_iter_partial (hc : LawfulCmp cmp) (g : Growth) {h : BStore κ ν} {m : BMap} {l : List (κ × ν)}
    (hr : BMap.Reached cmp h m l) :
    Ascending cmp l ∧ m.length = l.length ∧ (∀ k, BMap.get cmp h m k = .ok ⟨OMap.lookup cmp l k⟩) ∧
    (∃ it, BMap.intoIter g h m = .ok it ∧
      ∀ n, it.nexts n = .ok ((List.range n).map fun i => (l[i]?).map fun e => ⟨e.1, e.2⟩)) ∧
    (∃ it, BMap.keys g h m = .ok it ∧ ∀ n, it.nexts n = .ok ((List.range n).map fun i => (l[i]?).map (·.1))) ∧
    (∃ it, BMap.values g h m = .ok it ∧ ∀ n, it.nexts n = .ok ((List.range n).map fun i => (l[i]?).map (·.2))) := by
  obtain ⟨fp, hg⟩ := hr.good hc
  refine ⟨hg.asc, hg.len, hg.get hc, ?_⟩
  obtain ⟨root, len⟩ := m
  have ht := hg.tree
  simp only at ht
  have next : ∀ {β : Type} (v : Vec β) (n : Nat), VecIter.nexts n ⟨v, 0⟩ = .ok ((List.range n).map fun i => v.data[i]?) :=
    fun v n => C53_vec_iter_next v n
  cases root with
  | none =>
    cases ht
    exact ⟨⟨_, rfl, fun n => next _ n⟩, ⟨_, rfl, fun n => next _ n⟩, ⟨_, rfl, fun n => next _ n⟩⟩
  | some a =>
    obtain ⟨⟨w1, e1, d1⟩, ⟨w2, e2, d2⟩, ⟨w3, e3, d3⟩⟩ := ht.toVecs g
    refine ⟨⟨⟨w1, 0⟩, by simp [BMap.intoIter, e1], fun n => ?_⟩, ⟨⟨w2, 0⟩, by simp [BMap.keys, e2], fun n => ?_⟩,
      ⟨⟨w3, 0⟩, by simp [BMap.values, e3], fun n => ?_⟩⟩
    · exact nexts_map d1 n
    · exact nexts_map d2 n
    · exact nexts_map d3 n

/-- C75 fails: when a map with eleven keys takes a key above them all, IntoIter gives the entry of the
eleventh twice, and Keys leaves out the new key. -/
theorem C75_iter_lost_fails (hc : LawfulCmp cmp) (g : Growth) {h : BStore κ ν} {m : BMap} {Y : List (κ × ν)}
    {q : κ × ν} (hr : BMap.Reached cmp h m (Y ++ [q])) (h11 : Y.length = 10) {key : κ}
    (hq : cmp q.1 key = .lt) (value : ν) :
    ∃ h' m', BMap.insert cmp h m key value = .ok (h', m', ⟨none⟩) ∧
      (∃ it, BMap.intoIter g h' m' = .ok it ∧
        ∀ n, it.nexts n = .ok ((List.range n).map fun i =>
          ((Y ++ [q, q, (key, value)])[i]?).map fun e => ⟨e.1, e.2⟩)) ∧
      (∃ it, BMap.keys g h' m' = .ok it ∧
        ∀ n, it.nexts n = .ok ((List.range n).map fun i => ((Y ++ [q])[i]?).map (·.1))) := by
  obtain ⟨fp, hg⟩ := hr.good hc
  obtain ⟨h', a, y, z, cs, e1, ha, hz, na, ny, nz, _⟩ := hg.insert_max hc (by simpa using h11) hq value
  obtain ⟨d, hd⟩ : ∃ d, h'.length = d + 1 := ⟨h'.length - 1, by omega⟩
  have hkl : (kS (Y ++ [q])).length = 11 := by simp [kS, h11]
  refine ⟨h', _, e1, ?_, ?_⟩
  · -- below the first child: all eleven slots
    obtain ⟨wy, ey, dy⟩ := walk_leaf g (childs := cs) (sub := BTree.toVec g h' d)
      (emit := emitPair (kS (Y ++ [q])) (vS (Y ++ [q]))) (out := (Y ++ [q]).map toPair) 11
      (fun j hj => by
        have := emitPair_slots (Y ++ [q]) 0 j (by simp; omega)
        rw [List.replicate_zero, List.replicate_zero, List.append_nil, List.append_nil] at this
        exact this)
    have ty : BTree.toVec g h' (d + 1) y = .ok wy := by
      simp only [BTree.toVec, load_of ny, Go.bind_ok, toVecLoop_walk, hkl]; exact ey
    -- below the second: the last slot
    obtain ⟨wz, ez, dz⟩ := walk_eq g (leaf := true) (childs := List.replicate 12 none) (sub := BTree.toVec g h' d)
      (emit := emitPair (List.replicate 10 none ++ [some key]) (List.replicate 10 none ++ [some value]))
      (out := fun j => if j = 10 then some ⟨key, value⟩ else none) (ds := fun _ => []) 11 0 Vec.new
      (by
        intro j _ hj
        have : j = 0 ∨ j = 1 ∨ j = 2 ∨ j = 3 ∨ j = 4 ∨ j = 5 ∨ j = 6 ∨ j = 7 ∨ j = 8 ∨ j = 9 ∨ j = 10 := by omega
        rcases this with rfl | rfl | rfl | rfl | rfl | rfl | rfl | rfl | rfl | rfl | rfl <;> rfl) (by simp)
    have tz : BTree.toVec g h' (d + 1) z = .ok wz := by
      simp only [BTree.toVec, load_of nz, Go.bind_ok, toVecLoop_walk, lostNode]; exact ez
    have dz' : wz.data = [⟨key, value⟩] := by rw [dz]; rfl
    obtain ⟨w, ew, dw⟩ := walk_eq g (leaf := false) (childs := some y :: some z :: List.replicate 10 none)
      (sub := BTree.toVec g h' (d + 1))
      (emit := emitPair (some q.1 :: List.replicate 10 none) (some q.2 :: List.replicate 10 none))
      (out := fun j => if j = 0 then some ⟨q.1, q.2⟩ else none)
      (ds := fun j => if j = 0 then wy.data else if j = 1 then [⟨key, value⟩] else []) 11 0 Vec.new
      (by
        intro j _ hj
        have : j = 0 ∨ j = 1 ∨ j = 2 ∨ j = 3 ∨ j = 4 ∨ j = 5 ∨ j = 6 ∨ j = 7 ∨ j = 8 ∨ j = 9 ∨ j = 10 := by omega
        rcases this with rfl | rfl | rfl | rfl | rfl | rfl | rfl | rfl | rfl | rfl | rfl <;> rfl)
      (by
        intro j _ hj
        simp only [Bool.false_eq_true, if_false]
        have : j = 0 ∨ j = 1 ∨ j = 2 ∨ j = 3 ∨ j = 4 ∨ j = 5 ∨ j = 6 ∨ j = 7 ∨ j = 8 ∨ j = 9 ∨ j = 10 := by omega
        rcases this with rfl | rfl | rfl | rfl | rfl | rfl | rfl | rfl | rfl | rfl | rfl
        · exact .inr ⟨y, wy, rfl, ty, rfl⟩
        · exact .inr ⟨z, wz, rfl, tz, dz'⟩
        all_goals exact .inl ⟨rfl, rfl⟩)
    refine ⟨⟨w, 0⟩, ?_, fun n => ?_⟩
    · simp only [BMap.intoIter, hd]
      rw [BTree.toVec]
      simp only [load_of na, Go.bind_ok, toVecLoop_walk]
      have := ew
      simp only [List.length_cons, List.length_replicate] at this ⊢
      rw [this]; rfl
    · have hdw : w.data = (Y ++ [q, q, (key, value)]).map toPair := by
        rw [dw, dy, List.take_of_length_le (by simp [h11])]
        simp [Vec.new, List.range'_succ, toPair]
      exact nexts_map hdw n
  · -- the counts of the nodes are ten and one
    obtain ⟨wy, ey, dy⟩ := walk_leaf g (childs := cs) (sub := BTree.toKeyVec g h' d)
      (emit := index (kS (Y ++ [q]))) (out := (Y ++ [q]).map (·.1)) 10
      (fun j hj => by
        have := index_kS (Y ++ [q]) 0 j (by simp; omega)
        rw [List.replicate_zero, List.append_nil] at this
        exact this)
    have ty : BTree.toKeyVec g h' (d + 1) y = .ok wy := by
      simp only [BTree.toKeyVec, load_of ny, Go.bind_ok, toKeyVecLoop_walk, hkl]; exact ey
    obtain ⟨w, ew, dw⟩ := walk_eq g (leaf := false) (childs := some y :: some z :: List.replicate 10 none)
      (sub := BTree.toKeyVec g h' (d + 1)) (emit := index (some q.1 :: List.replicate 10 none))
      (out := fun _ => some q.1) (ds := fun _ => wy.data) 1 0 Vec.new
      (by intro j _ hj; obtain rfl : j = 0 := by omega
          rfl)
      (by intro j _ hj; obtain rfl : j = 0 := by omega
          exact .inr ⟨y, wy, rfl, ty, rfl⟩)
    refine ⟨⟨w, 0⟩, ?_, fun n => ?_⟩
    · simp only [BMap.keys, hd]
      rw [BTree.toKeyVec]
      simp only [load_of na, Go.bind_ok, toKeyVecLoop_walk]
      have hcount : (if (1 : Int) < 0 then (some q.1 :: List.replicate 10 (none : Option κ)).length else
        min (some q.1 :: List.replicate 10 (none : Option κ)).length (1 : Int).toNat) = 1 := rfl
      rw [hcount, ew]; rfl
    · have hdw : w.data = (Y ++ [q]).map (·.1) := by
        rw [dw, dy]
        simp [Vec.new, h11]
      exact nexts_map hdw n

/-- C75 fails: after Remove of the largest of two to eleven keys IntoIter still gives it. -/
theorem C75_iter_removed_fails (hc : LawfulCmp cmp) (g : Growth) {h : BStore κ ν} {m : BMap}
    {l : List (κ × ν)} {b : κ × ν} (hr : BMap.Reached cmp h m (l ++ [b])) (hne : l ≠ [])
    (hlen : l.length ≤ 10) {key : κ} (hb : cmp key b.1 = .eq) :
    ∃ h' m', BMap.remove cmp h m key = .ok (h', m', ⟨some b.2⟩) ∧ m'.length = l.length ∧
      ∃ it, BMap.intoIter g h' m' = .ok it ∧
        ∀ n, it.nexts n = .ok ((List.range n).map fun i => ((l ++ [b])[i]?).map fun e => ⟨e.1, e.2⟩) := by
  obtain ⟨fp, hg⟩ := hr.good hc
  obtain ⟨h', ⟨root, len⟩, a, cs, e1, e2, e3, e4⟩ := hg.remove_last hc hne (by simpa using hlen) hb
  simp only at e3
  subst e3
  obtain ⟨w, ew, dw⟩ := walk_leaf g (childs := cs) (sub := BTree.toVec g h' h'.length) 11
    (fun j hj => emitPair_slots (l ++ [b]) (10 - l.length) j (by simp; omega))
  have hkl : (kS (l ++ [b]) ++ List.replicate (10 - l.length) none).length = 11 := by simp; omega
  refine ⟨h', _, e1, e2, ⟨w, 0⟩, ?_, fun n => ?_⟩
  · simp only [BMap.intoIter]
    rw [BTree.toVec]
    simp only [load_of e4, Go.bind_ok, toVecLoop_walk, hkl]
    rw [ew]; rfl
  · exact nexts_map (by rw [dw, List.take_of_length_le (by simp; omega)]; rfl) n

-- the eleven keys of `C75_iter_lost_fails`, and what the iterators give for 12
example : ∃ h m, BMap.Reached (compare : Nat → Nat → Ordering) h m
    (((List.range' 1 10).map fun i => (i, 10 * i)) ++ [(11, 110)]) :=
  reached_of (ops := down 11) (by decide) (by decide)
example : (do
    let (_, (h, m)) ← runGo natStep (down 11 ++ [HOp.insert 12 120]) ([], BMap.new)
    let it ← m.keys doubling h
    it.nexts 13) = .ok ((List.range' 1 11).map some ++ [none, none]) := by decide +kernel
example : (do
    let (_, (h, m)) ← runGo natStep (down 11 ++ [HOp.insert 12 120]) ([], BMap.new)
    let it ← m.intoIter doubling h
    let ps ← it.nexts 14
    .ok (ps.map fun (p : Option (Pair Nat Nat)) => p.map Pair.key)) =
  .ok ((List.range' 1 11).map some ++ [some 11, some 12, none]) := by decide +kernel
end Gost
