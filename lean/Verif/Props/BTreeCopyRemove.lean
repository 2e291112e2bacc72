import Verif.Props.BTreeCopy
import Verif.Props.BTreeUnwind
/-
Property C123, Remove: after `b := a` a key is removed through `b`, and `a` is read.
-/
namespace Gost
open Spec BTree
variable {κ ν : Type} {cmp : κ → κ → Ordering}

/-- Remove of a key that is there, in a map of one leaf: what is then in the leaf, which `m` still points to. -/
theorem copy_remove (hc : LawfulCmp cmp) {h : BStore κ ν} {m : BMap} {A B : List (κ × ν)} {b : κ × ν} {fp : List Nat}
    (hg : Good cmp h m (A ++ b :: B) fp) (hlen : (A ++ b :: B).length ≤ 11) {key : κ} (hb : cmp key b.1 = .eq) :
    ∃ h' m' r, BMap.remove cmp h m key = .ok (h', m', ⟨some r⟩) ∧ m'.length = (A ++ B).length ∧
      ShowsLeaf h' m (if B = [] then A ++ [b] else A ++ B) ((A ++ B).length : Nat) := by
  obtain ⟨a, hr, rfl, hle, cs, hn⟩ := hg.isLeaf (by simp) hlen
  have hml := hg.len
  have hasc := hg.asc
  obtain ⟨root, len⟩ := m
  simp only at hr hml
  subst hr
  have hla := (List.getElem?_eq_some_iff.1 hn).1
  have hA : ∀ e ∈ A, cmp key e.1 = .gt := by
    intro e he
    have := (List.pairwise_append.1 hasc).2.2 e he b (by simp)
    rw [hc.eq_left hb]; exact (hc.lt_iff _ _).1 this
  have hs : BTree.search cmp h key (h.length + 1) a = .ok (some (a, A.length)) :=
    search_found hn (t := List.replicate (11 - (A ++ b :: B).length) none) rfl hA hb
  have hrem := removeNode_found (d := h.length) hc hn hA hb
  have hset : ∀ nd : BNode κ ν, (h.set a nd)[a]? = some nd := fun nd => List.getElem?_set_self hla
  have hu : usizeSub len 1 = (A ++ B).length := by
    rw [hml]
    have : (A ++ b :: B).length = (A ++ B).length + 1 := by simp; omega
    rw [this] at hlen ⊢
    unfold usizeSub; omega
  have hv : ∃ r, index (vS (A ++ B) ++ (if B = [] then some b.2 else none) ::
      List.replicate (11 - (A ++ b :: B).length) none) A.length = .ok (some r) := by
    cases B with
    | nil =>
      have := index_mid (vS A) (some b.2) (List.replicate (11 - (A ++ [b]).length) none)
      rw [vS_length] at this
      exact ⟨b.2, by simpa using this⟩
    | cons c B =>
      have := index_mid (vS A) (some c.2) (vS B ++ none :: List.replicate (11 - (A ++ b :: c :: B).length) none)
      rw [vS_length] at this
      exact ⟨c.2, by simpa using this⟩
  obtain ⟨r, hv⟩ := hv
  obtain ⟨nr, hnr⟩ : ∃ nr, (if (((A ++ B).length : Nat) : Int) = 0 then
      (if True then (.ok none : Go (Option Nat)) else index cs 0) else .ok (some a)) = .ok nr := by
    by_cases h0 : (((A ++ B).length : Nat) : Int) = 0
    · rw [if_pos h0, if_pos trivial]; exact ⟨none, rfl⟩
    · rw [if_neg h0]; exact ⟨_, rfl⟩
  refine ⟨h.set a ⟨true, 0, kS (A ++ B) ++ (if B = [] then some b.1 else none) ::
      List.replicate (11 - (A ++ b :: B).length) none, vS (A ++ B) ++ (if B = [] then some b.2 else none) ::
      List.replicate (11 - (A ++ b :: B).length) none, ((A ++ B).length : Nat), cs⟩, ⟨nr, (A ++ B).length⟩, r, ?_, rfl, ?_, a, cs, rfl, (hset _).trans ?_⟩
  · simp only [BMap.remove, hs, Go.bind_ok, hrem]
    simp only [load_of (hset _), Go.bind_ok, hv, deref_some, hu]
    rw [hnr, Go.bind_ok]; rfl
  · split
    · simp at hlen ⊢; omega
    · simp at hlen ⊢; omega
  · cases B with
    | nil => simp [List.append_assoc]
    | cons c B =>
      have e : 11 - (A ++ c :: B).length = (11 - (A ++ b :: c :: B).length) + 1 := by
        simp at hlen ⊢; omega
      simp only [reduceCtorEq, if_false, e, List.replicate_succ]

/-- C123, in part: after `b := a` with at most eleven keys, a Remove through `b` leaves every Get through `a` as it
was exactly when the key is not there or is the largest (which Remove leaves in its slot, C74).
Missing: all other removals (`C123_copy_remove_fails`), and maps of more than eleven keys. -/
theorem C123_copy_remove_partial (hc : LawfulCmp cmp) {h : BStore κ ν} {a : BMap} {l : List (κ × ν)}
    (hr : BMap.Reached cmp h a l) (hlen : l.length ≤ 11) (key : κ) :
    ∃ h' b r, BMap.remove cmp h a key = .ok (h', b, r) ∧
      ((∀ k, BMap.get cmp h' a k = BMap.get cmp h a k) ↔
        OMap.mem cmp l key = false ∨ ∃ q, l.getLast? = some q ∧ cmp key q.1 = .eq) := by
  obtain ⟨fp, hg⟩ := hr.good hc
  rcases locate hc hg.asc key with ⟨A, b, B, rfl, hA, hb, hB⟩ | ⟨A, B, rfl, hA, hB⟩
  · obtain ⟨h', m', r, e, _, hs⟩ := copy_remove hc hg hlen hb
    refine ⟨h', m', _, e, ?_⟩
    have hm := mem_found (A := A) (B := B) hb
    cases B with
    | nil =>
      rw [if_pos rfl] at hs
      refine ⟨fun _ => .inr ⟨b, by simp, hb⟩, fun _ k => ?_⟩
      rw [hs.get hc (weak_of_asc hg.asc), hg.get hc]
    | cons c B =>
      rw [if_neg (by simp)] at hs
      have hasc : Ascending cmp (A ++ c :: B) := hg.asc.sublist (by simp)
      constructor
      · intro hget
        exfalso
        have := hget key
        rw [hs.get hc (weak_of_asc hasc), hg.get hc, lookup_found hc hg.asc hb, lookup_fresh hA hB] at this
        cases this
      · rintro (h0 | ⟨q, hq, hk⟩)
        · rw [hm] at h0; cases h0
        · exfalso
          have hq' : q ∈ c :: B := by
            rw [List.getLast?_append] at hq
            have e : (b :: c :: B).getLast? = (c :: B).getLast? := by simp [List.getLast?_cons]
            rw [e] at hq
            cases hx : (c :: B).getLast? with
            | none => simp at hx
            | some y =>
              rw [hx] at hq
              simp only [Option.some_or, Option.some.injEq] at hq
              subst hq
              exact List.mem_of_getLast? hx
          rw [hB q hq'] at hk; cases hk
  · have hm := mem_fresh hA hB
    refine ⟨h, a, _, hg.remove_absent hc hm ?_, fun _ => .inl hm, fun _ _ => rfl⟩
    intro e he
    rw [List.getElem?_eq_none (by omega)] at he
    cases he

/-- C123 fails: after `b := a` with at most eleven keys, Remove of a key through `b` that is not the largest takes
it out of `a` as well, in Get, in IntoIter and in Keys, but not in the Len of `a`. -/
theorem C123_copy_remove_fails (hc : LawfulCmp cmp) (g : Growth) {h : BStore κ ν} {a : BMap} {A B : List (κ × ν)}
    {x : κ × ν} (hr : BMap.Reached cmp h a (A ++ x :: B)) (hlen : (A ++ x :: B).length ≤ 11) (hB : B ≠ []) {key : κ}
    (hx : cmp key x.1 = .eq) :
    ∃ h' b r, BMap.remove cmp h a key = .ok (h', b, r) ∧ b.length = (A ++ B).length ∧
      a.length = (A ++ B).length + 1 ∧ (∀ k, BMap.get cmp h' a k = .ok ⟨OMap.lookup cmp (A ++ B) k⟩) ∧
      (∃ it, BMap.intoIter g h' a = .ok it ∧
        ∀ n, it.nexts n = .ok ((List.range n).map fun i => ((A ++ B)[i]?).map fun e => ⟨e.1, e.2⟩)) ∧
      ∃ it, BMap.keys g h' a = .ok it ∧
        ∀ n, it.nexts n = .ok ((List.range n).map fun i => ((A ++ B)[i]?).map (·.1)) := by
  obtain ⟨fp, hg⟩ := hr.good hc
  obtain ⟨h', m', r, e, hl, hs⟩ := copy_remove hc hg hlen hx
  rw [if_neg hB] at hs
  have hasc : Ascending cmp (A ++ B) := hg.asc.sublist (by simp)
  refine ⟨h', m', _, e, hl, ?_, hs.get hc (weak_of_asc hasc), hs.toVec g, ?_⟩
  · rw [BMap.length, hg.len]; simp; omega
  · obtain ⟨it, e1, e2⟩ := hs.keys (by simp at hlen ⊢; omega) g
    exact ⟨it, e1, by simpa only [List.take_length] using e2⟩

/-- C123 fails: after `b := a` with at most eleven keys, Remove of the largest key through `b` leaves it to Get and
IntoIter of `a`, while Keys of `a` no longer gives it. -/
theorem C123_copy_remove_largest_fails (hc : LawfulCmp cmp) (g : Growth) {h : BStore κ ν} {a : BMap}
    {A : List (κ × ν)} {x : κ × ν} (hr : BMap.Reached cmp h a (A ++ [x])) (hlen : A.length ≤ 10) {key : κ}
    (hx : cmp key x.1 = .eq) :
    ∃ h' b r, BMap.remove cmp h a key = .ok (h', b, r) ∧ b.length = A.length ∧ a.length = A.length + 1 ∧
      (∀ k, BMap.get cmp h' a k = .ok ⟨OMap.lookup cmp (A ++ [x]) k⟩) ∧
      (∃ it, BMap.intoIter g h' a = .ok it ∧
        ∀ n, it.nexts n = .ok ((List.range n).map fun i => ((A ++ [x])[i]?).map fun e => ⟨e.1, e.2⟩)) ∧
      ∃ it, BMap.keys g h' a = .ok it ∧
        ∀ n, it.nexts n = .ok ((List.range n).map fun i => (A[i]?).map (·.1)) := by
  obtain ⟨fp, hg⟩ := hr.good hc
  obtain ⟨h', m', r, e, hl, hs⟩ := copy_remove hc hg (by simpa using hlen) hx
  rw [if_pos rfl] at hs
  refine ⟨h', m', _, e, by simpa using hl, ?_, hs.get hc (weak_of_asc hg.asc), hs.toVec g, ?_⟩
  · rw [BMap.length, hg.len]; simp
  · obtain ⟨it, e1, e2⟩ := hs.keys (by simp; omega) g
    refine ⟨it, e1, ?_⟩
    simpa using e2

-- three keys: the copy removes 2, and the original, of Len 3, no longer finds it
example : ∃ h m, BMap.Reached (compare : Nat → Nat → Ordering) h m ([(1, 10)] ++ (2, 20) :: [(3, 30)]) :=
  reached_of (ops := down 3) (by decide) (by decide)
example : (do
    let (_, h, a) ← runGo natStep (down 3) ([], BMap.new)
    let (h, b, _) ← BMap.remove compare h a 2
    let r ← a.get compare h 2
    .ok (r, a.length, b.length) : Go (Opt Nat × Nat × Nat)) = .ok (⟨none⟩, 3, 2) := by decide +kernel
-- the largest: still found by the original, but not among its keys
example : (do
    let (_, h, a) ← runGo natStep (down 3) ([], BMap.new)
    let (h, _, _) ← BMap.remove compare h a 3
    let r ← a.get compare h 3
    let it ← a.keys doubling h
    let ks ← it.nexts 4
    .ok (r, ks) : Go (Opt Nat × List (Option Nat))) = .ok (⟨some 30⟩, [some 1, some 2, none, none]) := by decide +kernel
end Gost
