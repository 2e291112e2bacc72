import Verif.Lemmas.BTreeIter
/-
Removing keys above the twelfth: the merge of two children always runs out of slots.
-/
namespace Gost.BTree
open Spec
variable {κ ν : Type} {cmp : κ → κ → Ordering}

/-- Merging children with ten or more keys each panics. -/
theorem merge_panics {h : BStore κ ν} {a : Nat} {self : BNode κ ν} {idx : Int} {s : Nat} {child sibling : BNode κ ν}
    (ha : h[a]? = some self) (hdeg : self.minDeg = 11)
    (hc : ∀ c, getAt self.childs idx = .ok c → load h c = .ok child)
    (hs : getAt self.childs (idx + 1) = .ok (some s)) (hsn : h[s]? = some sibling)
    (hkl : child.keys.length = 11) (hn : sibling.n = 10) : ∃ e, merge h a idx = .error e := by
  cases hm : merge h a idx with
  | error e => exact ⟨e, rfl⟩
  | ok h' =>
    exfalso
    simp only [merge, load_of ha, Go.bind_ok] at hm
    obtain ⟨c, hcc, hm⟩ := bind_ok_inv hm
    simp only [hs, Go.bind_ok, hc c hcc] at hm
    obtain ⟨k, _, hm⟩ := bind_ok_inv hm
    obtain ⟨ks, hks, hm⟩ := bind_ok_inv hm
    obtain ⟨v, _, hm⟩ := bind_ok_inv hm
    obtain ⟨vs, _, hm⟩ := bind_ok_inv hm
    simp only [load_of hsn, Go.bind_ok] at hm
    obtain ⟨_, hloop, hm⟩ := bind_ok_inv hm
    obtain ⟨_, _, rfl⟩ := setAt_inv hks
    have h10 : sibling.n.toNat = 9 + 1 := by rw [hn]; rfl
    rw [h10, forUp] at hloop
    obtain ⟨_, hb, _⟩ := bind_ok_inv hloop
    obtain ⟨_, _, hb⟩ := bind_ok_inv hb
    obtain ⟨_, hset, _⟩ := bind_ok_inv hb
    obtain ⟨_, hlt, _⟩ := setAt_inv hset
    simp only [List.length_set, hkl, hdeg] at hlt
    omega

/-- The loop of `_FindKey` in a node. -/
theorem findKey_node {A B : List (κ × ν)} {key : κ} {node : BNode κ ν} {t : List (Option κ)}
    (hk : node.keys = kS (A ++ B) ++ t) (hn : node.n = (A ++ B).length)
    (hA : ∀ e ∈ A, cmp e.1 key = .lt) (hB : ∀ e ∈ B, cmp e.1 key ≠ .lt) :
    findKey cmp node key = .ok (A.length : Int) := by
  unfold findKey
  rw [hk, kS_append, List.append_assoc, hn]
  have := findKeyLoop_eq hA (kS B ++ t) ((A ++ B).length : Nat) 0 (by
    cases B with
    | nil => left; simp
    | cons b B => exact .inr ⟨by simp; omega, b.1, kS B ++ t, by simp, hB b (by simp)⟩)
  simpa using this

theorem getAt_nat {α : Type} {l : List α} {i : Nat} {x : α} (h : l[i]? = some x) : getAt l (i : Int) = .ok x := by
  unfold getAt
  rw [if_neg (by omega), Int.toNat_natCast, index, h]

/-- Remove of any key from the thirteenth on panics, whether it is there or not. -/
theorem Good.remove_panics (hc : LawfulCmp cmp) {h : BStore κ ν} {m : BMap} {l : List (κ × ν)} {fp : List Nat}
    (hg : Good cmp h m l fp) {key : κ} {e : κ × ν} (he : l[12]? = some e) (hke : cmp key e.1 ≠ .lt) :
    ∃ p, BMap.remove cmp h m key = .error p := by
  obtain ⟨root, len⟩ := m
  obtain ⟨asc, hlen, tree⟩ := hg
  simp only at hlen tree
  cases tree with
  | nil => simp at he
  | leaf _ hl =>
    have := hl.1
    rw [List.getElem?_eq_none (by omega)] at he; cases he
  | @node a y zs Y R h1 h2 h3 h4 h5 h6 h7 h8 =>
    have hR : Ascending cmp R := (List.pairwise_append.1 asc).2.1
    have he' : R[1]? = some e := by
      rw [List.getElem?_append_right (by omega), h1] at he; exact he
    obtain ⟨A, B, rfl, hA, hB⟩ : ∃ A B, R = A ++ B ∧ (∀ e ∈ A, cmp e.1 key = .lt) ∧ (∀ e ∈ B, cmp e.1 key ≠ .lt) := by
      rcases locate hc hR key with ⟨A, b, B, e', hA, hb, hB⟩ | ⟨A, B, e', hA, hB⟩
      · refine ⟨A, b :: B, e', fun e he => (hc.lt_iff _ _).2 (hA e he), fun e he => ?_⟩
        rcases List.mem_cons.1 he with rfl | he
        · rw [(hc.eq_comm _ _).1 hb]; decide
        · rw [(hc.gt_iff _ _).2 (hB e he)]; decide
      · exact ⟨A, B, e', fun e he => (hc.lt_iff _ _).2 (hA e he),
          fun e he => by rw [(hc.gt_iff _ _).2 (hB e he)]; decide⟩
    -- the first key of R lies below
    have hA1 : 1 ≤ A.length := by
      cases A with
      | cons _ _ => simp
      | nil =>
        exfalso
        simp only [List.nil_append] at he' hR
        cases B with
        | nil => simp at he'
        | cons r B =>
          have h0 : cmp r.1 e.1 = .lt := (List.pairwise_cons.1 hR).1 e (by
            have := List.mem_of_getElem? (l := B) (i := 0) (by simpa using he'); exact this)
          have hrk := hB r (by simp)
          apply hrk
          refine hc.lt_trans'' h0 ?_
          intro hgt; exact hke ((hc.gt_iff _ _).1 hgt)
    have hfind := findKey_node (node := ⟨false, 11, kS (A ++ B) ++ List.replicate (11 - (A ++ B).length) none,
        vS (A ++ B) ++ List.replicate (11 - (A ++ B).length) none, (A ++ B).length,
        some y :: (zs.map some ++ List.replicate (11 - (A ++ B).length) none)⟩)
      (t := List.replicate (11 - (A ++ B).length) none) rfl rfl hA hB
    -- the children from the second on
    have hchild : ∀ {i : Nat}, 1 ≤ i → i ≤ (A ++ B).length → ∃ z cs,
        getAt (some y :: (zs.map some ++ List.replicate (11 - (A ++ B).length) none)) (i : Int) = .ok (some z) ∧
        h[z]? = some ⟨true, 0, List.replicate 11 none, List.replicate 11 none, 10, cs⟩ := by
      intro i hi1 hi2
      obtain ⟨i, rfl⟩ : ∃ j, i = j + 1 := ⟨i - 1, by omega⟩
      have hlt : i < zs.length := by omega
      obtain ⟨cs, hz⟩ := h7 zs[i] (List.getElem_mem hlt)
      refine ⟨zs[i], cs, getAt_nat ?_, hz⟩
      rw [List.getElem?_cons_succ, List.getElem?_append_left (by simpa using hlt)]
      simp [hlt]
    cases hm : BMap.remove cmp h ⟨some a, len⟩ key with
    | error p => exact ⟨p, rfl⟩
    | ok r =>
      exfalso
      simp only [BMap.remove] at hm
      obtain ⟨res, _, hm⟩ := bind_ok_inv hm
      obtain ⟨h', hr, _⟩ := bind_ok_inv hm
      simp only [removeNode, load_of h5, Go.bind_ok, hfind] at hr
      obtain ⟨present, hp, hr⟩ := bind_ok_inv hr
      obtain ⟨z1, cs1, hz1, hn1⟩ := hchild (i := A.length) hA1 (by simp)
      cases present with
      | true =>
        -- the key is in the root
        have hAB : A.length < (A ++ B).length := by
          by_cases hlt : A.length < (A ++ B).length
          · exact hlt
          · rw [if_neg (by omega)] at hp; cases hp
        obtain ⟨z2, cs2, hz2, hn2⟩ := hchild (i := A.length + 1) (by omega) (by omega)
        simp only [if_true, Bool.false_eq_true, if_false, removeFromNonLeaf, load_of h5, Go.bind_ok] at hr
        obtain ⟨_, _, hr⟩ := bind_ok_inv hr
        have hz2' : getAt (some y :: (zs.map some ++ List.replicate (11 - (A ++ B).length) none))
          ((A.length : Int) + 1) = .ok (some z2) := hz2
        simp only [childN, hz1, hz2', Go.bind_ok, load_of hn1, load_of hn2] at hr
        rw [if_neg (by decide), if_neg (by decide)] at hr
        obtain ⟨_, hmg, _⟩ := bind_ok_inv hr
        obtain ⟨p, hp⟩ := merge_panics (idx := A.length) h5 rfl
          (by intro c hc'; rw [hz1] at hc'; cases hc'; exact load_of hn1) hz2' hn2 (by simp) rfl
        rw [hp] at hmg; cases hmg
      | false =>
        -- it is not: then it is above the second key of R
        have hA2 : 2 ≤ A.length := by
          cases A with
          | nil => simp at hA1
          | cons r A =>
            cases A with
            | cons _ _ => simp
            | nil =>
              exfalso
              cases B with
              | nil => simp at he'
              | cons b B =>
                simp at he'
                subst he'
                have hb := hB b (by simp)
                have hbe : cmp b.1 key = .eq := by
                  cases hbk : cmp b.1 key with
                  | lt => exact absurd hbk hb
                  | eq => rfl
                  | gt => exact absurd ((hc.gt_iff _ _).1 hbk) hke
                rw [if_pos (by simp; omega)] at hp
                have hgk : getAt (kS ([r] ++ b :: B) ++ List.replicate (11 - ([r] ++ b :: B).length) none)
                  (([r] : List (κ × ν)).length : Int) = .ok (some b.1) := rfl
                rw [hgk] at hp
                simp [hbe] at hp
        obtain ⟨z0, cs0, hz0, hn0⟩ := hchild (i := A.length - 1) (by omega) (by simp; omega)
        have hz0' : getAt (some y :: (zs.map some ++ List.replicate (11 - (A ++ B).length) none))
          ((A.length : Int) - 1) = .ok (some z0) := by
          rw [← hz0]; congr 1; omega
        simp only [Bool.false_eq_true, if_false, childN, hz1, Go.bind_ok, load_of hn1] at hr
        rw [if_pos (by decide)] at hr
        obtain ⟨_, hf, _⟩ := bind_ok_inv hr
        simp only [fill, load_of h5, Go.bind_ok, childN, hz0', load_of hn0] at hf
        rw [if_pos (by omega)] at hf
        simp only [Go.bind_ok, show decide ((10 : Int) ≥ 11) = false from rfl, Bool.false_eq_true, if_false] at hf
        by_cases hAB : A.length < (A ++ B).length
        · obtain ⟨z2, cs2, hz2, hn2⟩ := hchild (i := A.length + 1) (by omega) (by omega)
          have hz2' : getAt (some y :: (zs.map some ++ List.replicate (11 - (A ++ B).length) none))
            ((A.length : Int) + 1) = .ok (some z2) := hz2
          simp only [hz2', Go.bind_ok, load_of hn2] at hf
          rw [if_pos (by omega), Go.bind_ok] at hf
          simp only [show decide ((10 : Int) ≥ 11) = false from rfl, Bool.false_eq_true, if_false] at hf
          rw [if_pos (by omega)] at hf
          obtain ⟨p, hp⟩ := merge_panics (idx := A.length) h5 rfl
            (by intro c hc'; rw [hz1] at hc'; cases hc'; exact load_of hn1) hz2' hn2 (by simp) rfl
          rw [hp] at hf; cases hf
        · have hAB' : ¬ (A.length : Int) ≠ ((A ++ B).length : Nat) := by
            have := List.length_append (as := A) (bs := B)
            omega
          rw [if_neg hAB', Go.bind_ok] at hf
          simp only [Bool.false_eq_true, if_false] at hf
          rw [if_neg hAB'] at hf
          have hz1' : getAt (some y :: (zs.map some ++ List.replicate (11 - (A ++ B).length) none))
            ((A.length : Int) - 1 + 1) = .ok (some z1) := by
            rw [← hz1]; congr 1; omega
          obtain ⟨p, hp⟩ := merge_panics (idx := (A.length : Int) - 1) h5 rfl
            (by intro c hc'; rw [hz0'] at hc'; cases hc'; exact load_of hn0) hz1' hn1 (by simp) rfl
          rw [hp] at hf; cases hf
end Gost.BTree
