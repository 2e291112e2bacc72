import Verif.Props.BTreeSet
import Verif.Props.LinkedIter
/-
Property C129: collecting the iterators of maps and sets into a LinkedList.
-/
namespace Gost
open Spec BTree

/-- An iterator over a vector, `n` elements taken, then CollectToLinkedList: a new list with the other elements, and
all lists of the program as they were. -/
theorem collect_rest {α : Type} {v : Vec α} {d : List α} (hd : v.data = d) {n : Nat} (hn : n ≤ d.length)
    (s : LProg α) (xss : List (List α)) (hs : s.Holds xss) (hsm : s.heap.length + d.length < 2 ^ 64) :
    ∃ it h' l', VecIter.advance n ⟨v, 0⟩ = .ok it ∧ it.collectToLinkedList s.heap = .ok (some (h', l')) ∧
      LProg.Holds ⟨h', s.vars ++ [l']⟩ (xss ++ [d.drop n]) := by
  subst hd
  obtain ⟨h', l', e1, e2⟩ := C65_collect_from_vec s xss hs v n hsm
  have := VecIter.advance_eq v n 0 (by simpa [Vec.len] using hn)
  rw [Nat.zero_add] at this
  exact ⟨⟨v, n⟩, h', l', this, e1, e2⟩

/-- C129: CollectToLinkedList of the iterators of a HashMap, `n` elements taken, in any order of the map. -/
theorem C129_hash_map {κ ν : Type} (g : Growth) (ord : List (κ × ν)) (n : Nat) (hn : n ≤ ord.length) :
    (∀ (s : LProg (Pair κ ν)) xss, s.Holds xss → s.heap.length + ord.length < 2 ^ 64 →
      ∃ it h' l', VecIter.advance n (HMap.intoIter g ord) = .ok it ∧
        it.collectToLinkedList s.heap = .ok (some (h', l')) ∧
        LProg.Holds ⟨h', s.vars ++ [l']⟩ (xss ++ [(ord.drop n).map fun e => ⟨e.1, e.2⟩])) ∧
    (∀ (s : LProg κ) xss, s.Holds xss → s.heap.length + ord.length < 2 ^ 64 →
      ∃ it h' l', VecIter.advance n (HMap.keys g ord) = .ok it ∧
        it.collectToLinkedList s.heap = .ok (some (h', l')) ∧
        LProg.Holds ⟨h', s.vars ++ [l']⟩ (xss ++ [(ord.drop n).map (·.1)])) ∧
    (∀ (s : LProg ν) xss, s.Holds xss → s.heap.length + ord.length < 2 ^ 64 →
      ∃ it h' l', VecIter.advance n (HMap.values g ord) = .ok it ∧
        it.collectToLinkedList s.heap = .ok (some (h', l')) ∧
        LProg.Holds ⟨h', s.vars ++ [l']⟩ (xss ++ [(ord.drop n).map (·.2)])) := by
  refine ⟨fun s xss hs hl => ?_, fun s xss hs hl => ?_, fun s xss hs hl => ?_⟩
  · rw [List.map_drop]
    exact collect_rest (by simpa [Vec.new] using pushAll_data g (fun e : κ × ν => Pair.mk e.1 e.2) ord Vec.new)
      (by simpa using hn) s xss hs (by simpa using hl)
  · rw [List.map_drop]
    exact collect_rest (by simpa [Vec.new] using pushAll_data g (fun e : κ × ν => e.1) ord Vec.new)
      (by simpa using hn) s xss hs (by simpa using hl)
  · rw [List.map_drop]
    exact collect_rest (by simpa [Vec.new] using pushAll_data g (fun e : κ × ν => e.2) ord Vec.new)
      (by simpa using hn) s xss hs (by simpa using hl)

/-- C129: the same for a HashSet. -/
theorem C129_hash_set {κ : Type} [GoKey κ] (g : Growth) (ord : List (κ × Unit)) (n : Nat) (hn : n ≤ ord.length)
    (s : LProg κ) (xss : List (List κ)) (hs : s.Holds xss) (hl : s.heap.length + ord.length < 2 ^ 64) :
    ∃ it h' l', VecIter.advance n (HSet.intoIter g ord) = .ok it ∧
      it.collectToLinkedList s.heap = .ok (some (h', l')) ∧
      LProg.Holds ⟨h', s.vars ++ [l']⟩ (xss ++ [(ord.drop n).map (·.1)]) := by
  rw [List.map_drop]
  exact collect_rest (by simpa [Vec.new] using pushAll_data g (fun e : κ × Unit => e.1) ord Vec.new)
    (by simpa using hn) s xss hs (by simpa using hl)

/-- C129: the same for every BTreeMap that holds what was put in (C72): the list has the remaining entries, keys or
values in ascending order of the keys. -/
theorem C129_btree_map {κ ν : Type} {cmp : κ → κ → Ordering} (hc : LawfulCmp cmp) (g : Growth) {h : BStore κ ν}
    {m : BMap} {l : List (κ × ν)} (hr : BMap.Reached cmp h m l) (n : Nat) (hn : n ≤ l.length) :
    Ascending cmp l ∧
    (∀ (s : LProg (Pair κ ν)) xss, s.Holds xss → s.heap.length + l.length < 2 ^ 64 →
      ∃ it0 it h' l', BMap.intoIter g h m = .ok it0 ∧ VecIter.advance n it0 = .ok it ∧
        it.collectToLinkedList s.heap = .ok (some (h', l')) ∧
        LProg.Holds ⟨h', s.vars ++ [l']⟩ (xss ++ [(l.drop n).map fun e => ⟨e.1, e.2⟩])) ∧
    (∀ (s : LProg κ) xss, s.Holds xss → s.heap.length + l.length < 2 ^ 64 →
      ∃ it0 it h' l', BMap.keys g h m = .ok it0 ∧ VecIter.advance n it0 = .ok it ∧
        it.collectToLinkedList s.heap = .ok (some (h', l')) ∧
        LProg.Holds ⟨h', s.vars ++ [l']⟩ (xss ++ [(l.drop n).map (·.1)])) ∧
    (∀ (s : LProg ν) xss, s.Holds xss → s.heap.length + l.length < 2 ^ 64 →
      ∃ it0 it h' l', BMap.values g h m = .ok it0 ∧ VecIter.advance n it0 = .ok it ∧
        it.collectToLinkedList s.heap = .ok (some (h', l')) ∧
        LProg.Holds ⟨h', s.vars ++ [l']⟩ (xss ++ [(l.drop n).map (·.2)])) := by
  obtain ⟨fp, hg⟩ := hr.good hc
  obtain ⟨root, len⟩ := m
  have ht := hg.tree
  simp only at ht
  have vecs : (∃ w : Vec (Pair κ ν), BMap.intoIter g h ⟨root, len⟩ = .ok ⟨w, 0⟩ ∧ w.data = l.map toPair) ∧
      (∃ w : Vec κ, BMap.keys g h ⟨root, len⟩ = .ok ⟨w, 0⟩ ∧ w.data = l.map (·.1)) ∧
      (∃ w : Vec ν, BMap.values g h ⟨root, len⟩ = .ok ⟨w, 0⟩ ∧ w.data = l.map (·.2)) := by
    cases root with
    | none =>
      cases ht
      exact ⟨⟨Vec.new, rfl, rfl⟩, ⟨Vec.new, rfl, rfl⟩, ⟨Vec.new, rfl, rfl⟩⟩
    | some a =>
      obtain ⟨⟨w1, e1, d1⟩, ⟨w2, e2, d2⟩, ⟨w3, e3, d3⟩⟩ := ht.toVecs g
      exact ⟨⟨w1, by simp [BMap.intoIter, e1], d1⟩, ⟨w2, by simp [BMap.keys, e2], d2⟩,
        ⟨w3, by simp [BMap.values, e3], d3⟩⟩
  obtain ⟨⟨w1, e1, d1⟩, ⟨w2, e2, d2⟩, ⟨w3, e3, d3⟩⟩ := vecs
  refine ⟨hg.asc, fun s xss hs hl => ?_, fun s xss hs hl => ?_, fun s xss hs hl => ?_⟩
  · obtain ⟨it, h', l', q⟩ := collect_rest d1 (n := n) (by simpa using hn) s xss hs (by simpa using hl)
    rw [← List.map_drop] at q
    exact ⟨_, it, h', l', e1, q⟩
  · obtain ⟨it, h', l', q⟩ := collect_rest d2 (n := n) (by simpa using hn) s xss hs (by simpa using hl)
    rw [← List.map_drop] at q
    exact ⟨_, it, h', l', e2, q⟩
  · obtain ⟨it, h', l', q⟩ := collect_rest d3 (n := n) (by simpa using hn) s xss hs (by simpa using hl)
    rw [← List.map_drop] at q
    exact ⟨_, it, h', l', e3, q⟩

/-- C129: the same for every BTreeSet with elements that holds what was put in (C76). -/
theorem C129_btree_set {κ : Type} {cmp : κ → κ → Ordering} (g : Growth) {h : BSet.Store κ}
    {t : BSet} {l : List (κ × Unit)} (ht : BSet.Has cmp h t l) (hne : l ≠ []) (n : Nat) (hn : n ≤ l.length)
    (s : LProg κ) (xss : List (List κ)) (hs : s.Holds xss) (hl : s.heap.length + l.length < 2 ^ 64) :
    Ascending cmp l ∧
    ∃ it0 it h' l', t.intoIter g h = .ok it0 ∧ VecIter.advance n it0 = .ok it ∧
      it.collectToLinkedList s.heap = .ok (some (h', l')) ∧
      LProg.Holds ⟨h', s.vars ++ [l']⟩ (xss ++ [(l.drop n).map (·.1)]) := by
  obtain ⟨fp, hg⟩ := ht
  have ht := hg.tree
  cases hr : t.treemap.root with
  | none => rw [hr] at ht; cases ht; exact absurd rfl hne
  | some a =>
    rw [hr] at ht
    obtain ⟨_, ⟨w, e, d⟩, _⟩ := ht.toVecs g
    obtain ⟨it, h', l', q⟩ := collect_rest d (n := n) (by simpa using hn) s xss hs (by simpa using hl)
    rw [← List.map_drop] at q
    exact ⟨hg.asc, ⟨w, 0⟩, it, h', l', by simp [BSet.intoIter, hr, addr, e], q⟩

/-- One key taken of {3: 30, 1: 10, 2: 20}, the others collected: 1, 2. -/
example : (do
    let it ← VecIter.advance 1 (HMap.keys doubling [((3 : Int), 30), (1, 10), (2, 20)])
    let r ← it.collectToLinkedList []
    match r with
    | some (h, l) => LIter.collectToVec doubling h l.intoIter
    | none => .ok none).toOption.map (fun (r : Option (Vec Int)) => r.map Vec.data) = some (some [1, 2]) := by decide
/-- A program without lists meets the hypotheses. -/
example {α : Type} : (⟨[], []⟩ : LProg α).Holds [] :=
  ⟨rfl, fun _ => [], fun k l xs h => by simp at h, fun k m _ h => by simp at h⟩

end Gost
