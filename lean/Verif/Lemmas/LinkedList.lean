import Verif.Model.LinkedList
import Verif.Props.VecDeque
/-
Representation of lists by linked nodes.
-/
set_option linter.unusedSectionVars false
namespace Gost
open Spec

variable {σ α : Type}

theorem usizeSub_succ {n : Nat} (h : n + 1 < 2 ^ 64) : usizeSub (n + 1) 1 = n := by
  unfold usizeSub; omega

/-- `ids` are the addresses of a chain of nodes holding `xs`; the first points back to `p`, the last forward
to `e`. -/
def Seg (h : LHeap α) (p e : Option Nat) : List Nat → List α → Prop
  | [], [] => True
  | i :: is, x :: xs => h[i]? = some ⟨x, is.head?.or e, p⟩ ∧ Seg h (some i) e is xs
  | _, _ => False

/-- The list variable `l` holds `xs` in the nodes `ids`. -/
structure Rep (h : LHeap α) (l : LList) (ids : List Nat) (xs : List α) : Prop where
  seg : Seg h none none ids xs
  nodup : ids.Nodup
  head : l.head = ids.head?
  tail : l.tail = ids.getLast?
  len : l.len = xs.length
  small : xs.length < 2 ^ 64

theorem Seg.length {h : LHeap α} {p e : Option Nat} {ids : List Nat} {xs : List α} (s : Seg h p e ids xs) :
    ids.length = xs.length := by
  induction ids generalizing p xs with
  | nil => cases xs <;> simp_all [Seg]
  | cons i is ih =>
    cases xs with
    | nil => simp [Seg] at s
    | cons x xs => simp [ih s.2]

theorem Seg.lt {h : LHeap α} {p e : Option Nat} {ids : List Nat} {xs : List α} (s : Seg h p e ids xs) :
    ∀ i ∈ ids, i < h.length := by
  induction ids generalizing p xs with
  | nil => simp
  | cons i is ih =>
    cases xs with
    | nil => simp [Seg] at s
    | cons x xs =>
      intro j hj
      rcases List.mem_cons.1 hj with rfl | hj
      · exact (List.getElem?_eq_some_iff.1 s.1).1
      · exact ih s.2 j hj

/-- Only the nodes of the segment matter. -/
theorem Seg.frame {h h' : LHeap α} {p e : Option Nat} {ids : List Nat} {xs : List α} (s : Seg h p e ids xs)
    (hf : ∀ i ∈ ids, h'[i]? = h[i]?) : Seg h' p e ids xs := by
  induction ids generalizing p xs with
  | nil => cases xs <;> simp_all [Seg]
  | cons i is ih =>
    cases xs with
    | nil => simp [Seg] at s
    | cons x xs =>
      exact ⟨by rw [hf i (by simp)]; exact s.1, ih s.2 (fun j hj => hf j (by simp [hj]))⟩

theorem Rep.frame {h h' : LHeap α} {l : LList} {ids : List Nat} {xs : List α} (r : Rep h l ids xs)
    (hf : ∀ i ∈ ids, h'[i]? = h[i]?) : Rep h' l ids xs :=
  ⟨r.seg.frame hf, r.nodup, r.head, r.tail, r.len, r.small⟩

theorem Seg.append {h : LHeap α} {p e : Option Nat} {is js : List Nat} {xs ys : List α}
    (hl : is.length = xs.length) :
    Seg h p e (is ++ js) (xs ++ ys) ↔
      Seg h p (js.head?.or e) is xs ∧ Seg h (is.getLast?.or p) e js ys := by
  induction is generalizing p xs with
  | nil =>
    cases xs with
    | nil => simp [Seg]
    | cons x xs => simp at hl
  | cons i is ih =>
    cases xs with
    | nil => simp at hl
    | cons x xs =>
      simp only [List.cons_append, Seg, ih (p := some i) (xs := xs) (by simpa using hl)]
      have e1 : ((is ++ js).head?.or e) = (is.head?.or (js.head?.or e)) := by
        cases is <;> simp
      have e2 : (is.getLast?.or (some i)) = ((i :: is).getLast?.or p) := by
        cases is with
        | nil => simp
        | cons a t => simp [List.getLast?_cons_cons, List.getLast?_eq_some_getLast (l := a :: t) (by simp)]
      rw [e1, e2, and_assoc]

/-- Change the forward pointer of the last node. -/
theorem Seg.setLast {h : LHeap α} {p e q : Option Nat} {ids : List Nat} {xs : List α} {t : Nat}
    (s : Seg h p e ids xs) (hn : ids.Nodup) (ht : ids.getLast? = some t) :
    ∃ h', h.setNext (some t) q = .ok h' ∧ Seg h' p q ids xs ∧ h'.length = h.length ∧
      ∀ i, i ≠ t → h'[i]? = h[i]? := by
  obtain ⟨init, rfl⟩ := List.getLast?_eq_some_iff.1 ht
  have hlen := s.length
  obtain ⟨ys, y, rfl⟩ : ∃ ys y, xs = ys ++ [y] := by
    rcases List.eq_nil_or_concat xs with rfl | ⟨ys, y, rfl⟩
    · simp at hlen
    · exact ⟨ys, y, by simp⟩
  simp at hlen
  obtain ⟨s1, s2⟩ := (Seg.append hlen).1 s
  have hy := s2.1
  obtain ⟨hlt, hy'⟩ := List.getElem?_eq_some_iff.1 hy
  have hnt : t ∉ init := by
    have := (List.nodup_append.1 hn).2.2
    intro hm
    exact this t hm t (by simp) rfl
  refine ⟨h.set t ⟨y, q, init.getLast?.or p⟩, ?_, ?_, by simp, ?_⟩
  · simp only [LHeap.setNext, deref_some, Go.bind_ok, index_lt hlt, hy']
  · refine (Seg.append hlen).2 ⟨s1.frame ?_, ?_⟩
    · intro i hi
      rw [List.getElem?_set_ne]
      rintro rfl
      exact hnt hi
    · simp [Seg, List.getElem?_set_self hlt]
  · intro i hi
    rw [List.getElem?_set_ne (Ne.symm hi)]

/-- Change the backward pointer of the first node. -/
theorem Seg.setFirst {h : LHeap α} {p e q : Option Nat} {ids : List Nat} {xs : List α} {t : Nat}
    (s : Seg h p e ids xs) (hn : ids.Nodup) (ht : ids.head? = some t) :
    ∃ h', h.setPrev (some t) q = .ok h' ∧ Seg h' q e ids xs ∧ h'.length = h.length ∧
      ∀ i, i ≠ t → h'[i]? = h[i]? := by
  cases ids with
  | nil => simp at ht
  | cons i is =>
    simp at ht
    subst ht
    cases xs with
    | nil => simp [Seg] at s
    | cons x xs =>
      obtain ⟨hlt, hy'⟩ := List.getElem?_eq_some_iff.1 s.1
      refine ⟨h.set i ⟨x, is.head?.or e, q⟩, ?_, ⟨by rw [List.getElem?_set_self hlt], s.2.frame ?_⟩, by simp, ?_⟩
      · simp only [LHeap.setPrev, deref_some, Go.bind_ok, index_lt hlt, hy']
      · intro j hj
        rw [List.getElem?_set_ne]
        rintro rfl
        exact (List.nodup_cons.1 hn).1 hj
      · intro j hj
        rw [List.getElem?_set_ne (Ne.symm hj)]

namespace LList

theorem rep_new (h : LHeap α) : Rep h new [] [] :=
  ⟨trivial, List.nodup_nil, rfl, rfl, rfl, by simp⟩

theorem rep_nil {h : LHeap α} {l : LList} {ids : List Nat} (r : Rep h l ids []) : ids = [] := by
  have := r.seg.length
  simpa using this

theorem ids_ne {h : LHeap α} {l : LList} {ids : List Nat} {x : α} {xs : List α} (r : Rep h l ids (x :: xs)) :
    ∃ i is, ids = i :: is := by
  have := r.seg.length
  cases ids with
  | nil => simp at this
  | cons i is => exact ⟨i, is, rfl⟩

theorem pushBack_eq {h : LHeap α} {l : LList} {ids : List Nat} {xs : List α} (r : Rep h l ids xs)
    (hs : xs.length + 1 < 2 ^ 64) (v : α) :
    ∃ h' l', l.pushBack h v = .ok (h', l') ∧ Rep h' l' (ids ++ [h.length]) (xs ++ [v]) ∧
      h'.length = h.length + 1 ∧ ∀ i, i < h.length → i ∉ ids → h'[i]? = h[i]? := by
  have hlt := r.seg.lt
  have hfresh : h.length ∉ ids := fun hm => by have := hlt _ hm; omega
  have hnd : (ids ++ [h.length]).Nodup := by
    refine List.nodup_append.2 ⟨r.nodup, by simp, ?_⟩
    intro a ha b hb
    simp at hb
    subst hb
    rintro rfl
    exact hfresh ha
  have u : usize (xs.length + 1) = xs.length + 1 := by unfold usize; omega
  have s0 : Seg (h ++ [⟨v, none, l.tail⟩]) none none ids xs :=
    r.seg.frame fun i hi => List.getElem?_append_left (hlt i hi)
  have hlen := r.seg.length
  unfold pushBack
  rcases List.eq_nil_or_concat ids with rfl | ⟨init, t, hids⟩
  · cases xs with
    | cons x xs => simp at hlen
    | nil =>
      have ht : l.tail = none := r.tail
      have hh : l.head = none := r.head
      simp only [ht, hh, Option.isSome_none, Bool.false_eq_true, if_false, Go.bind_ok, Option.isNone_none, if_true]
      refine ⟨_, _, rfl, ⟨?_, by simp, rfl, rfl, by simp [r.len, usize], by simp⟩, by simp, ?_⟩
      · simp [Seg]
      · intro i hi _
        exact List.getElem?_append_left hi
  · rw [List.concat_eq_append] at hids
    have ht : l.tail = some t := by rw [r.tail, hids]; simp
    have hh : l.head.isNone = false := by rw [r.head, hids]; cases init <;> rfl
    have hgl : ids.getLast? = some t := by rw [hids]; simp
    obtain ⟨h', e1, s1, e2, e3⟩ := s0.setLast (q := some h.length) r.nodup hgl
    rw [ht] at e1 ⊢
    simp only [Option.isSome_some, if_true, e1, Go.bind_ok, hh, Bool.false_eq_true, if_false]
    have htm : t ∈ ids := by rw [hids]; simp
    have e4 : h'[h.length]? = some ⟨v, none, l.tail⟩ := by
      rw [e3 h.length (fun he => hfresh (by rw [he]; exact htm))]
      simp
    refine ⟨_, _, rfl, ⟨?_, hnd, ?_, by simp, by simp [r.len, u], by simp; omega⟩, by simp [e2], ?_⟩
    · refine (Seg.append hlen).2 ⟨by simpa using s1, ?_⟩
      simp only [Seg, and_true]
      rw [e4, r.tail]
      simp [hgl]
    · rw [r.head]
      cases ids with
      | nil => simp at hgl
      | cons a b => rfl
    · intro i hi hni
      rw [e3 i (fun he => hni (he ▸ htm))]
      exact List.getElem?_append_left hi

theorem pushFront_eq {h : LHeap α} {l : LList} {ids : List Nat} {xs : List α} (r : Rep h l ids xs)
    (hs : xs.length + 1 < 2 ^ 64) (v : α) :
    ∃ h' l', l.pushFront h v = .ok (h', l') ∧ Rep h' l' (h.length :: ids) (v :: xs) ∧
      h'.length = h.length + 1 ∧ ∀ i, i < h.length → i ∉ ids → h'[i]? = h[i]? := by
  have hlt := r.seg.lt
  have hfresh : h.length ∉ ids := fun hm => by have := hlt _ hm; omega
  have hnd : (h.length :: ids).Nodup := List.nodup_cons.2 ⟨hfresh, r.nodup⟩
  have u : usize (xs.length + 1) = xs.length + 1 := by unfold usize; omega
  have s0 : Seg (h ++ [⟨v, l.head, none⟩]) none none ids xs :=
    r.seg.frame fun i hi => List.getElem?_append_left (hlt i hi)
  have hlen := r.seg.length
  unfold pushFront
  cases ids with
  | nil =>
    cases xs with
    | cons x xs => simp at hlen
    | nil =>
      have ht : l.tail = none := r.tail
      have hh : l.head = none := r.head
      simp only [ht, hh, Option.isSome_none, Bool.false_eq_true, if_false, Go.bind_ok, Option.isNone_none, if_true]
      refine ⟨_, _, rfl, ⟨?_, hnd, rfl, rfl, by simp [r.len, usize], by simp⟩, by simp, ?_⟩
      · simp [Seg]
      · intro i hi _
        exact List.getElem?_append_left hi
  | cons t is =>
    have hh : l.head = some t := r.head
    have ht : l.tail.isNone = false := by
      rw [r.tail, List.getLast?_eq_some_getLast (l := t :: is) (by simp)]; rfl
    obtain ⟨h', e1, s1, e2, e3⟩ := s0.setFirst (q := some h.length) r.nodup (t := t) rfl
    rw [hh] at e1 ⊢
    simp only [Option.isSome_some, if_true, e1, Go.bind_ok, ht, Bool.false_eq_true, if_false]
    have e4 : h'[h.length]? = some ⟨v, l.head, none⟩ := by
      rw [e3 h.length (fun he => hfresh (by rw [he]; simp))]
      simp
    refine ⟨_, _, rfl, ⟨⟨by rw [e4, hh]; rfl, s1⟩, hnd, rfl, ?_, by simp [r.len, u], by simp; omega⟩, by simp [e2], ?_⟩
    · simp only [r.tail, List.getLast?_cons_cons]
    · intro i hi hni
      rw [e3 i (fun he => hni (he ▸ by simp))]
      exact List.getElem?_append_left hi

theorem popFront_eq {h : LHeap α} {l : LList} {ids : List Nat} {xs : List α} (r : Rep h l ids xs) :
    ∃ h' l', l.popFront h = .ok (h', l', ⟨xs.head?⟩) ∧ Rep h' l' ids.tail xs.tail ∧
      h'.length = h.length ∧ ∀ i, i ∉ ids → h'[i]? = h[i]? := by
  have hsmall := r.small
  have hlen := r.seg.length
  unfold popFront
  cases xs with
  | nil =>
    have := rep_nil r
    subst this
    rw [if_pos (by rw [r.head]; rfl)]
    exact ⟨_, _, rfl, r, rfl, fun _ _ => rfl⟩
  | cons x xs =>
    obtain ⟨i, is, rfl⟩ := ids_ne r
    have hh : l.head = some i := r.head
    rw [if_neg (by rw [hh]; simp)]
    have s := r.seg
    obtain ⟨hlt, hy⟩ := List.getElem?_eq_some_iff.1 s.1
    have hload : h.load l.head = .ok ⟨x, is.head?.or none, none⟩ := by
      simp only [LHeap.load, hh, deref_some, Go.bind_ok, index_lt hlt, hy]
    rw [hload]
    simp only [Go.bind_ok, Option.or_none]
    have u : usizeSub l.len 1 = xs.length := by
      rw [r.len, List.length_cons]; exact usizeSub_succ (by simpa using hsmall)
    have hsm : xs.length < 2 ^ 64 := by rw [List.length_cons] at hsmall; omega
    have hnd := (List.nodup_cons.1 r.nodup).2
    cases is with
    | nil =>
      simp only [List.head?_nil, Option.isSome_none, Bool.false_eq_true, if_false]
      have : xs = [] := by simpa using hlen.symm
      subst this
      exact ⟨_, _, rfl, ⟨trivial, List.nodup_nil, rfl, rfl, u, by simp⟩, rfl, fun _ _ => rfl⟩
    | cons j js =>
      simp only [List.head?_cons, Option.isSome_some, if_true]
      obtain ⟨h', e1, s1, e2, e3⟩ := Seg.setFirst (q := none) s.2 hnd (t := j) rfl
      rw [e1]
      refine ⟨_, _, rfl, ⟨s1, hnd, rfl, ?_, u, hsm⟩, e2, ?_⟩
      · simp only [r.tail, List.getLast?_cons_cons, List.tail_cons]
      · intro k hk
        exact e3 k (fun he => hk (he ▸ by simp))

theorem popBack_eq {h : LHeap α} {l : LList} {ids : List Nat} {xs : List α} (r : Rep h l ids xs) :
    ∃ h' l', l.popBack h = .ok (h', l', ⟨xs.getLast?⟩) ∧ Rep h' l' ids.dropLast xs.dropLast ∧
      h'.length = h.length ∧ ∀ i, i ∉ ids → h'[i]? = h[i]? := by
  have hsmall := r.small
  have hlen := r.seg.length
  unfold popBack
  rcases List.eq_nil_or_concat xs with rfl | ⟨ys, y, hxs⟩
  · have := rep_nil r
    subst this
    rw [if_pos (by rw [r.tail]; rfl)]
    exact ⟨_, _, rfl, r, rfl, fun _ _ => rfl⟩
  · rw [List.concat_eq_append] at hxs
    subst hxs
    obtain ⟨init, t, rfl⟩ : ∃ is i, ids = is ++ [i] := by
      rcases List.eq_nil_or_concat ids with rfl | ⟨a, b, rfl⟩
      · simp at hlen
      · exact ⟨a, b, by simp⟩
    have ht : l.tail = some t := by rw [r.tail]; simp
    rw [if_neg (by rw [ht]; simp)]
    have hlen' : init.length = ys.length := by simpa using hlen
    obtain ⟨s1, s2⟩ := (Seg.append hlen').1 r.seg
    obtain ⟨hlt, hy⟩ := List.getElem?_eq_some_iff.1 s2.1
    have hload : h.load l.tail = .ok ⟨y, none, init.getLast?⟩ := by
      simp only [LHeap.load, ht, deref_some, Go.bind_ok, index_lt hlt, hy]
      simp
    rw [hload]
    simp only [Go.bind_ok, List.getLast?_concat, List.dropLast_concat]
    have u : usizeSub l.len 1 = ys.length := by
      rw [r.len, List.length_append, List.length_singleton]
      exact usizeSub_succ (by simpa using hsmall)
    have hsm : ys.length < 2 ^ 64 := by rw [List.length_append] at hsmall; omega
    have hnd := (List.nodup_append.1 r.nodup).1
    rcases List.eq_nil_or_concat init with rfl | ⟨is, j, hinit⟩
    · simp only [List.getLast?_nil, Option.isSome_none, Bool.false_eq_true, if_false]
      have : ys = [] := by simpa using hlen'.symm
      subst this
      exact ⟨_, _, rfl, ⟨trivial, List.nodup_nil, rfl, rfl, u, by simp⟩, rfl, fun _ _ => rfl⟩
    · rw [List.concat_eq_append] at hinit
      have hj : init.getLast? = some j := by rw [hinit]; simp
      simp only [hj, Option.isSome_some, if_true]
      obtain ⟨h', e1, s3, e2, e3⟩ := Seg.setLast (q := none) s1 hnd hj
      rw [e1]
      refine ⟨_, _, rfl, ⟨s3, hnd, ?_, by simp [hj], u, hsm⟩, e2, ?_⟩
      · simp only [r.head]
        cases init with
        | nil => simp at hj
        | cons a b => rfl
      · intro k hk
        exact e3 k (fun he => hk (he ▸ by simp [hinit]))

/-- The pointers Front and Back return, and writing through them. -/
theorem front_eq {h : LHeap α} {l : LList} {ids : List Nat} {xs : List α} (r : Rep h l ids xs) :
    l.front.value.isSome = !xs.isEmpty ∧
    ∀ x t, xs = x :: t → (∃ n, h.load l.front.value = .ok n ∧ n.value = x) ∧
      ∀ v, ∃ h', h.setValue l.front.value v = .ok h' ∧ Rep h' l ids (v :: t) ∧ h'.length = h.length ∧
        ∀ i, i ∉ ids → h'[i]? = h[i]? := by
  have hlen := r.seg.length
  constructor
  · unfold front
    rw [r.head]
    cases ids <;> cases xs <;> simp at hlen ⊢
  · rintro x t rfl
    obtain ⟨i, is, rfl⟩ := ids_ne r
    have hh : l.head = some i := r.head
    have s := r.seg
    obtain ⟨hlt, hy⟩ := List.getElem?_eq_some_iff.1 s.1
    unfold front
    simp only [hh]
    refine ⟨⟨_, by simp only [LHeap.load, deref_some, Go.bind_ok, index_lt hlt]; rfl, by rw [hy]⟩, ?_⟩
    intro v
    refine ⟨h.set i ⟨v, is.head?.or none, none⟩,
      by simp only [LHeap.setValue, deref_some, Go.bind_ok, index_lt hlt, hy],
      ⟨⟨List.getElem?_set_self hlt, s.2.frame ?_⟩, r.nodup, r.head, r.tail, r.len, r.small⟩, by simp, ?_⟩
    · intro j hj
      rw [List.getElem?_set_ne]
      rintro rfl
      exact (List.nodup_cons.1 r.nodup).1 hj
    · intro j hj
      rw [List.getElem?_set_ne]
      rintro rfl
      exact hj (by simp)

theorem back_eq {h : LHeap α} {l : LList} {ids : List Nat} {xs : List α} (r : Rep h l ids xs) :
    l.back.value.isSome = !xs.isEmpty ∧
    ∀ x t, xs = t ++ [x] → (∃ n, h.load l.back.value = .ok n ∧ n.value = x) ∧
      ∀ v, ∃ h', h.setValue l.back.value v = .ok h' ∧ Rep h' l ids (t ++ [v]) ∧ h'.length = h.length ∧
        ∀ i, i ∉ ids → h'[i]? = h[i]? := by
  have hlen := r.seg.length
  constructor
  · unfold back
    rw [r.tail]
    cases ids with
    | nil => cases xs <;> simp at hlen ⊢
    | cons a b =>
      rw [List.getLast?_eq_some_getLast (l := a :: b) (by simp)]
      cases xs <;> simp at hlen ⊢
  · rintro x ys rfl
    obtain ⟨init, t, rfl⟩ : ∃ is i, ids = is ++ [i] := by
      rcases List.eq_nil_or_concat ids with rfl | ⟨a, b, rfl⟩
      · simp at hlen
      · exact ⟨a, b, by simp⟩
    have ht : l.tail = some t := by rw [r.tail]; simp
    have hlen' : init.length = ys.length := by simpa using hlen
    obtain ⟨s1, s2⟩ := (Seg.append hlen').1 r.seg
    obtain ⟨hlt, hy⟩ := List.getElem?_eq_some_iff.1 s2.1
    have hnt : t ∉ init := by
      have := (List.nodup_append.1 r.nodup).2.2
      intro hm
      exact this t hm t (by simp) rfl
    unfold back
    simp only [ht]
    refine ⟨⟨_, by simp only [LHeap.load, deref_some, Go.bind_ok, index_lt hlt]; rfl, by rw [hy]⟩, ?_⟩
    intro v
    refine ⟨h.set t ⟨v, none, init.getLast?⟩, ?_,
      ⟨(Seg.append hlen').2 ⟨s1.frame ?_, ?_⟩, r.nodup, r.head, r.tail, by simpa using r.len,
        by simpa using r.small⟩, by simp, ?_⟩
    · simp only [LHeap.setValue, deref_some, Go.bind_ok, index_lt hlt, hy]
      simp
    · intro j hj
      rw [List.getElem?_set_ne]
      rintro rfl
      exact hnt hj
    · simp [Seg, List.getElem?_set_self hlt]
    · intro j hj
      rw [List.getElem?_set_ne]
      rintro rfl
      exact hj (by simp)

theorem append_eq {h : LHeap α} {l o : LList} {is js : List Nat} {xs ys : List α} (r : Rep h l is xs)
    (ro : Rep h o js ys) (hd : ∀ i ∈ is, i ∉ js) (hs : xs.length + ys.length < 2 ^ 64) :
    ∃ h' l', l.append h o = .ok (h', l', new) ∧ Rep h' l' (is ++ js) (xs ++ ys) ∧
      h'.length = h.length ∧ ∀ i, i ∉ is → i ∉ js → h'[i]? = h[i]? := by
  have hlo := ro.seg.length
  have hl := r.seg.length
  unfold append
  cases js with
  | nil =>
    have hoh : o.head = none := ro.head
    rw [if_pos (by rw [hoh]; rfl)]
    have : ys = [] := by simpa using hlo.symm
    subst this
    have : o = new := by
      obtain ⟨a, b, c⟩ := o
      have h2 := ro.tail
      have h3 := ro.len
      simp at hoh h2 h3
      simp [new, hoh, h2, h3]
    rw [this]
    exact ⟨h, l, rfl, by simpa using r, rfl, fun _ _ _ => rfl⟩
  | cons j js =>
    have hoh : o.head = some j := ro.head
    rw [if_neg (by rw [hoh]; simp)]
    rcases List.eq_nil_or_concat is with rfl | ⟨init, t, his⟩
    · have hlh : l.head = none := r.head
      rw [if_pos (by rw [hlh]; rfl)]
      have : xs = [] := by simpa using hl.symm
      subst this
      exact ⟨h, _, rfl, ⟨ro.seg, ro.nodup, ro.head, ro.tail, ro.len, ro.small⟩, rfl, fun _ _ _ => rfl⟩
    · rw [List.concat_eq_append] at his
      have hgl : is.getLast? = some t := by rw [his]; simp
      have hlh : l.head.isNone = false := by rw [r.head, his]; cases init <;> rfl
      rw [if_neg (by rw [hlh]; simp)]
      obtain ⟨h1, e1, s1, f1, g1⟩ := r.seg.setLast (q := some j) r.nodup hgl
      have so : Seg h1 none none (j :: js) ys := ro.seg.frame fun i hi => g1 i (by
        rintro rfl
        exact hd i (by rw [his]; simp) hi)
      obtain ⟨h2, e2, s2, f2, g2⟩ := so.setFirst (q := some t) ro.nodup (t := j) rfl
      have ht : l.tail = some t := by rw [r.tail, hgl]
      rw [ht, hoh]
      simp only [e1, e2, Go.bind_ok]
      refine ⟨h2, _, rfl, ⟨?_, ?_, ?_, ?_, ?_, by simpa using hs⟩, by omega, ?_⟩
      · refine (Seg.append hl).2 ⟨?_, by simpa [hgl] using s2⟩
        refine s1.frame fun i hi => g2 i ?_
        rintro rfl
        exact hd i hi (by simp)
      · refine List.nodup_append.2 ⟨r.nodup, ro.nodup, ?_⟩
        intro a ha b hb hab
        exact hd a ha (hab ▸ hb)
      · rw [r.head]
        cases is with
        | nil => simp at hgl
        | cons a b => rfl
      · simp only [ro.tail]
        rw [List.getLast?_append, List.getLast?_eq_some_getLast (l := j :: js) (by simp)]
        simp
      · simp only [r.len, ro.len, List.length_append]
        unfold usize; omega
      · intro i hi hj
        rw [g2 i (by rintro rfl; exact hj (by simp)), g1 i (by rintro rfl; exact hi (by rw [his]; simp))]

end LList
end Gost
