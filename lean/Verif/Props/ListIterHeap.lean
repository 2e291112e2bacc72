import Verif.Props.DequeIterHeap
/-
C138 for LinkedList: exactly what an iterator gives while the list is being changed.
-/
set_option linter.unusedSectionVars false
namespace Gost
open Spec

variable {α : Type}

/-- The operations that change a list. -/
inductive LMOp (α : Type) where
  | pushFront (v : α) | pushBack (v : α) | popFront | popBack | clear

/-- The library's implementation of the operations. -/
def LMOp.heap : LMOp α → LHeap α → LList → Go (LHeap α × LList)
  | .pushFront v, h, l => l.pushFront h v
  | .pushBack v, h, l => l.pushBack h v
  | .popFront, h, l => do let (h, l, _) ← l.popFront h; .ok (h, l)
  | .popBack, h, l => do let (h, l, _) ← l.popBack h; .ok (h, l)
  | .clear, h, l => .ok (h, l.clear)

/-- A history of a list and an iterator taken from it: an event is an operation on the list, or a call of Next (`none`). -/
def runListIter : List (Option (LMOp α)) → LHeap α → LList → Option Nat →
    Go (List (Option α) × LHeap α × LList × Option Nat)
  | [], h, l, it => .ok ([], h, l, it)
  | none :: es, h, l, it => do
    let (it, o) ← LIter.next h it
    let (rs, z) ← runListIter es h l it
    .ok (o.value :: rs, z)
  | some op :: es, h, l, it => do
    let (h, l) ← op.heap h l
    runListIter es h l it

/-- Specification of a list with an iterator.  The iterator will first give the elements `own`, which are no longer in
the list; then, if `pos` is `some k`, the elements of the list from index `k` on. -/
structure Spec.ListView (α : Type) where
  list : List α
  own : List α
  pos : Option Nat

/-- The iterator of a list that has just been taken. -/
def Spec.ListView.start (xs : List α) : ListView α := ⟨xs, [], if xs = [] then none else some 0⟩

/-- Specification: the effect of an operation.  An element that leaves the list while the iterator is still to give it
stays with the iterator; when the iterator has nothing more to give from the list, it is done with it, and what is
pushed later is not seen. -/
def Spec.ListView.op (s : ListView α) : LMOp α → ListView α
  | .pushFront v => ⟨v :: s.list, s.own, s.pos.map (· + 1)⟩
  | .pushBack v => ⟨s.list ++ [v], s.own, s.pos⟩
  | .popFront =>
    match s.pos with
    | some 0 => ⟨s.list.tail, s.own ++ s.list.take 1, if s.list.length ≤ 1 then none else some 0⟩
    | some (k + 1) => ⟨s.list.tail, s.own, some k⟩
    | none => ⟨s.list.tail, s.own, none⟩
  | .popBack =>
    match s.pos with
    | some k =>
      if k + 1 = s.list.length then ⟨s.list.dropLast, s.own ++ s.list.drop k, none⟩
      else ⟨s.list.dropLast, s.own, some k⟩
    | none => ⟨s.list.dropLast, s.own, none⟩
  | .clear =>
    match s.pos with
    | some k => ⟨[], s.own ++ s.list.drop k, none⟩
    | none => ⟨[], s.own, none⟩

/-- Specification: a call of Next. -/
def Spec.ListView.next (s : ListView α) : ListView α × Option α :=
  match s.own, s.pos with
  | x :: own, pos => (⟨s.list, own, pos⟩, some x)
  | [], some k => (⟨s.list, [], if k + 1 < s.list.length then some (k + 1) else none⟩, s.list[k]?)
  | [], none => (s, none)

/-- Specification: a history. -/
def Spec.ListView.run : List (Option (LMOp α)) → ListView α → List (Option α) × ListView α
  | [], s => ([], s)
  | none :: es, s =>
    let (s, o) := s.next
    let (rs, s) := run es s
    (o :: rs, s)
  | some op :: es, s => run es (s.op op)

/-- The nodes of the list the iterator is still to visit. -/
def restIds (pos : Option Nat) (ids : List Nat) : List Nat := (pos.map fun k => ids.drop k).getD []

/-- The heap holds the list and the iterator of a view. -/
structure Shows (h : LHeap α) (l : LList) (it : Option Nat) (s : Spec.ListView α) (ids own : List Nat) : Prop where
  rep : Rep h l ids s.list
  nodup : (own ++ ids).Nodup
  len : own.length = s.own.length
  fwd : Fwd h (own ++ restIds s.pos ids) (s.own ++ (s.pos.map fun k => s.list.drop k).getD [])
  it : it = (own ++ restIds s.pos ids).head?
  pos : ∀ k, s.pos = some k → k < s.list.length

theorem Fwd.drop {h : LHeap α} {ids : List Nat} {xs : List α} (s : Fwd h ids xs) (k : Nat) :
    Fwd h (ids.drop k) (xs.drop k) := by
  induction k generalizing ids xs with
  | zero => exact s
  | succ k ih =>
    cases ids with
    | nil => cases xs <;> simp_all [Fwd]
    | cons i is =>
      cases xs with
      | nil => simp [Fwd] at s
      | cons x xs => exact ih s.2

/-- Replace what follows a chain of nodes. -/
theorem Fwd.glue {h h' : LHeap α} {a b b' : List Nat} {x y y' : List α} (s : Fwd h (a ++ b) (x ++ y))
    (hl : a.length = x.length) (hf : ∀ i ∈ a, h'[i]? = h[i]?) (hb : b'.head? = b.head?) (s' : Fwd h' b' y') :
    Fwd h' (a ++ b') (x ++ y') := by
  induction a generalizing x with
  | nil =>
    cases x with
    | nil => exact s'
    | cons => simp at hl
  | cons i is ih =>
    cases x with
    | nil => simp at hl
    | cons v x =>
      obtain ⟨⟨p, hp⟩, s2⟩ := s
      refine ⟨⟨p, ?_⟩, ih s2 (by simpa using hl) (fun j hj => hf j (List.mem_cons_of_mem _ hj))⟩
      rw [hf i (by simp), hp]
      cases is with
      | nil => simp [hb]
      | cons => rfl

theorem Fwd.pushFront {h h' : LHeap α} {l l' : LList} {ids : List Nat} {xs : List α} {v : α} (s : Fwd h ids xs)
    (he : l.pushFront h v = .ok (h', l')) : Fwd h' ids xs := by
  have s1 : ∀ n, Fwd (h ++ [n]) ids xs := fun n =>
    s.frame fun i hi => List.getElem?_append_left (s.lt i hi)
  unfold LList.pushFront at he
  simp only at he
  split at he
  · cases hsp : LHeap.setPrev (h ++ [⟨v, l.head, none⟩]) l.head (some h.length) with
    | error e => rw [hsp] at he; cases he
    | ok h1 =>
      rw [hsp] at he
      cases he
      exact (s1 _).setPrev _ _ hsp
  · cases he
    exact s1 _

theorem Fwd.popFront {h h' : LHeap α} {l l' : LList} {ids : List Nat} {xs : List α} {o : Opt α} (s : Fwd h ids xs)
    (he : l.popFront h = .ok (h', l', o)) : Fwd h' ids xs := by
  unfold LList.popFront at he
  split at he
  · cases he; exact s
  · cases hload : h.load l.head with
    | error e => rw [hload] at he; cases he
    | ok t =>
      rw [hload] at he
      simp only [Go.bind_ok] at he
      split at he
      · cases hsp : h.setPrev t.next none with
        | error e => rw [hsp] at he; cases he
        | ok h1 =>
          rw [hsp] at he
          cases he
          exact s.setPrev _ _ hsp
      · cases he; exact s

/-- PopBack does not touch the node it takes off. -/
theorem popBack_last {h h' : LHeap α} {l l' : LList} {ids : List Nat} {xs : List α} {o : Opt α} (r : Rep h l ids xs)
    (he : l.popBack h = .ok (h', l', o)) (t : Nat) (ht : ids.getLast? = some t) : h'[t]? = h[t]? := by
  have hlen := r.seg.length
  obtain ⟨js, rfl⟩ := List.getLast?_eq_some_iff.1 ht
  have htl := r.tail
  rw [ht] at htl
  have htlt : t < h.length := r.seg.lt t (by simp)
  rcases List.eq_nil_or_concat xs with rfl | ⟨ys, y, hxs⟩
  · simp at hlen
  · rw [List.concat_eq_append] at hxs
    subst hxs
    have hlen' : js.length = ys.length := by simpa using hlen
    obtain ⟨s1, s2⟩ := (Seg.append hlen').1 r.seg
    obtain ⟨hlt, hy⟩ := List.getElem?_eq_some_iff.1 s2.1
    have hload : h.load l.tail = .ok ⟨y, none, js.getLast?⟩ := by
      simp only [LHeap.load, htl, deref_some, Go.bind_ok, index_lt hlt, hy]
      simp
    unfold LList.popBack at he
    rw [if_neg (by rw [htl]; simp), hload] at he
    simp only [Go.bind_ok] at he
    cases hj : js.getLast? with
    | none => rw [hj] at he; cases he; rfl
    | some j =>
      rw [hj] at he
      have hjm : j ∈ js := List.mem_of_getLast? hj
      have hjt : j ≠ t := by
        have := (List.nodup_append.1 r.nodup).2.2 j hjm t (by simp)
        exact this
      have hjl : j < h.length := r.seg.lt j (by simp [hjm])
      simp only [Option.isSome_some, if_true, LHeap.setNext, deref_some, Go.bind_ok, index_lt hjl] at he
      cases he
      rw [List.getElem?_set_ne hjt]

theorem Shows.next {h : LHeap α} {l : LList} {it : Option Nat} {s : Spec.ListView α} {ids own : List Nat}
    (r : Shows h l it s ids own) :
    ∃ it' own', LIter.next h it = .ok (it', ⟨s.next.2⟩) ∧ Shows h l it' s.next.1 ids own' := by
  obtain ⟨rep, nodup, len, fwd, hit, pos⟩ := r
  obtain ⟨list, ow, ps⟩ := s
  simp only at rep len fwd hit pos
  have hidl := rep.seg.length
  have load : ∀ (i : Nat) is x xs', Fwd h (i :: is) (x :: xs') → LIter.next h (some i) = .ok (is.head?, ⟨some x⟩) := by
    intro i is x xs' hf
    obtain ⟨⟨p, hp⟩, _⟩ := hf
    obtain ⟨hlt, hv⟩ := List.getElem?_eq_some_iff.1 hp
    simp only [LIter.next, Option.isNone_some, Bool.false_eq_true, if_false, LHeap.load, deref_some, Go.bind_ok,
      index_lt hlt, hv, Opt.some]
  cases own with
  | cons i own =>
    cases ow with
    | nil => simp at len
    | cons x ow =>
      refine ⟨(own ++ restIds ps ids).head?, own, ?_, ?_⟩
      · rw [hit]
        exact load i (own ++ restIds ps ids) x _ fwd
      · refine ⟨rep, ?_, Nat.succ.inj len, fwd.2, rfl, pos⟩
        exact (List.nodup_cons.1 nodup).2
  | nil =>
    cases ow with
    | cons x ow => simp at len
    | nil =>
      cases ps with
      | none =>
        refine ⟨none, [], ?_, ⟨rep, nodup, rfl, trivial, rfl, by intro k hk; cases hk⟩⟩
        rw [hit]
        rfl
      | some k =>
        have hk := pos k rfl
        have h1 : ids.drop k = ids[k] :: ids.drop (k + 1) := List.drop_eq_getElem_cons (by omega)
        have h2 : list.drop k = list[k] :: list.drop (k + 1) := List.drop_eq_getElem_cons hk
        have fwd' : Fwd h (ids[k] :: ids.drop (k + 1)) (list[k] :: list.drop (k + 1)) := by
          rw [← h1, ← h2]; exact fwd
        refine ⟨(ids.drop (k + 1)).head?, [], ?_, ?_⟩
        · have : it = some ids[k] := by
            rw [hit]
            show (ids.drop k).head? = _
            rw [h1]
            rfl
          rw [this, load _ _ _ _ fwd']
          simp [Spec.ListView.next, hk]
        · simp only [Spec.ListView.next]
          by_cases hk1 : k + 1 < list.length
          · rw [if_pos hk1]
            refine ⟨rep, nodup, rfl, fwd'.2, rfl, ?_⟩
            intro k' hk'
            cases hk'
            exact hk1
          · rw [if_neg hk1]
            refine ⟨rep, nodup, rfl, trivial, ?_, by intro k hk; cases hk⟩
            rw [List.drop_of_length_le (by omega)]
            rfl

theorem Shows.op {h : LHeap α} {l : LList} {it : Option Nat} {s : Spec.ListView α} {ids own : List Nat}
    (r : Shows h l it s ids own) (hs : s.list.length + 1 < 2 ^ 64) (op : LMOp α) :
    ∃ h' l' ids' own', op.heap h l = .ok (h', l') ∧ Shows h' l' it (s.op op) ids' own' ∧
      (s.op op).list.length ≤ s.list.length + 1 := by
  obtain ⟨rep, nodup, len, fwd, hit, pos⟩ := r
  obtain ⟨list, ow, ps⟩ := s
  simp only at rep len fwd hit pos hs
  have hidl := rep.seg.length
  have hidlt := rep.seg.lt
  have hownlt : ∀ i ∈ own, i < h.length := fun i hi => fwd.lt i (by simp [hi])
  obtain ⟨nd1, nd2, nd3⟩ := List.nodup_append.1 nodup
  have hdisj : ∀ i ∈ own, i ∉ ids := fun i hi hm => nd3 i hi i hm rfl
  cases op with
  | pushFront v =>
    obtain ⟨h', l', e1, e2, e3, e4⟩ := LList.pushFront_eq rep hs v
    refine ⟨h', l', h.length :: ids, own, e1, ⟨e2, ?_, len, ?_, ?_, ?_⟩, by simp [Spec.ListView.op]⟩
    · refine List.nodup_append.2 ⟨nd1, e2.nodup, ?_⟩
      intro a ha b hb he
      subst he
      rcases List.mem_cons.1 hb with rfl | hb
      · exact absurd (hownlt _ ha) (Nat.lt_irrefl _)
      · exact hdisj a ha hb
    · have := fwd.pushFront e1
      cases ps with
      | none => exact this
      | some k => exact this
    · cases ps with
      | none => exact hit
      | some k => exact hit
    · intro k hk
      cases ps with
      | none => cases hk
      | some j =>
        cases hk
        simpa [Spec.ListView.op] using pos j rfl
  | pushBack v =>
    obtain ⟨h', l', e1, e2, e3, e4⟩ := LList.pushBack_eq rep hs v
    have hfr : ∀ i ∈ own, h'[i]? = h[i]? := fun i hi => e4 i (hownlt i hi) (hdisj i hi)
    refine ⟨h', l', ids ++ [h.length], own, e1, ⟨e2, ?_, len, ?_, ?_, ?_⟩, by simp [Spec.ListView.op]⟩
    · refine List.nodup_append.2 ⟨nd1, e2.nodup, ?_⟩
      intro a ha b hb he
      subst he
      rcases List.mem_append.1 hb with hb | hb
      · exact hdisj a ha hb
      · simp only [List.mem_singleton] at hb
        subst hb
        exact absurd (hownlt _ ha) (Nat.lt_irrefl _)
    · cases ps with
      | none => exact Fwd.glue fwd len hfr rfl trivial
      | some k =>
        have hk := pos k rfl
        refine Fwd.glue fwd len hfr ?_ (e2.seg.fwd.drop k)
        show ((ids ++ [h.length]).drop k).head? = (ids.drop k).head?
        rw [List.head?_drop, List.head?_drop, List.getElem?_append_left (by omega)]
    · cases ps with
      | none => exact hit
      | some k =>
        have hk := pos k rfl
        rw [hit]
        show (own ++ ids.drop k).head? = (own ++ (ids ++ [h.length]).drop k).head?
        rw [List.head?_append, List.head?_append, List.head?_drop, List.head?_drop,
          List.getElem?_append_left (by omega)]
    · intro k hk
      have := pos k hk
      simp only [Spec.ListView.op, List.length_append, List.length_singleton]
      omega
  | popFront =>
    obtain ⟨h', l', e1, e2, e3, e4⟩ := LList.popFront_eq rep
    have hop : LMOp.heap .popFront h l = .ok (h', l') := by simp only [LMOp.heap, e1, Go.bind_ok]
    have fwd' := fwd.popFront e1
    have hnt : ∀ a ∈ own, ∀ b ∈ ids.tail, a ≠ b := fun a ha b hb => nd3 a ha b (List.mem_of_mem_tail hb)
    cases ps with
    | none =>
      refine ⟨h', l', ids.tail, own, hop, ⟨e2, ?_, len, fwd', hit, by intro k hk; cases hk⟩, ?_⟩
      · exact List.nodup_append.2 ⟨nd1, e2.nodup, hnt⟩
      · simp only [Spec.ListView.op, List.length_tail]; omega
    | some k =>
      have hk := pos k rfl
      cases k with
      | zero =>
        cases ids with
        | nil => simp only [List.length_nil] at hidl; omega
        | cons i ids =>
          cases list with
          | nil => simp at hk
          | cons x list =>
            refine ⟨h', l', ids, own ++ [i], hop, ?_, by simp [Spec.ListView.op]; omega⟩
            have hnd' : (own ++ [i] ++ ids).Nodup := by simpa using nodup
            simp only [Spec.ListView.op]
            by_cases hl1 : (x :: list).length ≤ 1
            · rw [if_pos hl1]
              have hln : list = [] := by
                cases list with
                | nil => rfl
                | cons a b => simp at hl1
              subst hln
              have hin : ids = [] := by simpa using hidl
              subst hin
              exact ⟨e2, hnd', by simp [len], by simpa [restIds] using fwd', by rw [hit]; simp [restIds],
                by intro k hk; cases hk⟩
            · rw [if_neg hl1]
              refine ⟨e2, hnd', by simp [len], ?_, ?_, ?_⟩
              · simpa [restIds] using fwd'
              · rw [hit]; simp [restIds]
              · intro k hk
                cases hk
                simp only [List.tail_cons]
                simp only [List.length_cons] at hl1
                omega
      | succ k =>
        refine ⟨h', l', ids.tail, own, hop, ⟨e2, ?_, len, ?_, ?_, ?_⟩, ?_⟩
        · exact List.nodup_append.2 ⟨nd1, e2.nodup, hnt⟩
        · simpa [restIds, Spec.ListView.op, List.drop_tail] using fwd'
        · rw [hit]; simp [restIds, Spec.ListView.op, List.drop_tail]
        · intro j hj
          cases hj
          simp only [Spec.ListView.op, List.length_tail]
          omega
        · simp only [Spec.ListView.op, List.length_tail]; omega
  | popBack =>
    obtain ⟨h', l', e1, e2, e3, e4⟩ := LList.popBack_eq rep
    have hop : LMOp.heap .popBack h l = .ok (h', l') := by simp only [LMOp.heap, e1, Go.bind_ok]
    have hfr : ∀ i ∈ own, h'[i]? = h[i]? := fun i hi => e4 i (hdisj i hi)
    have hnt : ∀ a ∈ own, ∀ b ∈ ids.dropLast, a ≠ b := fun a ha b hb => nd3 a ha b (List.dropLast_subset _ hb)
    cases ps with
    | none =>
      refine ⟨h', l', ids.dropLast, own, hop, ⟨e2, ?_, len, ?_, hit, by intro k hk; cases hk⟩, ?_⟩
      · exact List.nodup_append.2 ⟨nd1, e2.nodup, hnt⟩
      · exact Fwd.glue fwd len hfr rfl trivial
      · simp only [Spec.ListView.op, List.length_dropLast]; omega
    | some k =>
      have hk := pos k rfl
      simp only [Spec.ListView.op]
      by_cases hlast : k + 1 = list.length
      · rw [if_pos hlast]
        have h1 : ids.drop k = [ids[k]] := by
          rw [List.drop_eq_getElem_cons (by omega), List.drop_of_length_le (by omega)]
        have h2 : list.drop k = [list[k]] := by
          rw [List.drop_eq_getElem_cons hk, List.drop_of_length_le (by omega)]
        have hids : ids.dropLast ++ [ids[k]] = ids := by
          have := List.take_append_drop k ids
          rw [h1] at this
          rw [List.dropLast_eq_take, show ids.length - 1 = k by omega]
          exact this
        have hgl : ids.getLast? = some ids[k] := by
          rw [List.getLast?_eq_getElem?, show ids.length - 1 = k by omega, List.getElem?_eq_getElem (by omega)]
        have hlt := popBack_last rep e1 _ hgl
        refine ⟨h', l', ids.dropLast, own ++ [ids[k]], hop, ⟨e2, ?_, ?_, ?_, ?_, by intro k hk; cases hk⟩, ?_⟩
        · have : (own ++ (ids.dropLast ++ [ids[k]])).Nodup := by rw [hids]; exact nodup
          refine (List.Perm.nodup_iff ?_).1 this
          rw [List.append_assoc]
          exact List.Perm.append_left _ List.perm_append_comm
        · simp [len, h2]
        · have f0 : Fwd h (own ++ [ids[k]]) (ow ++ [list[k]]) := by
            have := fwd
            simp only [restIds, Option.map_some, Option.getD_some, h1, h2] at this
            exact this
          simp only [restIds, Option.map_none, Option.getD_none, List.append_nil, h2]
          refine f0.frame ?_
          intro i hi
          rcases List.mem_append.1 hi with hi | hi
          · exact hfr i hi
          · simp only [List.mem_singleton] at hi
            rw [hi]
            exact hlt
        · rw [hit]
          simp [restIds, h1]
        · simp only [List.length_dropLast]; omega
      · rw [if_neg hlast]
        have hdk : (ids.dropLast.drop k).head? = (ids.drop k).head? := by
          rw [List.head?_drop, List.head?_drop, List.getElem?_dropLast, if_pos (by omega)]
        refine ⟨h', l', ids.dropLast, own, hop, ⟨e2, ?_, len, ?_, ?_, ?_⟩, ?_⟩
        · exact List.nodup_append.2 ⟨nd1, e2.nodup, hnt⟩
        · exact Fwd.glue fwd len hfr hdk (e2.seg.fwd.drop k)
        · rw [hit]
          show (own ++ ids.drop k).head? = (own ++ ids.dropLast.drop k).head?
          rw [List.head?_append, List.head?_append, hdk]
        · intro j hj
          cases hj
          simp only [List.length_dropLast]
          omega
        · simp only [List.length_dropLast]; omega
  | clear =>
    have rnil : Rep h l.clear [] ([] : List α) := ⟨trivial, List.nodup_nil, rfl, rfl, rfl, by simp⟩
    cases ps with
    | none =>
      exact ⟨h, _, [], own, rfl, ⟨rnil, by simpa using nd1, len, fwd, hit, by intro k hk; cases hk⟩,
        by simp [Spec.ListView.op]⟩
    | some k =>
      have hk := pos k rfl
      refine ⟨h, _, [], own ++ ids.drop k, rfl, ⟨rnil, ?_, ?_, ?_, ?_, by intro k hk; cases hk⟩,
        by simp [Spec.ListView.op]⟩
      · rw [List.append_nil]
        exact nodup.sublist (List.Sublist.append_left (List.drop_sublist k ids) own)
      · simp [Spec.ListView.op, len, hidl]
      · simpa [Spec.ListView.op, restIds] using fwd
      · rw [hit]; simp [Spec.ListView.op, restIds]

/-- C138: exactly what a list iterator gives.  Under every history of PushFront, PushBack, PopFront, PopBack and Clear on the
list, mixed with calls of Next, no call panics, and the results of Next and the final list are those of
`Spec.ListView`: the iterator sees what is pushed at the back while it has something left to give from the list, keeps
the elements that leave the list before it gets to them when they are its next ones, and loses the others that PopBack
takes off. -/
theorem C138_list_view (es : List (Option (LMOp α))) (h : LHeap α) (l : LList) (ids : List Nat) (xs : List α)
    (r : Rep h l ids xs) (hs : xs.length + es.length < 2 ^ 64) :
    ∃ h' l' it' ids', runListIter es h l l.intoIter =
        .ok ((Spec.ListView.run es (.start xs)).1, h', l', it') ∧
      Rep h' l' ids' (Spec.ListView.run es (.start xs)).2.list := by
  have key : ∀ (es : List (Option (LMOp α))) h l it (s : Spec.ListView α) ids own, Shows h l it s ids own →
      s.list.length + es.length < 2 ^ 64 →
      ∃ h' l' it' ids', runListIter es h l it = .ok ((Spec.ListView.run es s).1, h', l', it') ∧
        Rep h' l' ids' (Spec.ListView.run es s).2.list := by
    intro es
    induction es with
    | nil => intro h l it s ids own r _; exact ⟨h, l, it, ids, rfl, r.rep⟩
    | cons e es ih =>
      intro h l it s ids own r hs
      cases e with
      | none =>
        obtain ⟨it1, own1, e1, r1⟩ := r.next
        have hl1 : s.next.1.list = s.list := by
          unfold Spec.ListView.next
          split <;> rfl
        obtain ⟨h', l', it', ids', e2, r2⟩ := ih h l it1 s.next.1 ids own1 r1
          (by rw [hl1]; simp only [List.length_cons] at hs; omega)
        refine ⟨h', l', it', ids', ?_, r2⟩
        simp only [runListIter]
        rw [e1]
        simp only [Go.bind_ok]
        rw [e2]
        rfl
      | some op =>
        simp only [List.length_cons] at hs
        obtain ⟨h1, l1, ids1, own1, e1, r1, hle⟩ := r.op (by omega) op
        obtain ⟨h', l', it', ids', e2, r2⟩ := ih h1 l1 it (s.op op) ids1 own1 r1 (by omega)
        refine ⟨h', l', it', ids', ?_, r2⟩
        simp only [runListIter]
        rw [e1]
        simp only [Go.bind_ok]
        exact e2
  refine key es h l l.intoIter (.start xs) ids [] ?_ hs
  have hlen := r.seg.length
  unfold Spec.ListView.start
  cases xs with
  | nil =>
    have : ids = [] := by simpa using hlen
    subst this
    exact ⟨r, List.nodup_nil, rfl, trivial, r.head, by intro k hk; cases hk⟩
  | cons x xs =>
    refine ⟨r, by simpa using r.nodup, rfl, r.seg.fwd, r.head, ?_⟩
    intro k hk
    cases hk
    simp

/-- The specification on a history that has all the cases. -/
example : Spec.ListView.run [none, some (.pushBack 4), some .popFront, some .popFront, none, some (.pushFront 9), some .popBack,
      some .popBack, some (.pushBack 8), none, none] (.start [1, 2, 3]) =
    ([some 1, some 2, some 3, none], ⟨[9, 8], [], none⟩) := rfl
example : (runListIter [none, some (.pushBack 4), some .popFront, some .popFront, none, some (.pushFront 9), some .popBack,
      some .popBack, some (.pushBack 8), none, none] [⟨1, some 1, none⟩, ⟨2, some 2, some 0⟩, ⟨3, none, some 1⟩]
      ⟨some 0, some 2, 3⟩ (some 0)).toOption.map (·.1) = some [some 1, some 2, some 3, (none : Option Nat)] := by decide

/-- Histories that a list iterator does not notice: PushFront and PopFront, and everything after a Clear. -/
def Spec.listQuiet : List (Option (LMOp α)) → Bool
  | [] => true
  | none :: es => listQuiet es
  | some (.pushFront _) :: es => listQuiet es
  | some .popFront :: es => listQuiet es
  | some .clear :: _ => true
  | some _ :: _ => false

/-- What the iterator of a view has left. -/
def Spec.ListView.rest (s : ListView α) : List α := s.own ++ (s.pos.map fun k => s.list.drop k).getD []

theorem ListView.next_rest (s : Spec.ListView α) (hp : ∀ k, s.pos = some k → k < s.list.length) :
    s.next.2 = s.rest.head? ∧ s.next.1.rest = s.rest.tail ∧ (∀ k, s.next.1.pos = some k → k < s.next.1.list.length) ∧
      (s.pos = none → s.next.1.pos = none) := by
  obtain ⟨list, own, pos⟩ := s
  simp only at hp
  cases own with
  | cons x own =>
    cases pos with
    | none => exact ⟨rfl, rfl, hp, fun _ => rfl⟩
    | some k => exact ⟨rfl, rfl, hp, fun h => h⟩
  | nil =>
    cases pos with
    | none => exact ⟨rfl, rfl, hp, fun _ => rfl⟩
    | some k =>
      have hk := hp k rfl
      have h2 : list.drop k = list[k] :: list.drop (k + 1) := List.drop_eq_getElem_cons hk
      refine ⟨?_, ?_, ?_, fun h => by cases h⟩
      · simp [Spec.ListView.next, Spec.ListView.rest, hk]
      · simp only [Spec.ListView.next, Spec.ListView.rest, List.nil_append, Option.map_some, Option.getD_some, h2,
          List.tail_cons]
        by_cases hk1 : k + 1 < list.length
        · rw [if_pos hk1]; rfl
        · rw [if_neg hk1, List.drop_of_length_le (by omega)]; rfl
      · simp only [Spec.ListView.next]
        intro j hj
        by_cases hk1 : k + 1 < list.length
        · rw [if_pos hk1] at hj; cases hj; exact hk1
        · rw [if_neg hk1] at hj; cases hj

theorem ListView.op_gone (s : Spec.ListView α) (op : LMOp α) (hn : s.pos = none) :
    (s.op op).rest = s.rest ∧ (s.op op).pos = none := by
  obtain ⟨list, own, pos⟩ := s
  simp only at hn
  subst hn
  cases op <;> exact ⟨rfl, rfl⟩

theorem yields_cons (x : Option α) (l t : List α) (k : Nat) (hx : x = l.head?) (ht : t = l.tail) :
    x :: Spec.yields t k = Spec.yields l (k + 1) := by
  subst hx ht
  unfold Spec.yields
  rw [List.range_succ_eq_map, List.map_cons, List.map_map]
  congr 1
  · cases l <;> rfl
  · apply List.map_congr_left
    intro i _
    cases l <;> simp

theorem ListView.run_gone (es : List (Option (LMOp α))) (s : Spec.ListView α) (hn : s.pos = none) :
    (Spec.ListView.run es s).1 = Spec.yields s.rest (es.countP (·.isNone)) := by
  induction es generalizing s with
  | nil => rfl
  | cons e es ih =>
    cases e with
    | none =>
      obtain ⟨a, b, _, d⟩ := ListView.next_rest s (by rw [hn]; intro k hk; cases hk)
      simp only [Spec.ListView.run, List.countP_cons, Option.isNone_none, if_true]
      rw [ih s.next.1 (d hn)]
      exact yields_cons _ _ _ _ a b
    | some op =>
      obtain ⟨a, b⟩ := ListView.op_gone s op hn
      simp only [Spec.ListView.run]
      rw [ih _ b, a]
      simp

theorem ListView.run_quiet (es : List (Option (LMOp α))) (s : Spec.ListView α)
    (hp : ∀ k, s.pos = some k → k < s.list.length) (hq : Spec.listQuiet es = true) :
    (Spec.ListView.run es s).1 = Spec.yields s.rest (es.countP (·.isNone)) := by
  induction es generalizing s with
  | nil => rfl
  | cons e es ih =>
    cases e with
    | none =>
      obtain ⟨a, b, c, _⟩ := ListView.next_rest s hp
      simp only [Spec.ListView.run, List.countP_cons, Option.isNone_none, if_true]
      rw [ih s.next.1 c (by simpa [Spec.listQuiet] using hq)]
      exact yields_cons _ _ _ _ a b
    | some op =>
      obtain ⟨list, own, pos⟩ := s
      simp only at hp
      simp only [Spec.ListView.run]
      have hc : (some op :: es).countP (·.isNone) = es.countP (·.isNone) := by simp
      rw [hc]
      cases op with
      | pushFront v =>
        rw [ih _ ?_ (by simpa [Spec.listQuiet] using hq)]
        · cases pos <;> rfl
        · intro k hk
          cases pos with
          | none => cases hk
          | some j =>
            cases hk
            simpa [Spec.ListView.op] using hp j rfl
      | popFront =>
        have hq' : Spec.listQuiet es = true := by simpa [Spec.listQuiet] using hq
        cases pos with
        | none => exact ih ⟨list.tail, own, none⟩ (by intro k hk; cases hk) hq'
        | some k =>
          have hk := hp k rfl
          cases k with
          | succ k =>
            have := ih ⟨list.tail, own, some k⟩ (by
              intro j hj; cases hj
              simp only [List.length_tail]; omega) hq'
            simpa [Spec.ListView.rest, Spec.ListView.op, List.drop_tail] using this
          | zero =>
            cases list with
            | nil => simp at hk
            | cons x list =>
              simp only [Spec.ListView.op]
              by_cases hl : (x :: list).length ≤ 1
              · rw [if_pos hl]
                have : list = [] := by
                  cases list with
                  | nil => rfl
                  | cons a b => simp at hl
                subst this
                have := ih ⟨[], own ++ [x], none⟩ (by intro k hk; cases hk) hq'
                simpa [Spec.ListView.rest] using this
              · rw [if_neg hl]
                have := ih ⟨list, own ++ [x], some 0⟩ (by
                  intro j hj; cases hj
                  simp only [List.length_cons] at hl ⊢; omega) hq'
                simpa [Spec.ListView.rest] using this
      | clear =>
        cases pos with
        | none => exact ListView.run_gone es ⟨[], own, none⟩ rfl
        | some k =>
          have := ListView.run_gone es ⟨[], own ++ list.drop k, none⟩ rfl
          simpa [Spec.ListView.rest, Spec.ListView.op] using this
      | pushBack v => simp [Spec.listQuiet] at hq
      | popBack => simp [Spec.listQuiet] at hq

theorem ListView.start_rest (xs : List α) : (Spec.ListView.start xs).rest = xs ∧
    ∀ k, (Spec.ListView.start xs).pos = some k → k < (Spec.ListView.start xs).list.length := by
  cases xs with
  | nil => exact ⟨rfl, by intro k hk; cases hk⟩
  | cons x xs => exact ⟨rfl, by intro k hk; cases hk; simp [Spec.ListView.start]⟩

/-- C138, full property: an iterator gives the elements the list had when the iterator was taken, whatever is done to the list
in between.  Proved for histories of PushFront, PopFront and, after a Clear, all operations.  Missing: PushBack and
PopBack, see `C138_list_fails`; `C138_list_view` says what the iterator gives then. -/
theorem C138_list_partial (es : List (Option (LMOp α))) (h : LHeap α) (l : LList) (ids : List Nat) (xs : List α)
    (r : Rep h l ids xs) (hs : xs.length + es.length < 2 ^ 64) (hq : Spec.listQuiet es = true) :
    ∃ z, runListIter es h l l.intoIter = .ok (Spec.yields xs (es.countP (·.isNone)), z) := by
  obtain ⟨h', l', it', ids', e, _⟩ := C138_list_view es h l ids xs r hs
  obtain ⟨a, b⟩ := ListView.start_rest xs
  rw [ListView.run_quiet es _ b hq, a] at e
  exact ⟨_, e⟩

/-- `k` rounds of a loop that pushes `v` at the back for every element it reads. -/
def pushLoop (v : α) : Nat → List (Option (LMOp α))
  | 0 => []
  | k + 1 => none :: some (.pushBack v) :: pushLoop v k

/-- C138 is violated by every list of two or more elements: a loop that pushes at the back for every element it reads never
ends (every call of Next gives an element, however many there are), and an iterator taken before PopBack does not
give the last element. -/
theorem C138_list_fails (h : LHeap α) (l : LList) (ids : List Nat) (xs : List α) (r : Rep h l ids xs)
    (hx : 2 ≤ xs.length) (v : α) (k n : Nat) (hs : xs.length + 2 * k + n + 1 < 2 ^ 64) :
    (∃ rs z, runListIter (pushLoop v k) h l l.intoIter = .ok (rs, z) ∧ rs.length = k ∧ ∀ o ∈ rs, o.isSome = true) ∧
    ∃ z, runListIter (some .popBack :: List.replicate n none) h l l.intoIter =
      .ok (Spec.yields xs.dropLast n, z) := by
  have hpl : ∀ k, (pushLoop v k).length = 2 * k := by
    intro k
    induction k with
    | zero => rfl
    | succ k ih => simp only [pushLoop, List.length_cons, ih]; omega
  constructor
  · obtain ⟨h', l', it', ids', e, _⟩ := C138_list_view (pushLoop v k) h l ids xs r (by rw [hpl]; omega)
    refine ⟨_, _, e, ?_⟩
    have key : ∀ k (s : Spec.ListView α) j, s.own = [] → s.pos = some j → j + 1 < s.list.length →
        (Spec.ListView.run (pushLoop v k) s).1.length = k ∧
        ∀ o ∈ (Spec.ListView.run (pushLoop v k) s).1, o.isSome = true := by
      intro k
      induction k with
      | zero => intro s j _ _ _; exact ⟨rfl, by simp [pushLoop, Spec.ListView.run]⟩
      | succ k ih =>
        intro s j h1 h2 h3
        obtain ⟨list, own, pos⟩ := s
        simp only at h1 h2 h3
        subst h1 h2
        obtain ⟨a, b⟩ := ih ⟨list ++ [v], [], some (j + 1)⟩ (j + 1) rfl rfl (by simp; omega)
        have e : Spec.ListView.run (pushLoop v (k + 1)) ⟨list, [], some j⟩ =
            (list[j]? :: (Spec.ListView.run (pushLoop v k) ⟨list ++ [v], [], some (j + 1)⟩).1,
              (Spec.ListView.run (pushLoop v k) ⟨list ++ [v], [], some (j + 1)⟩).2) := by
          simp only [pushLoop, Spec.ListView.run, Spec.ListView.next]
          rw [if_pos h3]
          rfl
        rw [e]
        refine ⟨by simp [a], ?_⟩
        intro o ho
        rcases List.mem_cons.1 ho with rfl | ho
        · rw [List.getElem?_eq_getElem (by omega)]; rfl
        · exact b o ho
    refine key k (.start xs) 0 rfl ?_ ?_
    · unfold Spec.ListView.start
      rw [if_neg (by intro hc; subst hc; simp at hx)]
    · show 0 + 1 < xs.length
      omega
  · obtain ⟨h', l', it', ids', e, _⟩ := C138_list_view (some .popBack :: List.replicate n none) h l ids xs r (by simp; omega)
    suffices hsuf : (Spec.ListView.run (some .popBack :: List.replicate n none) (.start xs)).1 = Spec.yields xs.dropLast n by
      rw [hsuf] at e
      exact ⟨_, e⟩
    have hpos : (Spec.ListView.start xs).pos = some 0 := by
      unfold Spec.ListView.start
      rw [if_neg (by intro hc; subst hc; simp at hx)]
    have hq : ∀ n, Spec.listQuiet (List.replicate n (none : Option (LMOp α))) = true := by
      intro n
      induction n with
      | zero => rfl
      | succ n ih => simpa [List.replicate_succ, Spec.listQuiet] using ih
    have e2 : (Spec.ListView.start xs).op .popBack = ⟨xs.dropLast, [], some 0⟩ := by
      simp only [Spec.ListView.op, hpos]
      rw [if_neg (by show ¬ 0 + 1 = xs.length; omega)]
      rfl
    have := ListView.run_quiet (List.replicate n none) (⟨xs.dropLast, [], some 0⟩ : Spec.ListView α) (by
      intro j hj; cases hj
      simp only [List.length_dropLast]; omega) (hq n)
    show (Spec.ListView.run (List.replicate n none) ((Spec.ListView.start xs).op .popBack)).1 = _
    rw [e2, this]
    simp [Spec.ListView.rest, List.countP_replicate]

example : (runListIter (pushLoop 7 5) [⟨1, some 1, none⟩, ⟨2, none, some 0⟩] ⟨some 0, some 1, 2⟩ (some 0)).toOption.map (·.1) =
    some [some 1, some 2, some 7, some 7, some 7] := by decide

end Gost
