import Verif.Lemmas.LinkedList
/-
Properties C63 - C65: doubly linked lists.
-/
set_option linter.unusedSectionVars false
namespace Gost
open Spec

variable {σ α : Type}

theorem Opt.isNone_iff (o : Opt α) : o.isNone = true ↔ o.value = Option.none := by
  unfold Opt.isNone
  cases o.value <;> simp

/-! ### C63, C64: any number of lists that share one heap -/

/-- Operations; `k`, `i`, `j` number the list variables of the program.  `front`/`back` read through the
returned pointer, `setFront`/`setBack` write through it (`*list.Front().Unwrap() = v`). -/
inductive LOp (α : Type) where
  | pushFront (k : Nat) (v : α) | pushBack (k : Nat) (v : α) | popFront (k : Nat) | popBack (k : Nat)
  | front (k : Nat) | back (k : Nat) | setFront (k : Nat) (v : α) | setBack (k : Nat) (v : α)
  | append (i j : Nat) | clear (k : Nat) | len (k : Nat) | isEmpty (k : Nat)

/-- Specification: independent mathematical lists.  `none` = outside the domain: no such variable, append of
a list to itself, or writing to the front of an empty list. -/
def Spec.listStep : LOp α → List (List α) → Option (List (List α) × Obs α)
  | .pushFront k v, s => s[k]?.map fun l => (s.set k (v :: l), .unit)
  | .pushBack k v, s => s[k]?.map fun l => (s.set k (l ++ [v]), .unit)
  | .popFront k, s => s[k]?.map fun l => (s.set k l.tail, .opt l.head?)
  | .popBack k, s => s[k]?.map fun l => (s.set k l.dropLast, .opt l.getLast?)
  | .front k, s => s[k]?.map fun l => (s, .opt l.head?)
  | .back k, s => s[k]?.map fun l => (s, .opt l.getLast?)
  | .setFront k v, s => match s[k]? with
    | some (_ :: l) => some (s.set k (v :: l), .unit)
    | _ => none
  | .setBack k v, s => match s[k]? with
    | some (x :: l) => some (s.set k ((x :: l).dropLast ++ [v]), .unit)
    | _ => none
  | .append i j, s => if i = j then none else match s[i]?, s[j]? with
    | some l, some m => some ((s.set i (l ++ m)).set j [], .unit)
    | _, _ => none
  | .clear k, s => s[k]?.map fun _ => (s.set k [], .unit)
  | .len k, s => s[k]?.map fun l => (s, .nat l.length)
  | .isEmpty k, s => s[k]?.map fun l => (s, .bool l.isEmpty)

/-- The heap and the list variables of a program. -/
structure LProg (α : Type) where
  heap : LHeap α
  vars : List LList
  deriving DecidableEq, Repr

/-- Read the value behind an optional pointer, as the result of Front or Back. -/
def LProg.read (h : LHeap α) (p : Opt Nat) : Go (Option α) :=
  if p.isNone then .ok none
  else do
    let n ← h.load p.value
    .ok (some n.value)

/-- The library's implementation of the operations. -/
def LProg.step : LOp α → LProg α → Go (LProg α × Obs α)
  | .pushFront k v, s => do
    let l ← index s.vars k
    let (h, l) ← l.pushFront s.heap v
    .ok (⟨h, s.vars.set k l⟩, .unit)
  | .pushBack k v, s => do
    let l ← index s.vars k
    let (h, l) ← l.pushBack s.heap v
    .ok (⟨h, s.vars.set k l⟩, .unit)
  | .popFront k, s => do
    let l ← index s.vars k
    let (h, l, r) ← l.popFront s.heap
    .ok (⟨h, s.vars.set k l⟩, .opt r.value)
  | .popBack k, s => do
    let l ← index s.vars k
    let (h, l, r) ← l.popBack s.heap
    .ok (⟨h, s.vars.set k l⟩, .opt r.value)
  | .front k, s => do
    let l ← index s.vars k
    let r ← LProg.read s.heap l.front
    .ok (s, .opt r)
  | .back k, s => do
    let l ← index s.vars k
    let r ← LProg.read s.heap l.back
    .ok (s, .opt r)
  | .setFront k v, s => do
    let l ← index s.vars k
    let h ← s.heap.setValue l.front.value v
    .ok (⟨h, s.vars⟩, .unit)
  | .setBack k v, s => do
    let l ← index s.vars k
    let h ← s.heap.setValue l.back.value v
    .ok (⟨h, s.vars⟩, .unit)
  | .append i j, s => do
    let l ← index s.vars i
    let o ← index s.vars j
    let (h, l, o) ← l.append s.heap o
    .ok (⟨h, (s.vars.set i l).set j o⟩, .unit)
  | .clear k, s => do
    let l ← index s.vars k
    .ok (⟨s.heap, s.vars.set k l.clear⟩, .unit)
  | .len k, s => do
    let l ← index s.vars k
    .ok (s, .nat l.len)
  | .isEmpty k, s => do
    let l ← index s.vars k
    .ok (s, .bool l.isEmpty)

/-- The program state represents independent lists: every variable holds its list, and no node belongs to
two variables. -/
def LProg.Holds (s : LProg α) (xss : List (List α)) : Prop :=
  s.vars.length = xss.length ∧ ∃ ids : Nat → List Nat,
    (∀ k l xs, s.vars[k]? = some l → xss[k]? = some xs → Rep s.heap l (ids k) xs) ∧
    ∀ k m, k ≠ m → k < s.vars.length → m < s.vars.length → ∀ i ∈ ids k, i ∉ ids m

theorem nodup_bounded (n : Nat) (l : List Nat) (hn : l.Nodup) (hl : ∀ i ∈ l, i < n) : l.length ≤ n := by
  induction n generalizing l with
  | zero =>
    cases l with
    | nil => simp
    | cons a t => have := hl a (by simp); omega
  | succ n ih =>
    by_cases hm : n ∈ l
    · have := ih (l.erase n) (hn.erase n) (by
        intro i hi
        have h1 := hl i (List.mem_of_mem_erase hi)
        have h2 : i ≠ n := fun e => by
          rw [e] at hi
          exact (List.Nodup.mem_erase_iff hn).1 hi |>.1 rfl
        omega)
      rw [List.length_erase_of_mem hm] at this
      omega
    · have := ih l hn (by
        intro i hi
        have h1 := hl i hi
        have h2 : i ≠ n := fun e => hm (e ▸ hi)
        omega)
      omega

theorem Rep.length_le {h : LHeap α} {l : LList} {ids : List Nat} {xs : List α} (r : Rep h l ids xs) :
    xs.length ≤ h.length := by
  rw [← r.seg.length]
  exact nodup_bounded _ _ r.nodup r.seg.lt

/-- One variable changes; it may take new nodes from the end of the heap. -/
theorem LProg.Holds.update {s : LProg α} {xss : List (List α)} {ids : Nat → List Nat}
    (hl : s.vars.length = xss.length)
    (hr : ∀ k l xs, s.vars[k]? = some l → xss[k]? = some xs → Rep s.heap l (ids k) xs)
    (hd : ∀ k m, k ≠ m → k < s.vars.length → m < s.vars.length → ∀ i ∈ ids k, i ∉ ids m)
    (k : Nat) (hk : k < s.vars.length) (h' : LHeap α) (l' : LList) (ids' : List Nat) (xs' : List α)
    (r' : Rep h' l' ids' xs') (hsub : ∀ i ∈ ids', i ∈ ids k ∨ s.heap.length ≤ i)
    (hf : ∀ i, i < s.heap.length → i ∉ ids k → h'[i]? = s.heap[i]?) :
    LProg.Holds ⟨h', s.vars.set k l'⟩ (xss.set k xs') := by
  refine ⟨by simpa using hl, fun m => if m = k then ids' else ids m, ?_, ?_⟩
  · intro m l xs hm hx
    simp only [List.getElem?_set] at hm hx
    by_cases e : m = k
    · subst e
      rw [if_pos rfl, if_pos (by omega)] at hm hx
      cases hm; cases hx
      simp only [if_pos]
      exact r'
    · rw [if_neg (Ne.symm e)] at hm hx
      simp only [if_neg e]
      have r := hr m l xs hm hx
      refine r.frame fun i hi => hf i (r.seg.lt i hi) ?_
      exact hd m k e (List.getElem?_eq_some_iff.1 hm).1 hk i hi
  · have hlt : ∀ m, m < s.vars.length → ∀ i ∈ ids m, i < s.heap.length := by
      intro m hm i hi
      have hm' : m < xss.length := by omega
      exact (hr m _ _ (List.getElem?_eq_getElem hm) (List.getElem?_eq_getElem hm')).seg.lt i hi
    intro a b hab ha hb i hi
    simp only [List.length_set] at ha hb
    simp only at hi ⊢
    by_cases ea : a = k
    · rw [if_pos ea] at hi
      rw [if_neg (by omega)]
      intro hm
      rcases hsub i hi with hx | hx
      · exact hd k b (by omega) hk hb i hx hm
      · have := hlt b hb i hm; omega
    · rw [if_neg ea] at hi
      by_cases eb : b = k
      · rw [if_pos eb]
        intro hm
        rcases hsub i hm with hx | hx
        · exact hd a k ea ha hk i hi hx
        · have := hlt a ha i hi; omega
      · rw [if_neg eb]
        exact hd a b hab ha hb i hi

theorem LProg.step_refines (o : LOp α) (s : LProg α) (xss : List (List α)) (hs : s.Holds xss)
    (hsmall : s.heap.length + 1 < 2 ^ 64) (xss' : List (List α)) (r : Obs α)
    (hstep : Spec.listStep o xss = some (xss', r)) :
    ∃ s', LProg.step o s = .ok (s', r) ∧ s'.Holds xss' ∧ s'.heap.length ≤ s.heap.length + 1 := by
  obtain ⟨hl, ids, hr, hd⟩ := id hs
  have get : ∀ k xs, xss[k]? = some xs → ∃ l, s.vars[k]? = some l ∧ index s.vars k = .ok l ∧
      k < s.vars.length ∧ Rep s.heap l (ids k) xs := by
    intro k xs hx
    have hk := (List.getElem?_eq_some_iff.1 hx).1
    have hk' : k < s.vars.length := by omega
    exact ⟨_, List.getElem?_eq_getElem hk', index_lt hk', hk', hr k _ _ (List.getElem?_eq_getElem hk') hx⟩
  have hfr : ∀ {is : List Nat} {h' : LHeap α}, (∀ i, i ∉ is → h'[i]? = s.heap[i]?) →
      ∀ i, i < s.heap.length → i ∉ is → h'[i]? = s.heap[i]? := fun h i _ hi => h i hi
  cases o with
  | pushFront k v =>
    simp only [Spec.listStep, Option.map_eq_some_iff, Prod.mk.injEq] at hstep
    obtain ⟨xs, hx, rfl, rfl⟩ := hstep
    obtain ⟨l, hv, hi, hk, rep⟩ := get k xs hx
    obtain ⟨h', l', e1, e2, e3, e4⟩ := LList.pushFront_eq rep (by have := rep.length_le; omega) v
    refine ⟨⟨h', s.vars.set k l'⟩, by simp [LProg.step, hi, e1], ?_, by simp only; omega⟩
    refine LProg.Holds.update hl hr hd k hk h' l' _ _ e2 ?_ e4
    intro i hi
    rcases List.mem_cons.1 hi with rfl | hi
    · exact .inr (Nat.le_refl _)
    · exact .inl hi
  | pushBack k v =>
    simp only [Spec.listStep, Option.map_eq_some_iff, Prod.mk.injEq] at hstep
    obtain ⟨xs, hx, rfl, rfl⟩ := hstep
    obtain ⟨l, hv, hi, hk, rep⟩ := get k xs hx
    obtain ⟨h', l', e1, e2, e3, e4⟩ := LList.pushBack_eq rep (by have := rep.length_le; omega) v
    refine ⟨⟨h', s.vars.set k l'⟩, by simp [LProg.step, hi, e1], ?_, by simp only; omega⟩
    refine LProg.Holds.update hl hr hd k hk h' l' _ _ e2 ?_ e4
    intro i hi
    rcases List.mem_append.1 hi with hi | hi
    · exact .inl hi
    · simp at hi; exact .inr (by omega)
  | popFront k =>
    simp only [Spec.listStep, Option.map_eq_some_iff, Prod.mk.injEq] at hstep
    obtain ⟨xs, hx, rfl, rfl⟩ := hstep
    obtain ⟨l, hv, hi, hk, rep⟩ := get k xs hx
    obtain ⟨h', l', e1, e2, e3, e4⟩ := LList.popFront_eq rep
    refine ⟨⟨h', s.vars.set k l'⟩, by simp [LProg.step, hi, e1], ?_, by simp only; omega⟩
    exact LProg.Holds.update hl hr hd k hk h' l' _ _ e2 (fun i hi => .inl (List.mem_of_mem_tail hi)) (hfr e4)
  | popBack k =>
    simp only [Spec.listStep, Option.map_eq_some_iff, Prod.mk.injEq] at hstep
    obtain ⟨xs, hx, rfl, rfl⟩ := hstep
    obtain ⟨l, hv, hi, hk, rep⟩ := get k xs hx
    obtain ⟨h', l', e1, e2, e3, e4⟩ := LList.popBack_eq rep
    refine ⟨⟨h', s.vars.set k l'⟩, by simp [LProg.step, hi, e1], ?_, by simp only; omega⟩
    exact LProg.Holds.update hl hr hd k hk h' l' _ _ e2 (fun i hi => .inl (List.dropLast_subset _ hi)) (hfr e4)
  | front k =>
    simp only [Spec.listStep, Option.map_eq_some_iff, Prod.mk.injEq] at hstep
    obtain ⟨xs, hx, rfl, rfl⟩ := hstep
    obtain ⟨l, hv, hi, hk, rep⟩ := get k xs hx
    refine ⟨s, ?_, hs, by omega⟩
    obtain ⟨e1, e2⟩ := LList.front_eq rep
    simp only [LProg.step, hi, Go.bind_ok, LProg.read]
    cases xs with
    | nil =>
      rw [if_pos ((Opt.isNone_iff _).2 (by simpa using e1))]
      rfl
    | cons x t =>
      obtain ⟨n, e3, e4⟩ := (e2 x t rfl).1
      rw [if_neg (fun hc => by rw [(Opt.isNone_iff _).1 hc] at e1; simp at e1), e3]
      simp [e4]
  | back k =>
    simp only [Spec.listStep, Option.map_eq_some_iff, Prod.mk.injEq] at hstep
    obtain ⟨xs, hx, rfl, rfl⟩ := hstep
    obtain ⟨l, hv, hi, hk, rep⟩ := get k xs hx
    refine ⟨s, ?_, hs, by omega⟩
    obtain ⟨e1, e2⟩ := LList.back_eq rep
    simp only [LProg.step, hi, Go.bind_ok, LProg.read]
    rcases List.eq_nil_or_concat xs with rfl | ⟨t, x, hxs⟩
    · rw [if_pos ((Opt.isNone_iff _).2 (by simpa using e1))]
      rfl
    · rw [List.concat_eq_append] at hxs
      subst hxs
      obtain ⟨n, e3, e4⟩ := (e2 x t rfl).1
      rw [if_neg (fun hc => by rw [(Opt.isNone_iff _).1 hc] at e1; simp at e1), e3]
      simp [e4]
  | setFront k v =>
    simp only [Spec.listStep] at hstep
    cases hx : xss[k]? with
    | none => rw [hx] at hstep; cases hstep
    | some xs =>
      rw [hx] at hstep
      cases xs with
      | nil => cases hstep
      | cons x t =>
        cases hstep
        obtain ⟨l, hv, hi, hk, rep⟩ := get k _ hx
        obtain ⟨h', e1, e2, e3, e4⟩ := ((LList.front_eq rep).2 x t rfl).2 v
        refine ⟨⟨h', s.vars⟩, by simp [LProg.step, hi, e1], ?_, by simp only; omega⟩
        have := LProg.Holds.update hl hr hd k hk h' l _ _ e2 (fun i hi => .inl hi) (hfr e4)
        have hset : s.vars.set k l = s.vars := by
          rw [List.getElem?_eq_some_iff] at hv
          obtain ⟨hv1, hv2⟩ := hv
          rw [← hv2]; exact List.set_getElem_self hv1
        rwa [hset] at this
  | setBack k v =>
    simp only [Spec.listStep] at hstep
    cases hx : xss[k]? with
    | none => rw [hx] at hstep; cases hstep
    | some xs =>
      rw [hx] at hstep
      cases xs with
      | nil => cases hstep
      | cons x t =>
        cases hstep
        obtain ⟨l, hv, hi, hk, rep⟩ := get k _ hx
        have hcons : x :: t = (x :: t).dropLast ++ [(x :: t).getLast (by simp)] :=
          (List.dropLast_concat_getLast (by simp)).symm
        obtain ⟨h', e1, e2, e3, e4⟩ := ((LList.back_eq rep).2 _ _ hcons).2 v
        refine ⟨⟨h', s.vars⟩, by simp [LProg.step, hi, e1], ?_, by simp only; omega⟩
        have := LProg.Holds.update hl hr hd k hk h' l _ _ e2 (fun i hi => .inl hi) (hfr e4)
        have hset : s.vars.set k l = s.vars := by
          rw [List.getElem?_eq_some_iff] at hv
          obtain ⟨hv1, hv2⟩ := hv
          rw [← hv2]; exact List.set_getElem_self hv1
        rwa [hset] at this
  | append a b =>
    simp only [Spec.listStep] at hstep
    by_cases hab : a = b
    · rw [if_pos hab] at hstep; cases hstep
    · rw [if_neg hab] at hstep
      cases hx : xss[a]? with
      | none => rw [hx] at hstep; cases hstep
      | some xs =>
        cases hy : xss[b]? with
        | none => rw [hx, hy] at hstep; cases hstep
        | some ys =>
          rw [hx, hy] at hstep
          cases hstep
          obtain ⟨l, hv, hi, hk, rep⟩ := get a _ hx
          obtain ⟨m, hv', hi', hk', rep'⟩ := get b _ hy
          have hdis := hd a b hab hk hk'
          have hle : xs.length + ys.length ≤ s.heap.length := by
            have := nodup_bounded s.heap.length (ids a ++ ids b)
              (List.nodup_append.2 ⟨rep.nodup, rep'.nodup, fun x hx y hy e => hdis x hx (e ▸ hy)⟩)
              (by
                intro i hi
                rcases List.mem_append.1 hi with hi | hi
                · exact rep.seg.lt i hi
                · exact rep'.seg.lt i hi)
            rw [List.length_append, rep.seg.length, rep'.seg.length] at this
            exact this
          obtain ⟨h', l', e1, e2, e3, e4⟩ := LList.append_eq rep rep' hdis (by omega)
          refine ⟨⟨h', (s.vars.set a l').set b LList.new⟩, by simp [LProg.step, hi, hi', e1], ?_, by simp only; omega⟩
          -- first give the nodes of `b` away, then give them to `a`
          refine ⟨by simpa using hl, fun k => if k = b then [] else if k = a then ids a ++ ids b else ids k, ?_, ?_⟩
          · intro k l0 xs0 hm hx0
            simp only [List.getElem?_set, List.length_set] at hm hx0
            by_cases eb : k = b
            · subst eb
              rw [if_pos rfl, if_pos (by omega)] at hm hx0
              cases hm; cases hx0
              simp only [if_pos]
              exact LList.rep_new h'
            · rw [if_neg (Ne.symm eb)] at hm hx0
              simp only [if_neg eb]
              by_cases ea : k = a
              · subst ea
                rw [if_pos rfl, if_pos (by omega)] at hm hx0
                cases hm; cases hx0
                simp only [if_pos]
                exact e2
              · rw [if_neg (Ne.symm ea)] at hm hx0
                simp only [if_neg ea]
                have rk := hr k l0 xs0 hm hx0
                have hkl := (List.getElem?_eq_some_iff.1 hm).1
                refine rk.frame fun i hi => e4 i ?_ ?_
                · exact hd k a ea hkl hk i hi
                · exact hd k b eb hkl hk' i hi
          · intro p q hpq hp hq i hi
            simp only [List.length_set] at hp hq
            simp only at hi ⊢
            by_cases pb : p = b
            · rw [if_pos pb] at hi; cases hi
            · rw [if_neg pb] at hi
              by_cases qb : q = b
              · rw [if_pos qb]; simp
              · rw [if_neg qb]
                by_cases pa : p = a
                · rw [if_pos pa] at hi
                  rw [if_neg (by omega)]
                  rcases List.mem_append.1 hi with hi | hi
                  · exact hd a q (by omega) hk hq i hi
                  · exact hd b q (Ne.symm qb) hk' hq i hi
                · rw [if_neg pa] at hi
                  by_cases qa : q = a
                  · rw [if_pos qa]
                    intro hm
                    rcases List.mem_append.1 hm with hm | hm
                    · exact hd p a pa hp hk i hi hm
                    · exact hd p b pb hp hk' i hi hm
                  · rw [if_neg qa]
                    exact hd p q hpq hp hq i hi
  | clear k =>
    simp only [Spec.listStep, Option.map_eq_some_iff, Prod.mk.injEq] at hstep
    obtain ⟨xs, hx, rfl, rfl⟩ := hstep
    obtain ⟨l, hv, hi, hk, rep⟩ := get k xs hx
    refine ⟨⟨s.heap, s.vars.set k LList.new⟩, by simp [LProg.step, hi, LList.clear, LList.new], ?_, by simp only; omega⟩
    exact LProg.Holds.update hl hr hd k hk s.heap LList.new [] [] (LList.rep_new _) (by simp) (fun _ _ _ => rfl)
  | len k =>
    simp only [Spec.listStep, Option.map_eq_some_iff, Prod.mk.injEq] at hstep
    obtain ⟨xs, hx, rfl, rfl⟩ := hstep
    obtain ⟨l, hv, hi, hk, rep⟩ := get k xs hx
    exact ⟨s, by simp [LProg.step, hi, rep.len], hs, by omega⟩
  | isEmpty k =>
    simp only [Spec.listStep, Option.map_eq_some_iff, Prod.mk.injEq] at hstep
    obtain ⟨xs, hx, rfl, rfl⟩ := hstep
    obtain ⟨l, hv, hi, hk, rep⟩ := get k xs hx
    refine ⟨s, ?_, hs, by omega⟩
    simp only [LProg.step, hi, Go.bind_ok, LList.isEmpty, rep.len]
    cases xs <;> rfl

/-- C63 and C64: any number of list variables on a shared heap, under every history of operations
(Append between different variables included): no nil dereference, all results are those of
independent mathematical lists, and so are the final contents - in particular operations on one
variable never affect another, also after Append.  (The number of nodes ever allocated stays
below 2^64.) -/
theorem C63_list_history (ops : List (LOp α)) (s : LProg α) (xss : List (List α)) (hs : s.Holds xss)
    (hsmall : s.heap.length + ops.length < 2 ^ 64) (rs : List (Obs α)) (xss' : List (List α))
    (hrun : Spec.runOps Spec.listStep ops xss = (rs, some xss')) :
    ∃ s', Spec.runOps (fun o s => Go.toOption (LProg.step o s)) ops s = (rs, some s') ∧ s'.Holds xss' := by
  induction ops generalizing s xss rs with
  | nil =>
    simp only [Spec.runOps, Prod.mk.injEq, Option.some.injEq] at hrun
    obtain ⟨rfl, rfl⟩ := hrun
    exact ⟨s, rfl, hs⟩
  | cons o ops ih =>
    simp only [List.length_cons] at hsmall
    simp only [Spec.runOps] at hrun ⊢
    cases hstep : Spec.listStep o xss with
    | none => rw [hstep] at hrun; simp at hrun
    | some p =>
      obtain ⟨x1, r⟩ := p
      rw [hstep] at hrun
      simp only [Prod.mk.injEq] at hrun
      obtain ⟨hrs, hl⟩ := hrun
      obtain ⟨s1, e1, e2, e3⟩ := LProg.step_refines o s xss hs (by omega) x1 r hstep
      obtain ⟨s2, e4, e5⟩ := ih s1 x1 e2 (by omega) (Spec.runOps Spec.listStep ops x1).1 (Prod.ext rfl hl)
      refine ⟨s2, ?_, e5⟩
      rw [e1]
      simp only [Go.toOption_ok, e4, ← hrs]

/-- C63: the start: any number of variables, each a new list. -/
theorem C63_list_new (n : Nat) :
    LProg.Holds (α := α) ⟨[], List.replicate n LList.new⟩ (List.replicate n []) := by
  refine ⟨by simp, fun _ => [], ?_, by simp⟩
  intro k l xs hl hx
  rw [List.getElem?_replicate] at hl hx
  split at hl
  · next h1 =>
    cases hl
    rw [if_pos h1] at hx
    cases hx
    exact LList.rep_new _
  · cases hl

/-- Follow the forward pointers and collect the values. -/
def walkNext (h : LHeap α) : Nat → Option Nat → List α
  | 0, _ => []
  | fuel + 1, p => match p.bind (h[·]?) with
    | none => []
    | some n => n.value :: walkNext h fuel n.next
/-- Follow the backward pointers and collect the values. -/
def walkPrev (h : LHeap α) : Nat → Option Nat → List α
  | 0, _ => []
  | fuel + 1, p => match p.bind (h[·]?) with
    | none => []
    | some n => n.value :: walkPrev h fuel n.prev

/-- C63: forward and backward traversals agree: following the forward pointers from the head gives the
elements, following the backward pointers from the tail gives them in reverse. -/
theorem C63_list_links (s : LProg α) (xss : List (List α)) (hs : s.Holds xss) (k : Nat) (l : LList)
    (xs : List α) (hl : s.vars[k]? = some l) (hx : xss[k]? = some xs) (fuel : Nat) (hf : xs.length < fuel) :
    walkNext s.heap fuel l.head = xs ∧ walkPrev s.heap fuel l.tail = xs.reverse := by
  obtain ⟨_, ids, hr, _⟩ := hs
  have r := hr k l xs hl hx
  have fwd : ∀ (ids : List Nat) (xs : List α) (p : Option Nat) (fuel : Nat), Seg s.heap p none ids xs →
      xs.length < fuel → walkNext s.heap fuel ids.head? = xs := by
    intro ids
    induction ids with
    | nil =>
      intro xs p fuel hseg hf
      have := hseg.length
      cases xs with
      | cons => simp at this
      | nil => cases fuel <;> rfl
    | cons i is ih =>
      intro xs p fuel hseg hf
      cases xs with
      | nil => simp [Seg] at hseg
      | cons x xs =>
        cases fuel with
        | zero => simp at hf
        | succ fuel =>
          simp only [walkNext, List.head?_cons, Option.bind_some, hseg.1, Option.or_none]
          rw [ih xs (some i) fuel hseg.2 (by simpa using hf)]
  have bwd : ∀ (n : Nat) (ids : List Nat) (xs : List α) (e : Option Nat) (fuel : Nat), ids.length = n →
      Seg s.heap none e ids xs → xs.length < fuel → walkPrev s.heap fuel ids.getLast? = xs.reverse := by
    intro n
    induction n with
    | zero =>
      intro ids xs e fuel hn hseg hf
      have := hseg.length
      have hi : ids = [] := by simpa using hn
      subst hi
      cases xs with
      | cons => simp at this
      | nil => cases fuel <;> rfl
    | succ n ih =>
      intro ids xs e fuel hn hseg hf
      have hlen := hseg.length
      rcases List.eq_nil_or_concat ids with rfl | ⟨init, t, hids⟩
      · simp at hn
      rcases List.eq_nil_or_concat xs with rfl | ⟨ys, y, hxs⟩
      · simp at hlen; subst hlen; simp at hn
      rw [List.concat_eq_append] at hids hxs
      subst hids; subst hxs
      have hlen' : init.length = ys.length := by simpa using hlen
      obtain ⟨s1, s2⟩ := (Seg.append hlen').1 hseg
      cases fuel with
      | zero => simp at hf
      | succ fuel =>
        simp only [walkPrev, List.getLast?_concat, Option.bind_some, s2.1, Option.or_none]
        rw [ih init ys _ fuel (by simpa using hn) s1 (by simpa using hf)]
        simp
  constructor
  · rw [r.head]; exact fwd _ xs none fuel r.seg hf
  · rw [r.tail]; exact bwd _ _ xs none fuel rfl r.seg hf

end Gost
