import Verif.Props.BTreeSet
import Verif.Props.BinaryHeap
import Verif.Props.VecSearch
import Verif.Props.VecDeque
import Verif.Props.HashSet
/-
Property C171: the collections agree with one another about the same values (sorting a Vec, draining a
BinaryHeap, Sort and Dedup against a HashSet, the searches).  Property C172: the maps and sets of both kinds
give the same answers to the same calls.
-/
namespace Gost
open Spec

/-- Two lists of the same length whose elements are equal one by one. -/
def Spec.SameBy {α : Type} (eq : α → α → Bool) (l m : List α) : Prop :=
  l.length = m.length ∧ ∀ (i : Nat) (a b : α), l[i]? = some a → m[i]? = some b → eq a b = true

namespace Agree
section
variable {α : Type} {cmp : α → α → Ordering} {eq : α → α → Bool}

theorem same_cons {a b : α} {l m : List α} (h : eq a b = true) (t : SameBy eq l m) :
    SameBy eq (a :: l) (b :: m) := by
  refine ⟨by simp [t.1], ?_⟩
  intro i x y hx hy
  cases i with
  | zero => simp at hx hy; rw [← hx, ← hy]; exact h
  | succ i => simp at hx hy; exact t.2 i x y hx hy

theorem same_reverse {l m : List α} (t : SameBy eq l m) : SameBy eq l.reverse m.reverse := by
  refine ⟨by simp [t.1], ?_⟩
  intro i x y hx hy
  have hi : i < l.length := by
    have := (List.getElem?_eq_some_iff.1 hx).1
    simpa using this
  rw [List.getElem?_reverse hi] at hx
  rw [List.getElem?_reverse (by rw [← t.1]; exact hi), ← t.1] at hy
  exact t.2 _ x y hx hy

theorem same_symm (hc : LawfulOrd cmp eq) {l m : List α} (t : SameBy eq l m) : SameBy eq m l :=
  ⟨t.1.symm, fun i a b ha hb => (hc.eq_iff _ _).2 ((hc.lawfulCmp.eq_comm _ _).1 ((hc.eq_iff _ _).1 (t.2 i b a hb ha)))⟩

/-- How many elements are equal to `x`. -/
def cnt (cmp : α → α → Ordering) (x : α) (l : List α) : Nat := l.countP fun a => cmp a x == .eq

theorem cnt_pos {x : α} {l : List α} : 0 < cnt cmp x l ↔ ∃ a ∈ l, cmp a x = .eq := by
  simp [cnt, List.countP_pos_iff]

/-- Sorted lists with the same elements (up to equality) are the same up to equality. -/
theorem sorted_same (hc : LawfulOrd cmp eq) (l m : List α) (hl : l.Pairwise fun a b => cmp a b ≠ .gt)
    (hm : m.Pairwise fun a b => cmp a b ≠ .gt) (h : ∀ x, cnt cmp x l = cnt cmp x m) : SameBy eq l m := by
  have hl' := hc.lawfulCmp
  induction l generalizing m with
  | nil =>
    cases m with
    | nil => exact ⟨rfl, by simp⟩
    | cons b m =>
      have := h b
      have h2 : 0 < cnt cmp b (b :: m) := cnt_pos.2 ⟨b, by simp, hl'.refl b⟩
      rw [← this] at h2
      simp [cnt] at h2
  | cons a l ih =>
    have ha : 0 < cnt cmp a m := by
      rw [← h a]
      exact cnt_pos.2 ⟨a, by simp, hl'.refl a⟩
    cases m with
    | nil => simp [cnt] at ha
    | cons b m =>
      obtain ⟨l1, l2⟩ := List.pairwise_cons.1 hl
      obtain ⟨m1, m2⟩ := List.pairwise_cons.1 hm
      have hle : ∀ {c d : α} {k : List α}, (∀ x ∈ k, cmp c x ≠ .gt) → (∃ x ∈ c :: k, cmp x d = .eq) →
          cmp c d ≠ .gt := by
        intro c d k hk ⟨x, hx, e⟩
        rw [← hl'.eq_right e]
        rcases List.mem_cons.1 hx with rfl | hx
        · rw [hl'.refl]; decide
        · exact hk x hx
      have h1 : cmp b a ≠ .gt := hle m1 (cnt_pos.1 ha)
      have h2 : cmp a b ≠ .gt := by
        refine hle l1 (cnt_pos.1 ?_)
        rw [h b]
        exact cnt_pos.2 ⟨b, by simp, hl'.refl b⟩
      have e : cmp a b = .eq := by
        rw [Ne, hl'.gt_iff] at h1
        cases hh : cmp a b <;> simp_all
      refine same_cons ((hc.eq_iff _ _).2 e) (ih m l2 m2 ?_)
      intro x
      have := h x
      unfold cnt at this ⊢
      rw [List.countP_cons, List.countP_cons, hl'.eq_left e] at this
      omega

theorem cnt_perm {l m : List α} (h : l.Perm m) (x : α) : cnt cmp x l = cnt cmp x m := h.countP_eq _

theorem asc_sorted {l : List α} (h : l.Pairwise fun a b => cmp a b = .lt) :
    l.Pairwise fun a b => cmp a b ≠ .gt := h.imp fun h => by rw [h]; decide

/-- In a strictly ascending list a value occurs at most once. -/
theorem cnt_asc (hc : LawfulCmp cmp) {l : List α} (h : l.Pairwise fun a b => cmp a b = .lt) (x : α) :
    cnt cmp x l = if l.any (fun a => cmp a x == .eq) then 1 else 0 := by
  induction l with
  | nil => rfl
  | cons a l ih =>
    obtain ⟨h1, h2⟩ := List.pairwise_cons.1 h
    have ih := ih h2
    unfold cnt at ih ⊢
    rw [List.countP_cons, ih, List.any_cons]
    by_cases e : cmp a x = .eq
    · have : l.any (fun a => cmp a x == .eq) = false := by
        rw [List.any_eq_false]
        intro b hb
        have := h1 b hb
        rw [hc.eq_left e] at this
        rw [(hc.lt_iff _ _).1 this]
        simp
      simp [this, e]
    · have : (cmp a x == .eq) = false := by simp [e]
      simp [this]

/-- Strictly ascending lists with the same members are the same up to equality. -/
theorem asc_same (hc : LawfulOrd cmp eq) {l m : List α} (hl : l.Pairwise fun a b => cmp a b = .lt)
    (hm : m.Pairwise fun a b => cmp a b = .lt)
    (h : ∀ x, (l.any fun a => cmp a x == .eq) = m.any fun a => cmp a x == .eq) : SameBy eq l m :=
  sorted_same hc l m (asc_sorted hl) (asc_sorted hm) fun x => by
    rw [cnt_asc hc.lawfulCmp hl, cnt_asc hc.lawfulCmp hm, h]

theorem heads_go (hc : LawfulOrd cmp eq) (a : α) (l : List α)
    (h : (a :: l).Pairwise fun a b => cmp a b ≠ .gt) :
    (a :: runHeads.go eq a l).Pairwise (fun a b => cmp a b = .lt) ∧
      ∀ x, (a :: runHeads.go eq a l).any (fun b => cmp b x == .eq) = (a :: l).any fun b => cmp b x == .eq := by
  have hl := hc.lawfulCmp
  induction l generalizing a with
  | nil => simp [runHeads.go]
  | cons b l ih =>
    obtain ⟨h1, h2⟩ := List.pairwise_cons.1 h
    obtain ⟨i1, i2⟩ := ih b h2
    have hab := h1 b (by simp)
    by_cases e : eq a b = true
    · have e' := (hc.eq_iff _ _).1 e
      have hg : runHeads.go eq a (b :: l) = runHeads.go eq b l := by simp [runHeads.go, e]
      obtain ⟨p1, p2⟩ := List.pairwise_cons.1 i1
      rw [hg]
      refine ⟨List.pairwise_cons.2 ⟨fun c hcm => by rw [hl.eq_left e']; exact p1 c hcm, p2⟩, ?_⟩
      intro x
      have := i2 x
      simp only [List.any_cons] at this ⊢
      rw [hl.eq_left e', this]
      cases cmp b x == .eq <;> simp
    · have hg : runHeads.go eq a (b :: l) = b :: runHeads.go eq b l := by simp [runHeads.go, e]
      have hlt : cmp a b = .lt := by
        cases hh : cmp a b with
        | lt => rfl
        | eq => exact absurd ((hc.eq_iff _ _).2 hh) e
        | gt => exact absurd hh hab
      rw [hg]
      refine ⟨List.pairwise_cons.2 ⟨?_, i1⟩, ?_⟩
      · intro c hcm
        rcases List.mem_cons.1 hcm with rfl | hcm
        · exact hlt
        · exact hl.lt_trans hlt ((List.pairwise_cons.1 i1).1 c hcm)
      · intro x
        rw [List.any_cons, i2 x, List.any_cons (l := b :: l)]

/-- The heads of the runs of a sorted list are its different elements in ascending order. -/
theorem heads_sorted (hc : LawfulOrd cmp eq) (l : List α) (h : l.Pairwise fun a b => cmp a b ≠ .gt) :
    (runHeads eq l).Pairwise (fun a b => cmp a b = .lt) ∧
      ∀ x, (runHeads eq l).any (fun b => cmp b x == .eq) = l.any fun b => cmp b x == .eq := by
  cases l with
  | nil => simp [runHeads]
  | cons a l => exact heads_go hc a l h

theorem any_perm {l m : List α} (h : l.Perm m) (p : α → Bool) : l.any p = m.any p := by
  rw [Bool.eq_iff_iff, List.any_eq_true, List.any_eq_true]
  exact ⟨fun ⟨x, a, b⟩ => ⟨x, h.mem_iff.1 a, b⟩, fun ⟨x, a, b⟩ => ⟨x, h.mem_iff.2 a, b⟩⟩

theorem pEquiv (hc : LawfulOrd cmp eq) : PEquiv eq where
  symm a b h := (hc.eq_iff _ _).2 ((hc.lawfulCmp.eq_comm _ _).1 ((hc.eq_iff _ _).1 h))
  trans a b c h1 h2 := (hc.eq_iff _ _).2 (by
    rw [hc.lawfulCmp.eq_left ((hc.eq_iff _ _).1 h1)]; exact (hc.eq_iff _ _).1 h2)

theorem eqb (hc : LawfulOrd cmp eq) (a b : α) : eq a b = (cmp a b == .eq) := by
  have := hc.eq_iff a b
  cases h : cmp a b <;> simp_all

theorem eqb' (hc : LawfulOrd cmp eq) (a b : α) : eq a b = (cmp b a == .eq) := by
  rw [eqb hc, Bool.eq_iff_iff, beq_iff_eq, beq_iff_eq]
  exact hc.lawfulCmp.eq_comm a b

theorem heads_length (l : List α) : (runHeads eq l).length ≤ l.length := by
  have go : ∀ (l : List α) a, (runHeads.go eq a l).length ≤ l.length := by
    intro l
    induction l with
    | nil => intro a; simp [runHeads.go]
    | cons b l ih =>
      intro a
      have := ih b
      simp only [runHeads.go]
      split <;> simp <;> omega
  cases l with
  | nil => simp [runHeads]
  | cons a l => simp [runHeads, go]

theorem contains_any (hc : LawfulOrd cmp eq) (v : Vec α) (x : α) :
    v.contains eq x = v.data.any fun b => cmp b x == .eq := by
  unfold Vec.contains
  induction v.data with
  | nil => rfl
  | cons a l ih =>
    rw [Vec.contains.loop, List.any_cons, ih, ← eqb hc]
    cases eq a x <;> rfl

/-- Pushing a list onto a heap. -/
theorem pushes (g : Growth) (hc : TotalCmp cmp) (l : List α) (s : BHeap α) (hs : IsHeap cmp s.vec.data) :
    ∃ s', runOps (BHeap.step g cmp) (l.map .push) s = (l.map fun _ => .unit, some s') ∧
      IsHeap cmp s'.vec.data ∧ s'.vec.data.Perm (l ++ s.vec.data) := by
  induction l generalizing s with
  | nil => exact ⟨s, rfl, hs, .refl _⟩
  | cons a l ih =>
    obtain ⟨s1, e1, e2, e3⟩ := BHeap.push_eq g cmp hc s hs a
    obtain ⟨s2, f1, f2, f3⟩ := ih s1 e2
    refine ⟨s2, ?_, f2, ?_⟩
    · simp only [List.map_cons, runOps, BHeap.step, e1]
      simp [f1]
    · refine f3.trans ?_
      rw [List.cons_append]
      exact (e3.append_left l).trans List.perm_middle

/-- Popping a heap until it is empty. -/
theorem pops (g : Growth) (hc : TotalCmp cmp) (n : Nat) (s : BHeap α) (hs : IsHeap cmp s.vec.data)
    (hn : s.vec.data.length = n) :
    ∃ (ms : List α) (s' : BHeap α), runOps (BHeap.step g cmp) (List.replicate n .pop) s = (ms.map fun m => .opt (some m), some s') ∧
      ms.Perm s.vec.data ∧ ms.Pairwise (fun a b => cmp b a ≠ .gt) ∧ s'.vec.data = [] := by
  induction n generalizing s with
  | zero =>
    have : s.vec.data = [] := List.length_eq_zero_iff.1 hn
    exact ⟨[], s, rfl, by rw [this], .nil, this⟩
  | succ n ih =>
    rcases BHeap.pop_eq cmp hc s hs with ⟨e1, _⟩ | ⟨s1, m, e1, e2, e3, e4⟩
    · simp [e1] at hn
    · have hl : s1.vec.data.length = n := by
        have := e3.length_eq
        simp only [List.length_cons] at this
        omega
      obtain ⟨ms, s2, f1, f2, f3, f4⟩ := ih s1 e2 hl
      refine ⟨m :: ms, s2, ?_, ?_, ?_, f4⟩
      · simp only [List.replicate_succ, runOps, BHeap.step, e1]
        simp [f1, Opt.some]
      · exact (f2.cons m).trans e3.symm
      · refine List.pairwise_cons.2 ⟨?_, f3⟩
        intro x hx
        exact e4 x (e3.mem_iff.2 (List.mem_cons_of_mem _ (f2.mem_iff.1 hx)))
end
end Agree
open Agree

section
variable {κ : Type} [GoKey κ] [LawfulGoKey κ] {cmp : κ → κ → Ordering}

/-- C171: for all values `l`: Sort and Dedup of a Vec of them leave as many elements as Len of the HashSet of
them counts, each different value once and in ascending order; and whatever order Go iterates in, AsSlice of
the HashSet, sorted, gives the same. -/
theorem C171_distinct (hc : LawfulOrd cmp (GoKey.eq : κ → κ → Bool)) (S : SortLib) (l : List κ) (c : Nat)
    (h : SetHeap κ) (hlen : l.length < 2 ^ 64) :
    ∃ v w h' s, (⟨l, c⟩ : Vec κ).sort S (some cmp) = .ok v ∧ v.dedup GoKey.eq = .ok w ∧
      HSet.fromSlice l h = (.ok s, h') ∧
      s.len h' = w.len ∧ w.data.Pairwise (fun a b => cmp a b = .lt) ∧
      (∀ x, s.contains h' x = .ok (w.contains GoKey.eq x) ∧ w.contains GoKey.eq x = (⟨l, c⟩ : Vec κ).contains GoKey.eq x) ∧
      ∀ ord c', s.hashMap.Ranges h' ord → ∃ u, (⟨HSet.asSlice ord, c'⟩ : Vec κ).sort S (some cmp) = .ok u ∧
        SameBy GoKey.eq u.data w.data := by
  obtain ⟨⟨v, e1, _, p1, s1, _, _⟩, _⟩ := C52_vec_sort S (⟨l, c⟩ : Vec κ) cmp _ hc
  obtain ⟨h', n, f1, _, f3⟩ := C71_set_fromSlice h l
  have hd := C49_vec_dedup (GoKey.eq : κ → κ → Bool) (pEquiv hc) v
  obtain ⟨a1, a2⟩ := heads_sorted hc v.data s1
  have hcon : ∀ (u : Vec κ) x, u.contains GoKey.eq x = u.data.any fun b => cmp b x == .eq := by
    exact fun u x => contains_any hc u x
  have hmem : ∀ x, (l.any fun b => GoKey.eq x b) = (runHeads GoKey.eq v.data).any fun b => cmp b x == .eq := by
    intro x
    rw [a2, any_perm p1]
    congr 1
    funext b
    exact eqb' hc x b
  have hord : ∀ ord, (⟨⟨some h.length⟩⟩ : HSet).hashMap.Ranges h' ord →
      (HSet.asSlice ord).length = n ∧ ∀ c', ∃ u, (⟨HSet.asSlice ord, c'⟩ : Vec κ).sort S (some cmp) = .ok u ∧
        u.data.length = n ∧ SameBy GoKey.eq u.data (runHeads GoKey.eq v.data) := by
    intro ord ho
    obtain ⟨k, k1, k2, k3, k4, _⟩ := C71_set_iter doubling h' _ _ f3 ord ho
    refine ⟨by rw [k4, k2], ?_⟩
    intro c'
    obtain ⟨⟨u, u1, _, q1, r1, _, _⟩, _⟩ := C52_vec_sort S (⟨HSet.asSlice ord, c'⟩ : Vec κ) cmp _ hc
    refine ⟨u, u1, by rw [q1.length_eq, k4, k2], ?_⟩
    rw [k4] at q1
    refine asc_same hc ?_ a1 ?_
    · have hne : u.data.Pairwise fun a b => GoKey.eq a b = false := by
        refine (q1.pairwise_iff ?_).2 k1
        intro a b hab
        cases hb : GoKey.eq b a with
        | false => rfl
        | true => rw [(pEquiv hc).symm _ _ hb] at hab; cases hab
      refine (r1.and hne).imp ?_
      intro a b ⟨x, y⟩
      rw [eqb hc] at y
      cases hh : cmp a b <;> simp_all
    · intro x
      rw [any_perm q1, ← hmem, show (l.any fun b => GoKey.eq x b) = k.any fun b => GoKey.eq x b from k3 x]
      congr 1
      funext b
      exact (eqb' hc x b).symm
  obtain ⟨hl1, hl2⟩ := hord _ (List.Perm.refl _)
  obtain ⟨u, _, hu2, hu3⟩ := hl2 0
  have hlen' : (runHeads GoKey.eq v.data).length = n := by rw [← hu3.1, hu2]
  have hn : n < 2 ^ 64 := by
    rw [← hlen']
    refine Nat.lt_of_le_of_lt ?_ hlen
    rw [← show v.data.length = l.length from p1.length_eq]
    exact heads_length _
  refine ⟨v, _, h', _, e1, hd, f1, ?_, a1, ?_, ?_⟩
  · rw [HSet.len, HMap.len_eq f3 hn]
    exact hlen'.symm
  · intro x
    rw [HSet.contains_eq f3, hcon, hcon]
    refine ⟨congrArg _ (hmem x), ?_⟩
    rw [a2, any_perm p1]
  · intro ord c' ho
    obtain ⟨u, u1, _, u3⟩ := (hord ord ho).2 c'
    exact ⟨u, u1, u3⟩

/-- C171: Contains of a Vec, Contains of a VecDeque, BinarySearch of the sorted Vec and Contains of the HashSet
give the same answer for the same values. -/
theorem C171_search [Inhabited κ] (hc : LawfulOrd cmp (GoKey.eq : κ → κ → Bool)) (S : SortLib) (l : List κ)
    (c : Nat) (h : SetHeap κ) (d : VecDeque κ) (hd : d.Inv) (hl : d.toList = l) (x : κ) :
    ∃ v r h' s b, (⟨l, c⟩ : Vec κ).sort S (some cmp) = .ok v ∧ v.binarySearch (some cmp) x = .ok r ∧
      HSet.fromSlice l h = (.ok s, h') ∧
      (⟨l, c⟩ : Vec κ).contains GoKey.eq x = b ∧ d.contains (some GoKey.eq) x = .ok b ∧
      r.isSome = b ∧ s.contains h' x = .ok b := by
  obtain ⟨⟨v, e1, _, p1, s1, _, _⟩, _⟩ := C52_vec_sort S (⟨l, c⟩ : Vec κ) cmp _ hc
  obtain ⟨r, r1, r2, _⟩ := C51_binarySearch v cmp _ hc s1 x
  obtain ⟨h', n, f1, _, f3⟩ := C71_set_fromSlice h l
  refine ⟨v, r, h', _, _, e1, r1, f1, rfl, ?_, ?_, ?_⟩
  · rw [(C62_deque_contents d d hd hd GoKey.eq x).1, hl, contains_any hc]
    congr 2
    funext b
    exact eqb' hc x b
  · rw [contains_any hc, Bool.eq_iff_iff, r2, List.any_eq_true]
    constructor
    · rintro ⟨a, ha, he⟩
      exact ⟨a, p1.mem_iff.1 ha, by rw [← eqb hc]; exact he⟩
    · rintro ⟨a, ha, he⟩
      exact ⟨a, p1.mem_iff.2 ha, by rw [eqb hc]; exact he⟩
  · rw [HSet.contains_eq f3, contains_any hc]
    show Except.ok (l.any fun b => GoKey.eq x b) = Except.ok (l.any fun b => cmp b x == .eq)
    congr 2
    funext b
    exact eqb' hc x b
end

/-- C171: pushing values onto a new BinaryHeap and taking them out gives what sorting a Vec of them gives:
IntoSortedVec the same, Pop until None the same backwards (elements that compare equal may be exchanged). -/
theorem C171_heap {α : Type} [Inhabited α] {cmp : α → α → Ordering} {eq : α → α → Bool} (hc : LawfulOrd cmp eq)
    (S : SortLib) (g : Growth) (l : List α) (c : Nat) (hlen : l.length < 2 ^ 63) :
    ∃ v s, (⟨l, c⟩ : Vec α).sort S (some cmp) = .ok v ∧
      runOps (BHeap.step g cmp) (l.map .push) BHeap.new = (l.map fun _ => .unit, some s) ∧
      (∃ s' w, s.intoSortedVec cmp = .ok (some (s', w)) ∧ SameBy eq w.data v.data) ∧
      ∃ (ms : List α) (s' : BHeap α), runOps (BHeap.step g cmp) (List.replicate l.length .pop ++ [.pop]) s =
          (ms.map (fun m => .opt (some m)) ++ [.opt none], some s') ∧ SameBy eq ms v.data.reverse := by
  obtain ⟨⟨v, e1, _, p1, s1, _, _⟩, _⟩ := C52_vec_sort S (⟨l, c⟩ : Vec α) cmp _ hc
  have ht := hc.totalCmp
  obtain ⟨s, q1, q2, q3⟩ := pushes g ht l BHeap.new (C66_heap_new cmp ht).1
  have q3' : s.vec.data.Perm l := by simpa [BHeap.new, Vec.new] using q3
  refine ⟨v, s, e1, q1, ?_, ?_⟩
  · obtain ⟨s', w, w1, w2, w3, _⟩ := C67_intoSortedVec cmp ht s q2 (by
      show s.vec.data.length < _
      rw [q3'.length_eq]; exact hlen)
    refine ⟨s', w, w1, sorted_same hc _ _ w3 s1 ?_⟩
    exact cnt_perm (w2.trans (q3'.trans p1.symm))
  · obtain ⟨ms, s', m1, m2, m3, m4⟩ := pops g ht l.length s q2 q3'.length_eq
    refine ⟨ms, s', ?_, ?_⟩
    · have happ : ∀ (os : List (HeapOp α)) (s : BHeap α) rs s', runOps (BHeap.step g cmp) os s = (rs, some s') →
          s'.vec.data = [] → runOps (BHeap.step g cmp) (os ++ [.pop]) s = (rs ++ [.opt none], some s') := by
        intro os
        induction os with
        | nil =>
          intro s rs s' h he
          cases h
          rcases BHeap.pop_eq cmp ht s (by rw [he]; intro i x y _ hx; simp at hx) with ⟨_, e⟩ | ⟨_, _, _, _, e, _⟩
          · simp [runOps, BHeap.step, e, Opt.none]
          · rw [he] at e; simpa using e.length_eq
        | cons o os ih =>
          intro s rs s' h he
          simp only [List.cons_append, runOps] at h ⊢
          cases hst : BHeap.step g cmp o s with
          | none => rw [hst] at h; simp at h
          | some p =>
            rw [hst] at h
            simp only [Prod.mk.injEq] at h
            obtain ⟨h1, h2⟩ := h
            have := ih p.1 (runOps (BHeap.step g cmp) os p.1).1 s' (by rw [← h2]) he
            simp [this, ← h1]
      exact happ _ _ _ _ m1 m4
    · have := sorted_same hc ms.reverse v.data (List.pairwise_reverse.2 m3) s1
        (cnt_perm ((List.reverse_perm ms).trans (m2.trans (q3'.trans p1.symm))))
      simpa using same_reverse this

/-! ### C172 -/

section
variable {κ ν : Type} [GoKey κ] {cmp : κ → κ → Ordering}

/-- The ordered map and the unordered one have the same entries. -/
structure Agree.Maps (cmp : κ → κ → Ordering) (l : List (κ × ν)) (f : FMap κ ν) : Prop where
  asc : Ascending cmp l
  get : ∀ k, f.get k = OMap.lookup cmp l k
  size : f.size = l.length

theorem Agree.Maps.step (hc : LawfulOrd cmp (GoKey.eq : κ → κ → Bool)) {l : List (κ × ν)} {f : FMap κ ν}
    (h : Agree.Maps cmp l f) (o : HOp κ ν) :
    (ordStep cmp o l).2 = (mapStep o f).2 ∧ Agree.Maps cmp (ordStep cmp o l).1 (mapStep o f).1 := by
  have hl := hc.lawfulCmp
  have he : ∀ a b : κ, (GoKey.eq a b = true) = (cmp a b = .eq) := fun a b => propext (hc.eq_iff a b)
  cases o with
  | insert k v =>
    refine ⟨by simp [ordStep, mapStep, h.get], OMap.ascending_insert hl h.asc k v, ?_, ?_⟩
    · intro k'
      simp only [ordStep, mapStep, FMap.insert, OMap.lookup_insert hl, h.get, he]
    · simp only [ordStep, mapStep, FMap.insert, OMap.length_insert hl, h.get, h.size, OMap.lookup_isSome]
  | remove k =>
    refine ⟨by simp [ordStep, mapStep, h.get], OMap.ascending_remove h.asc k, ?_, ?_⟩
    · intro k'
      simp only [ordStep, mapStep, FMap.remove, OMap.lookup_remove hl, h.get, he]
    · simp only [ordStep, mapStep, FMap.remove, OMap.length_remove hl h.asc, h.get, h.size, OMap.lookup_isSome]
  | get k => exact ⟨by simp [ordStep, mapStep, h.get], h⟩
  | containsKey k => exact ⟨by simp [ordStep, mapStep, h.get, OMap.lookup_isSome], h⟩
  | len => exact ⟨by simp [ordStep, mapStep, h.size], h⟩
  | isEmpty => exact ⟨by simp [ordStep, mapStep, h.size], h⟩
  | clear => exact ⟨rfl, .nil, fun _ => rfl, rfl⟩

theorem Agree.Maps.run (hc : LawfulOrd cmp (GoKey.eq : κ → κ → Bool)) (ops : List (HOp κ ν)) {l : List (κ × ν)}
    {f : FMap κ ν} (h : Agree.Maps cmp l f) :
    (runMap (ordStep cmp) ops l).1 = (runMap mapStep ops f).1 ∧
      Agree.Maps cmp (runMap (ordStep cmp) ops l).2 (runMap mapStep ops f).2 := by
  induction ops generalizing l f with
  | nil => exact ⟨rfl, h⟩
  | cons o ops ih =>
    obtain ⟨h1, h2⟩ := h.step hc o
    obtain ⟨h3, h4⟩ := ih h2
    exact ⟨by simp [runMap, h1, h3], by simpa [runMap] using h4⟩

omit [GoKey κ] in
theorem Agree.Maps.new (cmp : κ → κ → Ordering) : Agree.Maps cmp ([] : List (κ × ν)) FMap.empty :=
  ⟨.nil, fun _ => rfl, rfl⟩

variable [LawfulGoKey κ]

/-- C172, in part: a new BTreeMap and a new HashMap answer every history that the BTreeMap can take (see C72,
C74) alike, and neither panics.  Missing: the other histories, see `C172_maps_fails`. -/
theorem C172_maps_partial (hc : LawfulOrd cmp (GoKey.eq : κ → κ → Bool)) (ops : List (HOp κ ν))
    (ha : Admissible cmp ops []) (hb : BStore κ ν) (hm : MapHeap κ ν) (hs : ops.length < 2 ^ 64) :
    ∃ rs sb sm, runGo (BMap.step cmp) ops (hb, BMap.new) = .ok (rs, sb) ∧
      runGo HMap.step ops (HMap.new hm) = .ok (rs, sm) := by
  obtain ⟨h', m', e1, _⟩ := C72_btree_history_partial hc.lawfulCmp ops ha hb
  obtain ⟨h2, m2, e2, _⟩ := C69_map_history ops (HMap.new hm).1 (HMap.new hm).2 _ (C69_map_new hm 0).1 (by
    simpa [FMap.empty] using hs)
  refine ⟨_, _, (h2, m2), e1, ?_⟩
  rw [((Agree.Maps.new cmp).run hc ops).1]
  exact e2

/-- The keys a history inserts. -/
def Agree.inserted : List (HOp κ ν) → List κ
  | [] => []
  | .insert k _ :: os => k :: inserted os
  | _ :: os => inserted os

omit [LawfulGoKey κ] in
/-- A history without Remove that inserts keys equal to one of the at most eleven keys `ks`. -/
theorem Agree.admissible (hc : LawfulOrd cmp (GoKey.eq : κ → κ → Bool)) (ks : List κ) (h11 : ks.length ≤ 11)
    (ops : List (HOp κ ν)) (hk : ∀ k ∈ Agree.inserted ops, ∃ k' ∈ ks, GoKey.eq k k' = true)
    (hr : ∀ k, HOp.remove k ∉ ops) (l : List (κ × ν)) (hl : Ascending cmp l)
    (hlk : ∀ e ∈ l, ∃ k' ∈ ks, GoKey.eq e.1 k' = true) : Admissible cmp ops l := by
  have hlw := hc.lawfulCmp
  -- fewer than eleven keys, or the key is there
  have hfit : ∀ (l : List (κ × ν)) (ks : List κ), Ascending cmp l → (∀ e ∈ l, ∃ k' ∈ ks, cmp e.1 k' = .eq) →
      l.length ≤ ks.length ∧ ∀ k k', k' ∈ ks → cmp k k' = .eq → OMap.mem cmp l k = false → l.length < ks.length := by
    intro l
    induction l with
    | nil =>
      intro ks _ _
      refine ⟨by simp, fun k k' hk _ _ => ?_⟩
      exact List.length_pos_of_mem hk
    | cons a l ih =>
      intro ks hl hks
      obtain ⟨h1, h2⟩ := List.pairwise_cons.1 hl
      obtain ⟨ka, hka, hea⟩ := hks a (by simp)
      -- drop the keys equal to that of `a`
      have hdrop : (ks.filter fun k => cmp a.1 k != .eq).length < ks.length := by
        refine List.length_filter_lt_length_iff_exists.2 ⟨ka, hka, by simp [hea]⟩
      have hin : ∀ e ∈ l, ∃ k' ∈ ks.filter (fun k => cmp a.1 k != .eq), cmp e.1 k' = .eq := by
        intro e he
        obtain ⟨k', hk', hek⟩ := hks e (by simp [he])
        refine ⟨k', List.mem_filter.2 ⟨hk', ?_⟩, hek⟩
        have := h1 e he
        rw [hlw.eq_right hek] at this
        simp [this]
      obtain ⟨i1, i2⟩ := ih _ h2 hin
      refine ⟨by simp only [List.length_cons]; omega, ?_⟩
      intro k k' hk' hkk hm
      have hm' := OMap.mem_false.1 hm
      have := i2 k k' (List.mem_filter.2 ⟨hk', by
        have := hm' a (by simp)
        rw [hlw.eq_left hkk] at this
        have h3 : cmp a.1 k' ≠ .eq := fun h => this ((hlw.eq_comm _ _).1 h)
        simp [h3]⟩) hkk (OMap.mem_false.2 fun e he => hm' e (by simp [he]))
      simp only [List.length_cons]; omega
  induction ops generalizing l with
  | nil => trivial
  | cons o ops ih =>
    have hr' : ∀ k, HOp.remove k ∉ ops := fun k hm => hr k (List.mem_cons_of_mem _ hm)
    have hlk' : ∀ e ∈ l, ∃ k' ∈ ks, cmp e.1 k' = .eq := fun e he => by
      obtain ⟨k', a, b⟩ := hlk e he
      exact ⟨k', a, (hc.eq_iff _ _).1 b⟩
    cases o with
    | insert k v =>
      obtain ⟨k', hk', hkk⟩ := hk k (by simp [Agree.inserted])
      refine ⟨?_, ih (fun x hx => hk x (by simp [Agree.inserted, hx])) hr' _
        (OMap.ascending_insert hlw hl k v) ?_⟩
      · show BTree.Fits cmp l k
        cases hm : OMap.mem cmp l k with
        | true => exact .inl hm
        | false =>
          have := (hfit l ks hl hlk').2 k k' hk' ((hc.eq_iff _ _).1 hkk) hm
          exact .inr (.inl (by omega))
      · intro e he
        simp only [ordStep, OMap.insert] at he
        split at he
        · obtain ⟨e', he', rfl⟩ := List.mem_map.1 he
          obtain ⟨k2, a, b⟩ := hlk e' he'
          refine ⟨k2, a, ?_⟩
          split <;> exact b
        · rcases List.mem_append.1 he with he | he
          · exact hlk e (List.mem_filter.1 he).1
          · rcases List.mem_cons.1 he with rfl | he
            · exact ⟨k', hk', hkk⟩
            · exact hlk e (List.mem_filter.1 he).1
    | remove k => exact absurd List.mem_cons_self (hr k)
    | get k => exact ⟨trivial, ih (fun x hx => hk x (by simpa [Agree.inserted] using hx)) hr' l hl hlk⟩
    | containsKey k => exact ⟨trivial, ih (fun x hx => hk x (by simpa [Agree.inserted] using hx)) hr' l hl hlk⟩
    | len => exact ⟨trivial, ih (fun x hx => hk x (by simpa [Agree.inserted] using hx)) hr' l hl hlk⟩
    | isEmpty => exact ⟨trivial, ih (fun x hx => hk x (by simpa [Agree.inserted] using hx)) hr' l hl hlk⟩
    | clear =>
      exact ⟨trivial, ih (fun x hx => hk x (by simpa [Agree.inserted] using hx)) hr' [] .nil (by simp)⟩

/-- C172, in part: in particular they agree on every history of Insert, Get, ContainsKey, Len, IsEmpty and
Clear, however long, whose insertions are of at most eleven different keys. -/
theorem C172_few_keys_partial (hc : LawfulOrd cmp (GoKey.eq : κ → κ → Bool)) (ks : List κ) (h11 : ks.length ≤ 11)
    (ops : List (HOp κ ν)) (hk : ∀ k ∈ Agree.inserted ops, ∃ k' ∈ ks, GoKey.eq k k' = true)
    (hr : ∀ k, HOp.remove k ∉ ops) (hb : BStore κ ν) (hm : MapHeap κ ν) (hs : ops.length < 2 ^ 64) :
    ∃ rs sb sm, runGo (BMap.step cmp) ops (hb, BMap.new) = .ok (rs, sb) ∧
      runGo HMap.step ops (HMap.new hm) = .ok (rs, sm) :=
  C172_maps_partial hc ops (Agree.admissible hc ks h11 ops hk hr [] .nil (by simp)) hb hm hs

omit [GoKey κ] [LawfulGoKey κ] in
theorem runGo_append {S O R : Type} (step : O → S → Go (S × R)) (as bs : List O) (s s' : S) (rs : List R)
    (h : runGo step as s = .ok (rs, s')) :
    runGo step (as ++ bs) s = (do let (qs, t) ← runGo step bs s'; .ok (rs ++ qs, t)) := by
  induction as generalizing s rs with
  | nil =>
    cases h
    show runGo step bs s' = _
    cases runGo step bs s' <;> rfl
  | cons a as ih =>
    simp only [runGo] at h
    cases e1 : step a s with
    | error e => rw [e1] at h; cases h
    | ok p =>
      obtain ⟨s1, r1⟩ := p
      rw [e1] at h
      simp only [Go.bind_ok] at h
      cases e2 : runGo step as s1 with
      | error e => rw [e2] at h; cases h
      | ok q =>
        obtain ⟨rs1, s2⟩ := q
        rw [e2] at h
        cases h
        simp only [List.cons_append, runGo, e1, Go.bind_ok, ih s1 rs1 e2]
        cases runGo step bs s2 <;> rfl

/-- C172 fails: when a history has left eleven to twenty keys, the insertion of a new key above the eleventh
and then Get of that key: the HashMap gives the value, the BTreeMap None. -/
theorem C172_maps_fails (hc : LawfulOrd cmp (GoKey.eq : κ → κ → Bool)) (ops : List (HOp κ ν))
    (ha : Admissible cmp ops []) (h21 : ((runMap (ordStep cmp) ops []).2).length < 21) {q : κ × ν}
    (hq : (runMap (ordStep cmp) ops []).2[10]? = some q) {key : κ} (hlt : cmp q.1 key = .lt)
    (hnew : OMap.mem cmp (runMap (ordStep cmp) ops []).2 key = false) (value : ν) (hb : BStore κ ν)
    (hm : MapHeap κ ν) (hs : ops.length + 2 < 2 ^ 64) :
    ∃ rs sb sm, runGo (BMap.step cmp) (ops ++ [.insert key value, .get key]) (hb, BMap.new) =
        .ok (rs ++ [.opt none, .opt none], sb) ∧
      runGo HMap.step (ops ++ [.insert key value, .get key]) (HMap.new hm) =
        .ok (rs ++ [.opt none, .opt (some value)], sm) := by
  have hl := hc.lawfulCmp
  obtain ⟨h1, m1, e1, _⟩ := C72_btree_history_partial hl ops ha hb
  obtain ⟨h2, m2, i1, _, i3, _⟩ := C72_insert_fails hl ⟨hb, ops, _, ha, e1, rfl⟩ h21 hq hlt hnew value
  obtain ⟨h3, m3, f1, f2, _⟩ := C69_map_history ops (HMap.new hm).1 (HMap.new hm).2 _ (C69_map_new hm 0).1 (by
    have : ops.length < 2 ^ 64 := by omega
    simpa [FMap.empty] using this)
  obtain ⟨ag1, ag2⟩ := (Agree.Maps.new (ν := ν) cmp).run hc ops
  obtain ⟨h4, j1, j2, _⟩ := HMap.insert_eq f2 key value
  refine ⟨(runMap (ordStep cmp) ops []).1, (h2, m2), (h4, m3), ?_, ?_⟩
  · rw [runGo_append _ _ _ _ _ _ e1]
    simp [runGo, BMap.step, i1, i3]
  · rw [runGo_append _ _ _ _ _ _ f1]
    have hn : (runMap mapStep ops FMap.empty).2.get key = none := by
      rw [ag2.get]
      exact OMap.lookup_eq_none.2 hnew
    obtain ⟨r, es, hd, hr, he⟩ := j2
    have hg : m3.get h4 key = .ok ⟨some value⟩ := by
      simp only [HMap.get]
      rw [HMap.load_eq hd hr, GoMap.get_eq, he.lk]
      simp [FMap.insert, LawfulGoKey.refl, Opt.some]
    simp [runGo, HMap.step, j1, hg, hn, ag1]
end

section
variable {κ : Type} [GoKey κ] {cmp : κ → κ → Ordering}

/-- The same call on a HashSet. -/
def Agree.onHash : TOp κ → SOp κ
  | .insert k => .insert k
  | .remove k => .remove k
  | .contains k => .contains k
  | .len => .len
  | .isEmpty => .isEmpty
  | .clear => .clear

/-- The ordered set and the unordered one have the same elements. -/
structure Agree.Sets (cmp : κ → κ → Ordering) (l : List (κ × Unit)) (p : FSet κ) : Prop where
  asc : Ascending cmp l
  mem : ∀ k, p.mem k = OMap.mem cmp l k
  size : p.size = l.length

theorem Agree.Sets.step (hc : LawfulOrd cmp (GoKey.eq : κ → κ → Bool)) {l : List (κ × Unit)} {p : FSet κ}
    (h : Agree.Sets cmp l p) (o : TOp κ) :
    (osetStep cmp o l).2 = (setStep (onHash o) p).2 ∧
      Agree.Sets cmp (osetStep cmp o l).1 (setStep (onHash o) p).1 := by
  have hl := hc.lawfulCmp
  cases o with
  | insert k =>
    refine ⟨by simp [osetStep, setStep, onHash, h.mem], OMap.ascending_insert hl h.asc k (), ?_, ?_⟩
    · intro k'
      simp only [osetStep, setStep, onHash, FSet.insert, h.mem, ← OMap.lookup_isSome, OMap.lookup_insert hl,
        eqb hc k' k]
      by_cases e : cmp k' k = .eq
      · simp [e]
      · have : (cmp k' k == .eq) = false := by simp [e]
        simp [e, this]
    · simp only [osetStep, setStep, onHash, FSet.insert, OMap.length_insert hl, h.mem, h.size]
  | remove k =>
    refine ⟨by simp [osetStep, setStep, onHash, h.mem], OMap.ascending_remove h.asc k, ?_, ?_⟩
    · intro k'
      simp only [osetStep, setStep, onHash, FSet.remove, h.mem, ← OMap.lookup_isSome, OMap.lookup_remove hl,
        eqb hc k' k]
      by_cases e : cmp k' k = .eq
      · simp [e]
      · have : (cmp k' k == .eq) = false := by simp [e]
        simp [e, this]
    · simp only [osetStep, setStep, onHash, FSet.remove, OMap.length_remove hl h.asc, h.mem, h.size]
  | contains k => exact ⟨by simp [osetStep, setStep, onHash, h.mem], h⟩
  | len => exact ⟨by simp [osetStep, setStep, onHash, h.size], h⟩
  | isEmpty => exact ⟨by simp [osetStep, setStep, onHash, h.size], h⟩
  | clear => exact ⟨rfl, .nil, fun _ => rfl, rfl⟩

theorem Agree.Sets.run (hc : LawfulOrd cmp (GoKey.eq : κ → κ → Bool)) (ops : List (TOp κ)) {l : List (κ × Unit)}
    {p : FSet κ} (h : Agree.Sets cmp l p) :
    (runMap (osetStep cmp) ops l).1 = (runMap setStep (ops.map onHash) p).1 ∧
      Agree.Sets cmp (runMap (osetStep cmp) ops l).2 (runMap setStep (ops.map onHash) p).2 := by
  induction ops generalizing l p with
  | nil => exact ⟨rfl, h⟩
  | cons o ops ih =>
    obtain ⟨h1, h2⟩ := h.step hc o
    obtain ⟨h3, h4⟩ := ih h2
    exact ⟨by simp [runMap, h1, h3], by simpa [runMap] using h4⟩

variable [LawfulGoKey κ]

/-- C172, in part: likewise a BTreeSet and a HashSet; and afterwards, if they are not empty, IntoIter of the
BTreeSet gives what the elements of the HashSet are, sorted, in whatever order Go iterates over it.  Missing:
other histories (C76) and IntoIter of an empty BTreeSet, which panics (`C76_empty_fails`). -/
theorem C172_sets_partial (hc : LawfulOrd cmp (GoKey.eq : κ → κ → Bool)) (S : SortLib) (g : Growth)
    (ops : List (TOp κ)) (ha : SetAdmissible cmp ops []) (hb : BSet.Store κ) (hm : SetHeap κ)
    (hs : ops.length < 2 ^ 64) :
    ∃ rs h1 b h2 s, runGo (BSet.step cmp) ops (hb, BSet.new) = .ok (rs, (h1, b)) ∧
      runGo HSet.step (ops.map onHash) (HSet.new hm) = .ok (rs, (h2, s)) ∧
      (b.length ≠ 0 → ∀ ord c, s.hashMap.Ranges h2 ord → ∃ u l it,
        (⟨HSet.asSlice ord, c⟩ : Vec κ).sort S (some cmp) = .ok u ∧ SameBy GoKey.eq l u.data ∧
        b.intoIter g h1 = .ok it ∧ ∀ n, it.nexts n = .ok ((List.range n).map fun i => l[i]?)) := by
  have hl := hc.lawfulCmp
  obtain ⟨h1, b, e1, e2, _⟩ := C76_set_history_partial hl ops ha hb
  obtain ⟨h2, s, f1, f2, _⟩ := C71_set_history (ops.map onHash) (HSet.new hm).1 (HSet.new hm).2 _ (C71_set_new hm 0).1 (by
    simpa [FSet.empty] using hs)
  obtain ⟨ag1, ag2⟩ := Agree.Sets.run hc ops (l := []) (p := FSet.empty) ⟨.nil, fun _ => rfl, rfl⟩
  refine ⟨_, h1, b, h2, s, e1, by rw [ag1]; exact f1, ?_⟩
  intro hne ord c ho
  obtain ⟨a1, _, a3, _, a5⟩ := C76_set_elements_partial hl g e2
  obtain ⟨it, i1, i2⟩ := a5 (by
    intro h0
    rw [h0] at a3
    exact hne a3)
  obtain ⟨k, k1, _, k3, k4, _⟩ := C71_set_iter g h2 _ _ f2 ord ho
  obtain ⟨⟨u, u1, _, q1, r1, _, _⟩, _⟩ := C52_vec_sort S (⟨HSet.asSlice ord, c⟩ : Vec κ) cmp _ hc
  refine ⟨u, (runMap (osetStep cmp) ops []).2.map (·.1), it, u1, ?_, i1, ?_⟩
  · rw [k4] at q1
    refine asc_same hc (List.pairwise_map.2 a1) ?_ ?_
    · have hne : u.data.Pairwise fun a b => GoKey.eq a b = false := by
        refine (q1.pairwise_iff ?_).2 k1
        intro a b hab
        cases hb : GoKey.eq b a with
        | false => rfl
        | true => rw [(pEquiv hc).symm _ _ hb] at hab; cases hab
      refine (r1.and hne).imp ?_
      intro a b ⟨x, y⟩
      rw [eqb hc] at y
      cases hh : cmp a b <;> simp_all
    · intro x
      rw [any_perm q1]
      have h1 := k3 x
      rw [ag2.mem, OMap.mem] at h1
      have h2 : (k.any fun v => GoKey.eq x v) = k.any fun a => cmp a x == .eq := by
        congr 1
        funext v
        exact eqb' hc x v
      rw [h2] at h1
      rw [← h1, List.any_map]
      congr 1
      funext e
      show (cmp e.1 x == .eq) = (cmp x e.1 == .eq)
      rw [← eqb hc, eqb' hc]
  · intro n
    rw [i2 n]
    simp
end

/-! ### Instances -/

theorem Agree.intLawful : LawfulOrd (compare : Int → Int → Ordering) GoKey.eq where
  swap a b := by
    simp only [compare, compareOfLessAndEq]
    repeat' split
    all_goals first | rfl | (exfalso; omega)
  trans a b c := by
    simp only [compare, compareOfLessAndEq]
    repeat' split
    all_goals first | (intros; simp_all; done) | (intros; omega)
  eq_iff a b := by
    simp only [compare, compareOfLessAndEq, GoKey.eq]
    repeat' split
    all_goals simp_all
    all_goals omega

/-- C171, concretely: 3, 1, 3, 2 (sorted: 1, 2, 3, 3). -/
example : (⟨[1, 2, 3, 3], 4⟩ : Vec Int).dedup GoKey.eq = .ok ⟨[1, 2, 3], 4⟩ ∧
    ∃ h' s, HSet.fromSlice [3, 1, 3, 2] ([] : SetHeap Int) = (.ok s, h') ∧ s.len h' = 3 ∧
      s.hashMap.Ranges h' [(3, ()), (1, ()), (2, ())] := by
  refine ⟨by decide, _, _, rfl, by decide, List.Perm.of_eq (by decide)⟩
example := C171_distinct Agree.intLawful mergeSortLib [3, 1, 3, 2] 4 [] (by decide)
example := C171_search Agree.intLawful mergeSortLib [5, 6] 2 [] (⟨[6, 0, 5], 2, 2⟩ : VecDeque Int)
  ⟨by decide, by decide, by decide, by decide⟩ (by decide) 6
example := C171_heap Agree.intLawful mergeSortLib doubling [3, 1, 3, 2] 4 (by decide)

/-- C172, concretely: a history with three keys, one of them inserted twice. -/
example : (∀ k ∈ Agree.inserted ([.insert 2 20, .insert 1 10, .get 2, .insert 2 21, .len, .get 2] : List (HOp Int Int)),
      ∃ k' ∈ ([1, 2] : List Int), GoKey.eq k k' = true) ∧
    ∃ s, runGo (BMap.step compare) ([.insert 2 20, .insert 1 10, .get 2, .insert 2 21, .len, .get 2] : List (HOp Int Int))
      ([], BMap.new) = .ok ([.opt none, .opt none, .opt (some 20), .opt (some 20), .nat 2, .opt (some 21)], s) := by
  refine ⟨by decide, _, rfl⟩

example := C172_sets_partial Agree.intLawful mergeSortLib doubling
  [.insert 3, .insert 1, .insert 3, .remove 2, .contains 1, .len] (by decide) [] [] (by decide)

/-- C172 fails, concretely: eleven keys and then a twelfth above them. -/
example := C172_maps_fails Agree.intLawful ((List.range 11).map fun (i : Nat) => (.insert (i : Int) (0 : Int) : HOp Int Int))
  (by decide) (by decide) (q := (10, 0)) (by decide) (key := 11) (by decide) (by decide) 7 [] [] (by decide)
end Gost
