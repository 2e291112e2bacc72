import Verif.Model.BinaryHeap
import Verif.Props.VecSearch
import Verif.Props.Misc
/-
Properties C66 - C68 and C94: binary heaps.
-/
set_option linter.unusedSectionVars false
namespace Gost
open Spec

variable {α : Type}

/-- `a ≤ b` according to a Cmp method. -/
def Spec.cmpLe (cmp : α → α → Ordering) (a b : α) : Prop := cmp a b ≠ .gt

/-- What the heap needs of a Cmp method: `≤` is total and transitive. -/
structure Spec.TotalCmp (cmp : α → α → Ordering) : Prop where
  total : ∀ a b, cmpLe cmp a b ∨ cmpLe cmp b a
  trans : ∀ a b c, cmpLe cmp a b → cmpLe cmp b c → cmpLe cmp a c

/-- Every lawful Cmp (C23) is total. -/
theorem Spec.LawfulOrd.totalCmp {cmp : α → α → Ordering} {eq : α → α → Bool} (h : LawfulOrd cmp eq) :
    TotalCmp cmp where
  total a b := by
    unfold cmpLe
    rw [h.swap a b]
    cases cmp a b <;> simp [Ordering.swap]
  trans := h.trans

theorem Spec.TotalCmp.refl {cmp : α → α → Ordering} (h : TotalCmp cmp) (a : α) : cmpLe cmp a a := by
  rcases h.total a a with h | h <;> exact h

/-- The heap order: no element is greater than its parent. -/
def Spec.IsHeap (cmp : α → α → Ordering) (l : List α) : Prop :=
  ∀ i x y, 0 < i → l[i]? = some x → l[(i - 1) / 2]? = some y → cmpLe cmp x y

theorem Vec.swap_ok (v : Vec α) (i j : Nat) (hi : i < v.data.length) (hj : j < v.data.length) :
    ∃ v', v.swap i j = .ok v' ∧ v'.cap = v.cap ∧ v'.data.Perm v.data ∧ v'.data.length = v.data.length ∧
      ∀ k, v'.data[k]? = if k = i then v.data[j]? else if k = j then v.data[i]? else v.data[k]? := by
  refine ⟨⟨(v.data.set i v.data[j]).set j v.data[i], v.cap⟩, ?_, rfl, List.set_set_perm hi hj, by simp, ?_⟩
  · simp [Vec.swap, Vec.swapData, index_lt hi, index_lt hj, setIndex, hi, hj]
  · intro k
    simp only [List.getElem?_set, List.length_set]
    by_cases h1 : j = k
    · subst h1
      by_cases h2 : j = i
      · subst h2; simp [hj]
      · simp [h2, hj]
    · by_cases h2 : k = i
      · subst h2; simp [h1, hi, hj]
      · simp [h1, h2, Ne.symm h1, Ne.symm h2]

/-! ### sift up -/

/-- All of the heap order except between `pos` and its parent; the children of `pos` are below the parent
of `pos`. -/
def UpInv (cmp : α → α → Ordering) (l : List α) (pos : Nat) : Prop :=
  (∀ i x y, 0 < i → i ≠ pos → l[i]? = some x → l[(i - 1) / 2]? = some y → cmpLe cmp x y) ∧
  (∀ i x y, 0 < pos → 0 < i → (i - 1) / 2 = pos → l[i]? = some x → l[(pos - 1) / 2]? = some y → cmpLe cmp x y)

theorem gt_of_not {o : Ordering} (h : ¬ (o = .lt ∨ o = .eq)) : o = .gt := by cases o <;> simp_all
theorem le_of {o : Ordering} (h : o = .lt ∨ o = .eq) : o ≠ .gt := by rintro rfl; simp_all

/-- One swap with the parent. -/
theorem UpInv.step {cmp : α → α → Ordering} (hc : TotalCmp cmp) {l l1 : List α} {pos : Nat} {elt : α} (h0 : 0 < pos)
    (hp : l[pos]? = some elt) (hpar : (pos - 1) / 2 < l.length) (hle : cmpLe cmp l[(pos - 1) / 2] elt)
    (hget : ∀ k, l1[k]? = if k = pos then some l[(pos - 1) / 2] else if k = (pos - 1) / 2 then some elt else l[k]?)
    (hu : UpInv cmp l pos) : UpInv cmp l1 ((pos - 1) / 2) := by
  constructor
  · intro i x y hi hne hx hy
    rw [hget] at hx hy
    rw [if_neg hne] at hx
    by_cases hip : i = pos
    · subst hip
      rw [if_pos rfl] at hx
      rw [if_neg (by omega), if_pos rfl] at hy
      cases hx; cases hy
      exact hle
    · rw [if_neg hip] at hx
      by_cases hpi : (i - 1) / 2 = pos
      · rw [if_pos hpi] at hy
        cases hy
        exact hu.2 i x _ h0 hi hpi hx (List.getElem?_eq_getElem hpar)
      · rw [if_neg hpi] at hy
        by_cases hpq : (i - 1) / 2 = (pos - 1) / 2
        · rw [if_pos hpq] at hy
          cases hy
          refine hc.trans _ _ _ ?_ hle
          exact hu.1 i x _ hi hip hx (by rw [hpq, List.getElem?_eq_getElem hpar])
        · rw [if_neg hpq] at hy
          exact hu.1 i x y hi hip hx hy
  · intro i x y hq hi hpi hx hy
    rw [hget] at hx hy
    rw [if_neg (by omega), if_neg (by omega)] at hy
    have hqy : cmpLe cmp l[(pos - 1) / 2] y :=
      hu.1 ((pos - 1) / 2) _ y hq (by omega) (List.getElem?_eq_getElem hpar) hy
    by_cases hip : i = pos
    · rw [if_pos hip] at hx
      cases hx
      exact hqy
    · rw [if_neg hip, if_neg (by omega)] at hx
      refine hc.trans _ _ _ (hu.1 i x _ hi hip hx ?_) hqy
      rw [hpi, List.getElem?_eq_getElem hpar]

theorem BHeap.siftUpLoop_eq (cmp : α → α → Ordering) (hc : TotalCmp cmp) (fuel : Nat) (v : Vec α) (elt : α) (pos : Nat)
    (hf : pos < fuel) (hp : v.data[pos]? = some elt) (hu : UpInv cmp v.data pos) :
    ∃ v' p', siftUpLoop cmp 0 fuel v elt pos = .ok (some (v', p')) ∧ IsHeap cmp v'.data ∧ v'.data.Perm v.data ∧
      v'.cap = v.cap := by
  induction fuel generalizing v pos with
  | zero => omega
  | succ fuel ih =>
    have hpos : pos < v.data.length := (List.getElem?_eq_some_iff.1 hp).1
    have hpp : v.data[pos] = elt := (List.getElem?_eq_some_iff.1 hp).2
    unfold siftUpLoop
    by_cases h0 : pos > 0
    · rw [if_pos h0]
      have hpar : (pos - 1) / 2 < v.data.length := by omega
      simp only [index_lt hpar, Go.bind_ok]
      by_cases ho : cmp elt v.data[(pos - 1) / 2] = .lt ∨ cmp elt v.data[(pos - 1) / 2] = .eq
      · rw [if_pos ho]
        refine ⟨v, pos, rfl, ?_, .refl _, rfl⟩
        intro i x y hi hx hy
        by_cases he : i = pos
        · subst he
          rw [hp] at hx
          rw [List.getElem?_eq_getElem hpar] at hy
          cases hx; cases hy
          exact le_of ho
        · exact hu.1 i x y hi he hx hy
      · rw [if_neg ho]
        have hgt := gt_of_not ho
        have hle : cmpLe cmp v.data[(pos - 1) / 2] elt := by
          rcases hc.total elt v.data[(pos - 1) / 2] with h | h
          · exact absurd hgt h
          · exact h
        obtain ⟨v1, e1, e2, e3, e4, e5⟩ := v.swap_ok pos ((pos - 1) / 2) hpos hpar
        simp only [e1, Go.bind_ok]
        have hget : ∀ k, v1.data[k]? = if k = pos then some v.data[(pos - 1) / 2] else
            if k = (pos - 1) / 2 then some elt else v.data[k]? := by
          intro k
          rw [e5 k, hp, List.getElem?_eq_getElem hpar]
        have hup := hu.step hc h0 hp hpar hle hget
        obtain ⟨v', p', f1, f2, f3, f4⟩ := ih v1 ((pos - 1) / 2) (by omega)
          (by rw [hget, if_neg (by omega), if_pos rfl]) hup
        exact ⟨v', p', f1, f2, f3.trans e3, f4.trans e2⟩
    · rw [if_neg h0]
      refine ⟨v, pos, rfl, ?_, .refl _, rfl⟩
      intro i x y hi hx hy
      exact hu.1 i x y hi (by omega) hx hy

theorem BHeap.siftUp_eq (cmp : α → α → Ordering) (hc : TotalCmp cmp) (v : Vec α) (pos : Nat)
    (hp : pos < v.data.length) (hu : UpInv cmp v.data pos) :
    ∃ v' p', siftUp cmp v 0 pos = .ok (some (v', p')) ∧ IsHeap cmp v'.data ∧ v'.data.Perm v.data ∧
      v'.cap = v.cap := by
  unfold siftUp Vec.getUnchecked
  rw [index_lt hp]
  simp only [Go.bind_ok]
  exact siftUpLoop_eq cmp hc (pos + 1) v _ pos (by omega) (List.getElem?_eq_getElem hp) hu

theorem BHeap.push_eq (g : Growth) (cmp : α → α → Ordering) (hc : TotalCmp cmp) (s : BHeap α) (hs : IsHeap cmp s.vec.data)
    (x : α) :
    ∃ s', s.push g cmp x = .ok (some s') ∧ IsHeap cmp s'.vec.data ∧ s'.vec.data.Perm (x :: s.vec.data) := by
  unfold push
  obtain ⟨v', p', e1, e2, e3, e4⟩ := siftUp_eq cmp hc (s.vec.push g x) s.len
    (by simp [Vec.push, Vec.goAppend]) (by
      constructor
      · intro i a b hi hne ha hb
        simp only [Vec.push, Vec.goAppend] at ha hb
        have h1 := (List.getElem?_eq_some_iff.1 ha).1
        simp only [List.length_append, List.length_singleton, BHeap.len, Vec.len] at h1 hne
        rw [List.getElem?_append_left (by omega)] at ha hb
        exact hs i a b hi ha hb
      · intro i a b hp hi hpi ha hb
        simp only [Vec.push, Vec.goAppend] at ha
        have h1 := (List.getElem?_eq_some_iff.1 ha).1
        simp only [List.length_append, List.length_singleton, BHeap.len, Vec.len] at h1 hpi
        omega)
  simp only [e1, Go.bind_ok, Option.map_some]
  refine ⟨⟨v'⟩, rfl, e2, e3.trans ?_⟩
  simp only [Vec.push, Vec.goAppend]
  exact List.perm_append_comm

/-! ### sift down -/

/-- All of the heap order except around `pos`; the children of `pos` are below the parent of `pos`. -/
def DownInv (cmp : α → α → Ordering) (l : List α) (pos : Nat) : Prop :=
  (∀ i x y, 0 < i → i ≠ pos → (i - 1) / 2 ≠ pos → l[i]? = some x → l[(i - 1) / 2]? = some y → cmpLe cmp x y) ∧
  (∀ i x y, 0 < pos → 0 < i → (i - 1) / 2 = pos → l[i]? = some x → l[(pos - 1) / 2]? = some y → cmpLe cmp x y)

/-- Swap `pos` with a greatest child. -/
theorem DownInv.step (cmp : α → α → Ordering) (l l' : List α) (pos c : Nat)
    (hd : DownInv cmp l pos) (h0 : 0 < c) (hcp : (c - 1) / 2 = pos)
    (hlc : c < l.length)
    (hmax : ∀ i x y, 0 < i → i ≠ c → (i - 1) / 2 = pos → l[i]? = some x → l[c]? = some y → cmpLe cmp x y)
    (hget : ∀ k, l'[k]? = if k = pos then l[c]? else if k = c then l[pos]? else l[k]?) :
    DownInv cmp l' c := by
  have hcx : l[c]? = some l[c] := List.getElem?_eq_getElem hlc
  constructor
  · intro i x y hi hne hpar hx hy
    rw [hget] at hx hy
    rw [if_neg hne] at hx
    rw [if_neg hpar] at hy
    by_cases hip : i = pos
    · subst hip
      rw [if_pos rfl] at hx
      rw [if_neg (by omega)] at hy
      exact hd.2 c x y hi h0 hcp hx hy
    · rw [if_neg hip] at hx
      by_cases hpp : (i - 1) / 2 = pos
      · rw [if_pos hpp] at hy
        exact hmax i x y hi hne hpp hx hy
      · rw [if_neg hpp] at hy
        exact hd.1 i x y hi hip hpp hx hy
  · intro i x y _ hi hpar hx hy
    rw [hget] at hx hy
    rw [if_neg (by omega), if_neg (by omega)] at hx
    rw [if_pos hcp] at hy
    refine hd.1 i x y hi (by omega) (by omega) hx ?_
    rw [hpar]
    exact hy

theorem BHeap.siftDownLoop_eq (cmp : α → α → Ordering) (hc : TotalCmp cmp) (fuel : Nat) (v : Vec α) (pos : Nat)
    (hf : v.data.length < fuel + pos) (hp : pos < v.data.length) (hd : DownInv cmp v.data pos) :
    ∃ v' p', siftDownLoop cmp v.data.length fuel v pos (2 * pos + 1) = .ok (some (v', p', 2 * p' + 1)) ∧
      DownInv cmp v'.data p' ∧ v'.data.Perm v.data ∧ v'.cap = v.cap ∧ p' < v.data.length ∧
      v.data.length ≤ 2 * p' + 2 := by
  induction fuel generalizing v pos with
  | zero => omega
  | succ fuel ih =>
    unfold siftDownLoop
    by_cases hb : 2 * pos + 1 ≤ v.data.length - 2
    · rw [if_pos hb]
      have h1 : 2 * pos + 1 < v.data.length := by omega
      have h2 : 2 * pos + 1 + 1 < v.data.length := by omega
      rw [index_lt h1, index_lt h2]
      simp only [Go.bind_ok]
      have key : ∀ c, (c = 2 * pos + 1 ∨ c = 2 * pos + 2) →
          (∀ i x y, 0 < i → i ≠ c → (i - 1) / 2 = pos → v.data[i]? = some x → v.data[c]? = some y → cmpLe cmp x y) →
          ∃ v' p', (v.swap pos c >>= fun v1 => siftDownLoop cmp v.data.length fuel v1 c (2 * c + 1)) =
              .ok (some (v', p', 2 * p' + 1)) ∧
            DownInv cmp v'.data p' ∧ v'.data.Perm v.data ∧ v'.cap = v.cap ∧ p' < v.data.length ∧
            v.data.length ≤ 2 * p' + 2 := by
        intro c hcc hmax
        have hlc : c < v.data.length := by omega
        obtain ⟨v1, e1, e2, e3, e4, e5⟩ := v.swap_ok pos c hp hlc
        rw [e1]
        simp only [Go.bind_ok]
        obtain ⟨v', p', f1, f2, f3, f4, f5, f6⟩ := ih v1 c (by omega) (by omega)
          (DownInv.step cmp v.data v1.data pos c hd (by omega) (by omega) hlc hmax e5)
        rw [e4] at f1 f5 f6
        exact ⟨v', p', f1, f2, f3.trans e3, f4.trans e2, f5, f6⟩
      by_cases ho : cmp v.data[2 * pos + 1] v.data[2 * pos + 1 + 1] = .lt ∨
          cmp v.data[2 * pos + 1] v.data[2 * pos + 1 + 1] = .eq
      · rw [if_pos ho]
        refine key (2 * pos + 1 + 1) (by omega) ?_
        intro i x y hi hne hpi hx hy
        have : i = 2 * pos + 1 := by omega
        subst this
        rw [List.getElem?_eq_getElem h1] at hx
        rw [List.getElem?_eq_getElem h2] at hy
        cases hx; cases hy
        exact le_of ho
      · rw [if_neg ho]
        have hgt := gt_of_not ho
        refine key (2 * pos + 1) (by omega) ?_
        intro i x y hi hne hpi hx hy
        have : i = 2 * pos + 1 + 1 := by omega
        subst this
        rw [List.getElem?_eq_getElem h2] at hx
        rw [List.getElem?_eq_getElem h1] at hy
        cases hx; cases hy
        rcases hc.total v.data[2 * pos + 1] v.data[2 * pos + 1 + 1] with h | h
        · exact absurd hgt h
        · exact h
    · rw [if_neg hb]
      exact ⟨v, pos, rfl, hd, .refl _, rfl, hp, by omega⟩

theorem BHeap.siftDownToBottom_eq (cmp : α → α → Ordering) (hc : TotalCmp cmp) (v : Vec α)
    (hne : 0 < v.data.length) (hd : DownInv cmp v.data 0) :
    ∃ v', siftDownToBottom cmp v 0 = .ok (some v') ∧ IsHeap cmp v'.data ∧ v'.data.Perm v.data ∧ v'.cap = v.cap := by
  unfold siftDownToBottom Vec.getUnchecked
  rw [index_lt hne]
  simp only [Go.bind_ok]
  obtain ⟨v1, p, e1, e2, e3, e4, e5, e6⟩ := siftDownLoop_eq cmp hc (v.data.length + 1) v 0 (by omega) hne hd
  have hlen := e3.length_eq
  rw [show v.len = v.data.length from rfl, e1]
  simp only [Go.bind_ok]
  have up : ∀ (w : Vec α) (q : Nat), q < w.data.length → DownInv cmp w.data q → w.data.length ≤ 2 * q + 1 →
      UpInv cmp w.data q := by
    intro w q hq hdq hl
    refine ⟨?_, hdq.2⟩
    intro i x y hi hne hx hy
    have := (List.getElem?_eq_some_iff.1 hx).1
    exact hdq.1 i x y hi hne (by omega) hx hy
  by_cases hb : 2 * p + 1 = v.data.length - 1
  · rw [if_pos hb]
    obtain ⟨v2, f1, f2, f3, f4, f5⟩ := v1.swap_ok p (2 * p + 1) (by omega) (by omega)
    rw [f1]
    simp only [Go.bind_ok]
    have hdown := DownInv.step cmp v1.data v2.data p (2 * p + 1) e2 (by omega) (by omega) (by omega) (by
      intro i x y hi hne hpi hx hy
      have := (List.getElem?_eq_some_iff.1 hx).1
      omega) f5
    obtain ⟨v3, p3, g1, g2, g3, g4⟩ := siftUp_eq cmp hc v2 (2 * p + 1) (by omega)
      (up v2 _ (by omega) hdown (by omega))
    rw [g1]
    exact ⟨v3, rfl, g2, g3.trans (f3.trans e3), g4.trans (f2.trans e4)⟩
  · rw [if_neg hb]
    simp only [Go.bind_ok]
    obtain ⟨v3, p3, g1, g2, g3, g4⟩ := siftUp_eq cmp hc v1 p (by omega) (up v1 _ (by omega) e2 (by omega))
    rw [g1]
    exact ⟨v3, rfl, g2, g3.trans e3, g4.trans e4⟩

/-- The root of a heap is a greatest element. -/
theorem Spec.IsHeap.root {cmp : α → α → Ordering} (hc : TotalCmp cmp) {l : List α} (h : IsHeap cmp l) (r : α)
    (hr : l[0]? = some r) : ∀ x ∈ l, cmpLe cmp x r := by
  have key : ∀ (i : Nat) x, l[i]? = some x → cmpLe cmp x r := by
    intro i
    induction i using Nat.strongRecOn with
    | ind i ih =>
      intro x hx
      by_cases h0 : i = 0
      · subst h0
        rw [hr] at hx
        cases hx
        exact hc.refl _
      · have hlt := (List.getElem?_eq_some_iff.1 hx).1
        have hp : (i - 1) / 2 < l.length := by omega
        have h1 := h i x _ (by omega) hx (List.getElem?_eq_getElem hp)
        exact hc.trans _ _ _ h1 (ih ((i - 1) / 2) (by omega) _ (List.getElem?_eq_getElem hp))
  intro x hx
  obtain ⟨i, hi⟩ := List.getElem?_of_mem hx
  exact key i x hi

theorem Spec.IsHeap.take {cmp : α → α → Ordering} {l : List α} (h : IsHeap cmp l) (n : Nat) :
    IsHeap cmp (l.take n) := by
  intro i x y hi hx hy
  rw [List.getElem?_take] at hx hy
  split at hx
  · split at hy
    · exact h i x y hi hx hy
    · cases hy
  · cases hx

theorem BHeap.pop_eq (cmp : α → α → Ordering) (hc : TotalCmp cmp) (s : BHeap α) (hs : IsHeap cmp s.vec.data) :
    (s.vec.data = [] ∧ s.pop cmp = .ok (some (s, Opt.none))) ∨
    ∃ s' m, s.pop cmp = .ok (some (s', Opt.some m)) ∧ IsHeap cmp s'.vec.data ∧
      s.vec.data.Perm (m :: s'.vec.data) ∧ ∀ x ∈ s.vec.data, cmpLe cmp x m := by
  unfold pop Vec.pop
  by_cases he : s.vec.data.length = 0
  · left
    rw [if_pos he]
    exact ⟨by simpa using he, rfl⟩
  · right
    rw [if_neg he, index_lt (by omega)]
    simp only [Go.bind_ok, Opt.some, Opt.isNone, Opt.unwrap, deref, Bool.false_eq_true, if_false]
    have hroot := hs.root hc s.vec.data[0] (List.getElem?_eq_getElem (by omega))
    have hsplit : s.vec.data = s.vec.data.take (s.vec.data.length - 1) ++ [s.vec.data[s.vec.data.length - 1]] := by
      have h1 := List.take_append_drop (s.vec.data.length - 1) s.vec.data
      rw [List.drop_eq_getElem_cons (by omega), List.drop_eq_nil_of_le (by omega)] at h1
      exact h1.symm
    by_cases h1 : s.vec.data.length = 1
    · have hem : (Vec.isEmpty ⟨s.vec.data.take (s.vec.data.length - 1), s.vec.cap⟩) = true := by
        simp [Vec.isEmpty, Vec.len, h1]
      rw [if_neg (by rw [hem]; simp)]
      refine ⟨_, _, rfl, hs.take _, ?_, ?_⟩
      · simp only
        exact (List.Perm.of_eq hsplit).trans List.perm_append_comm
      · intro x hx
        have := hroot x hx
        simpa [h1] using this
    · have hem : (Vec.isEmpty ⟨s.vec.data.take (s.vec.data.length - 1), s.vec.cap⟩) = false := by
        simp [Vec.isEmpty, Vec.len]; omega
      rw [if_pos (by rw [hem]; rfl)]
      have hl0 : 0 < (s.vec.data.take (s.vec.data.length - 1)).length := by simp; omega
      simp only [index_lt hl0, Go.bind_ok, Vec.setUnchecked, setIndex_lt hl0]
      have hx0 : (s.vec.data.take (s.vec.data.length - 1))[0] = s.vec.data[0] := by simp
      rw [hx0]
      generalize hlast : s.vec.data[s.vec.data.length - 1] = last at hsplit
      generalize hini : s.vec.data.take (s.vec.data.length - 1) = ini at hsplit hl0 hx0
      have hini' : IsHeap cmp ini := hini ▸ hs.take _
      obtain ⟨v', e1, e2, e3, e4⟩ := siftDownToBottom_eq cmp hc ⟨ini.set 0 last, s.vec.cap⟩ (by simpa using hl0) (by
        constructor
        · intro i x y hi hne hpar hx hy
          simp only at hx hy
          rw [List.getElem?_set_ne (by omega)] at hx hy
          exact hini' i x y hi hx hy
        · intro i x y h; omega)
      rw [e1]
      refine ⟨⟨v'⟩, s.vec.data[0], rfl, e2, ?_, hroot⟩
      have hcons : ini = s.vec.data[0] :: ini.tail := by
        cases ini with
        | nil => simp at hl0
        | cons a t => simp at hx0; simp [hx0]
      have hset : ini.set 0 last = last :: ini.tail := by
        cases ini with
        | nil => simp at hl0
        | cons a t => rfl
      have p1 : s.vec.data.Perm (s.vec.data[0] :: (ini.tail ++ [last])) := by
        refine List.Perm.of_eq (hsplit.trans ?_)
        rw [← List.cons_append, ← hcons]
      refine p1.trans ?_
      refine List.Perm.cons _ ?_
      refine List.Perm.trans List.perm_append_comm ?_
      refine List.Perm.trans (List.Perm.of_eq ?_) e3.symm
      simp only [hset, List.singleton_append]

/-! ### C66 -/

/-- Operations of a history. -/
inductive HeapOp (α : Type) where
  | push (v : α) | pop | clear | len | isEmpty | asSlice

/-- Specification: what an operation may do to a bag (a list up to permutation). -/
inductive Spec.HeapStep (cmp : α → α → Ordering) : HeapOp α → List α → Obs α → List α → Prop
  | push {v bag bag'} : bag'.Perm (v :: bag) → HeapStep cmp (.push v) bag .unit bag'
  | popNone : HeapStep cmp .pop [] (.opt none) []
  | popSome {m bag bag'} : bag.Perm (m :: bag') → (∀ x ∈ bag, cmpLe cmp x m) →
      HeapStep cmp .pop bag (.opt (some m)) bag'
  | clear {bag} : HeapStep cmp .clear bag .unit []
  | len {bag} : HeapStep cmp .len bag (.nat bag.length) bag
  | isEmpty {bag} : HeapStep cmp .isEmpty bag (.bool bag.isEmpty) bag
  | asSlice {bag l} : l.Perm bag → HeapStep cmp .asSlice bag (.other l) bag

/-- Specification: histories. -/
inductive Spec.HeapRun (cmp : α → α → Ordering) : List (HeapOp α) → List α → List (Obs α) → List α → Prop
  | nil {bag} : HeapRun cmp [] bag [] bag
  | cons {o os bag r bag1 rs bag2} : HeapStep cmp o bag r bag1 → HeapRun cmp os bag1 rs bag2 →
      HeapRun cmp (o :: os) bag (r :: rs) bag2

/-- The implementation; a loop that does not end would be `none`. -/
def BHeap.step (g : Growth) (cmp : α → α → Ordering) : HeapOp α → BHeap α → Option (BHeap α × Obs α)
  | .push v, s => (Go.toOption (s.push g cmp v)).join.map (·, .unit)
  | .pop, s => (Go.toOption (s.pop cmp)).join.map fun r => (r.1, .opt r.2.value)
  | .clear, s => some (s.clear, .unit)
  | .len, s => some (s, .nat s.len)
  | .isEmpty, s => some (s, .bool s.isEmpty)
  | .asSlice, s => some (s, .other s.asSlice)

/-- C66: for every total order and every history, no operation panics or loops for ever, Pop returns a
greatest element (None iff there is none) and removes exactly that one, Push adds exactly the pushed
one, Len and IsEmpty count, and AsSlice shows the contents in some order. -/
theorem C66_heap_history (g : Growth) (cmp : α → α → Ordering) (hc : TotalCmp cmp) (ops : List (HeapOp α))
    (s : BHeap α) (hs : IsHeap cmp s.vec.data) :
    ∃ rs s', Spec.runOps (BHeap.step g cmp) ops s = (rs, some s') ∧ IsHeap cmp s'.vec.data ∧
      HeapRun cmp ops s.vec.data rs s'.vec.data := by
  induction ops generalizing s with
  | nil => exact ⟨[], s, rfl, hs, .nil⟩
  | cons o ops ih =>
    have hone : ∃ r s1, BHeap.step g cmp o s = some (s1, r) ∧ IsHeap cmp s1.vec.data ∧
        HeapStep cmp o s.vec.data r s1.vec.data := by
      cases o with
      | push v =>
        obtain ⟨s1, e1, e2, e3⟩ := BHeap.push_eq g cmp hc s hs v
        exact ⟨.unit, s1, by simp [BHeap.step, e1], e2, .push e3⟩
      | pop =>
        rcases BHeap.pop_eq cmp hc s hs with ⟨e1, e2⟩ | ⟨s1, m, e1, e2, e3, e4⟩
        · refine ⟨.opt none, s, by simp [BHeap.step, e2, Opt.none], hs, ?_⟩
          rw [e1]
          exact .popNone
        · exact ⟨.opt (some m), s1, by simp [BHeap.step, e1, Opt.some], e2, .popSome e3 e4⟩
      | clear =>
        refine ⟨.unit, s.clear, rfl, ?_, .clear⟩
        intro i x y _ hx
        simp [BHeap.clear, Vec.clear, Vec.new] at hx
      | len => exact ⟨_, s, rfl, hs, .len⟩
      | isEmpty =>
        refine ⟨_, s, rfl, hs, ?_⟩
        have : s.isEmpty = s.vec.data.isEmpty := by
          unfold BHeap.isEmpty Vec.isEmpty Vec.len
          cases s.vec.data <;> rfl
        rw [this]
        exact .isEmpty
      | asSlice => exact ⟨_, s, rfl, hs, .asSlice (.refl _)⟩
    obtain ⟨r, s1, e1, e2, e3⟩ := hone
    obtain ⟨rs, s2, f1, f2, f3⟩ := ih s1 e2
    refine ⟨r :: rs, s2, ?_, f2, .cons e3 f3⟩
    simp only [Spec.runOps, e1, f1]

/-- C66: the constructors give heaps: new and with capacity empty, with length n of n zero values. -/
theorem C66_heap_new [Inhabited α] (cmp : α → α → Ordering) (hc : TotalCmp cmp) :
    IsHeap cmp (BHeap.new : BHeap α).vec.data ∧ (BHeap.new : BHeap α).vec.data = [] ∧
    (∀ n < 2 ^ 63, ∃ s, (BHeap.withCapacity n : Go (BHeap α)) = .ok s ∧ s.vec.data = [] ∧
      IsHeap cmp s.vec.data ∧ s.capacity = n) ∧
    (∀ n < 2 ^ 63, ∃ s, (BHeap.withLen n : Go (BHeap α)) = .ok s ∧ s.vec.data = List.replicate n default ∧
      IsHeap cmp s.vec.data) := by
  have hnil : IsHeap cmp ([] : List α) := by intro i x y _ hx; simp at hx
  refine ⟨hnil, rfl, ?_, ?_⟩
  · intro n hn
    exact ⟨⟨⟨[], n⟩⟩, by simp [BHeap.withCapacity, Vec.withCapacity, makeLen, hn], rfl, hnil, rfl⟩
  · intro n hn
    refine ⟨⟨⟨List.replicate n default, n⟩⟩, by simp [BHeap.withLen, Vec.withLen, makeLen, hn], rfl, ?_⟩
    intro i x y _ hx hy
    simp only [List.getElem?_replicate] at hx hy
    split at hx
    · split at hy
      · cases hx; cases hy
        exact hc.refl _
      · cases hy
    · cases hx

/-! ### C67 -/

theorem BHeap.sortedLoop_eq (cmp : α → α → Ordering) (hc : TotalCmp cmp) (fuel : Nat) (s : BHeap α) (w : Vec α)
    (i : Nat) (hf : s.vec.data.length < fuel) (hs : IsHeap cmp s.vec.data) (hn : s.vec.data.length ≤ w.data.length)
    (hi : s.vec.data ≠ [] → i + 1 = s.vec.data.length) (hsm : w.data.length < 2 ^ 63)
    (done : List α) (hdone : w.data.drop s.vec.data.length = done) (hsorted : done.Pairwise (cmpLe cmp))
    (hle : ∀ x ∈ s.vec.data, ∀ y ∈ done, cmpLe cmp x y) :
    ∃ s' w', sortedLoop cmp fuel s w i = .ok (some (s', w')) ∧ s'.vec.data = [] ∧
      w'.data.Perm (s.vec.data ++ done) ∧ w'.data.Pairwise (cmpLe cmp) := by
  induction fuel generalizing s w i done with
  | zero => omega
  | succ fuel ih =>
    unfold sortedLoop
    rcases BHeap.pop_eq cmp hc s hs with ⟨e1, -⟩ | ⟨s1, m, e1, e2, e3, e4⟩
    · have hem : s.isEmpty = true := by simp [BHeap.isEmpty, Vec.isEmpty, Vec.len, e1]
      rw [if_neg (by rw [hem]; simp)]
      refine ⟨s, w, rfl, e1, ?_, ?_⟩
      · rw [e1] at hdone ⊢
        simp only [List.length_nil, List.drop_zero, List.nil_append] at hdone ⊢
        rw [hdone]
      · rw [e1] at hdone
        simp only [List.length_nil, List.drop_zero] at hdone
        rw [hdone]; exact hsorted
    · have hlen := e3.length_eq
      simp only [List.length_cons] at hlen
      have hne : s.vec.data ≠ [] := fun h => by rw [h] at hlen; simp at hlen
      have hem : s.isEmpty = false := by
        simp [BHeap.isEmpty, Vec.isEmpty, Vec.len, hne]
      rw [if_pos (by rw [hem]; rfl), e1]
      have hi' := hi hne
      have hil : i < w.data.length := by omega
      simp only [Go.bind_ok, Opt.some, Opt.unwrap, deref, Vec.setUnchecked, setIndex_lt hil]
      have hdrop : (w.data.set i m).drop s1.vec.data.length = m :: done := by
        have : s1.vec.data.length = i := by omega
        rw [this, List.drop_eq_getElem_cons (by simpa using hil)]
        rw [List.getElem_set_self, List.drop_set_of_lt (by omega), ← hdone, hi']
      obtain ⟨s', w', f1, f2, f3, f4⟩ := ih s1 ⟨w.data.set i m, w.cap⟩ (usizeSub i 1) (by omega) e2
        (by simp only [List.length_set]; omega)
        (by
          intro h1
          have : 0 < s1.vec.data.length := List.length_pos_iff.2 h1
          have hsm' : i < 2 ^ 63 := by omega
          unfold usizeSub
          omega)
        (by simpa using hsm) (m :: done) hdrop
        (List.pairwise_cons.2 ⟨fun y hy => hle m (e3.mem_iff.2 (by simp)) y hy, hsorted⟩)
        (by
          intro x hx y hy
          have hxs : x ∈ s.vec.data := e3.mem_iff.2 (List.mem_cons_of_mem _ hx)
          rcases List.mem_cons.1 hy with rfl | hy
          · exact e4 x hxs
          · exact hle x hxs y hy)
      refine ⟨s', w', f1, f2, f3.trans ?_, f4⟩
      refine List.perm_middle.trans ?_
      rw [← List.cons_append]
      exact List.Perm.append_right _ e3.symm

/-- C67: IntoSortedVec gives a permutation of the contents in ascending order, and empties the heap. -/
theorem C67_intoSortedVec [Inhabited α] (cmp : α → α → Ordering) (hc : TotalCmp cmp) (s : BHeap α)
    (hs : IsHeap cmp s.vec.data) (hsm : s.len < 2 ^ 63) :
    ∃ s' w, s.intoSortedVec cmp = .ok (some (s', w)) ∧ w.data.Perm s.vec.data ∧
      w.data.Pairwise (cmpLe cmp) ∧ s'.vec.data = [] := by
  unfold BHeap.len Vec.len at hsm
  unfold BHeap.intoSortedVec
  simp only [Vec.withLen, makeLen, BHeap.len, Vec.len, hsm, if_true, Go.bind_ok]
  obtain ⟨s', w, e1, e2, e3, e4⟩ := BHeap.sortedLoop_eq cmp hc (s.vec.data.length + 1) s
    ⟨List.replicate s.vec.data.length default, s.vec.data.length⟩ (usizeSub s.vec.data.length 1) (by omega) hs
    (by simp)
    (by
      intro hne
      have : 0 < s.vec.data.length := List.length_pos_iff.2 hne
      unfold usizeSub
      omega)
    (by simpa using hsm) [] (by simp) .nil (by simp)
  exact ⟨s', w, e1, by simpa using e3, e4, e2⟩

/-- C67: IntoVec gives the elements of the heap, in some order; sorted they are the result of IntoSortedVec. -/
theorem C67_intoVec [Inhabited α] (cmp : α → α → Ordering) (hc : TotalCmp cmp) (s : BHeap α)
    (hs : IsHeap cmp s.vec.data) (hsm : s.len < 2 ^ 63) :
    s.intoVec.data.length = s.len ∧ (∀ x ∈ s.intoVec.data, ∃ m, s.intoVec.data[0]? = some m ∧ cmpLe cmp x m) ∧
    ∃ s' w, s.intoSortedVec cmp = .ok (some (s', w)) ∧ w.data.Perm s.intoVec.data := by
  obtain ⟨s', w, e1, e2, _⟩ := C67_intoSortedVec cmp hc s hs hsm
  refine ⟨rfl, fun x hx => ?_, s', w, e1, e2⟩
  have hpos : 0 < s.vec.data.length := List.length_pos_of_mem hx
  exact ⟨s.vec.data[0], List.getElem?_eq_getElem hpos, hs.root hc _ (List.getElem?_eq_getElem hpos) x hx⟩

/-! ### C68, C94 -/

theorem BHeap.siftUpLoop_any (cmp : α → α → Ordering) (fuel : Nat) (v : Vec α) (elt : α) (pos : Nat)
    (hf : pos < fuel) (hp : v.data[pos]? = some elt) :
    ∃ v' p', siftUpLoop cmp 0 fuel v elt pos = .ok (some (v', p')) ∧ v'.data.Perm v.data ∧
      (v'.data[0]? = v.data[0]? ∨ v'.data[0]? = some elt) := by
  induction fuel generalizing v pos with
  | zero => omega
  | succ fuel ih =>
    have hpos : pos < v.data.length := (List.getElem?_eq_some_iff.1 hp).1
    unfold siftUpLoop
    by_cases h0 : pos > 0
    · rw [if_pos h0]
      have hpar : (pos - 1) / 2 < v.data.length := by omega
      simp only [index_lt hpar, Go.bind_ok]
      by_cases ho : cmp elt v.data[(pos - 1) / 2] = .lt ∨ cmp elt v.data[(pos - 1) / 2] = .eq
      · rw [if_pos ho]
        exact ⟨v, pos, rfl, .refl _, .inl rfl⟩
      · rw [if_neg ho]
        obtain ⟨v1, e1, e2, e3, e4, e5⟩ := v.swap_ok pos ((pos - 1) / 2) hpos hpar
        simp only [e1, Go.bind_ok]
        obtain ⟨v', p', f1, f2, f3⟩ := ih v1 ((pos - 1) / 2) (by omega)
          (by rw [e5, if_neg (by omega), if_pos rfl, hp])
        refine ⟨v', p', f1, f2.trans e3, ?_⟩
        rw [e5 0, if_neg (by omega)] at f3
        by_cases hq : 0 = (pos - 1) / 2
        · rw [if_pos hq, hp] at f3
          exact .inr (by rcases f3 with h | h <;> exact h)
        · rw [if_neg hq] at f3
          exact f3
    · rw [if_neg h0]
      exact ⟨v, pos, rfl, .refl _, .inl rfl⟩

theorem BHeap.push_any (g : Growth) (cmp : α → α → Ordering) (s : BHeap α) (x : α) :
    ∃ s', s.push g cmp x = .ok (some s') ∧ s'.vec.data.Perm (s.vec.data ++ [x]) ∧
      (s.vec.data ≠ [] → s'.vec.data[0]? = s.vec.data[0]? ∨ s'.vec.data[0]? = some x) := by
  have hp : (s.vec.push g x).data[s.vec.data.length]? = some x := by simp [Vec.push, Vec.goAppend]
  have hlt := (List.getElem?_eq_some_iff.1 hp).1
  have hget := (List.getElem?_eq_some_iff.1 hp).2
  obtain ⟨v', p', e1, e2, e3⟩ := siftUpLoop_any cmp (s.vec.data.length + 1) (s.vec.push g x) x
    s.vec.data.length (by omega) hp
  refine ⟨⟨v'⟩, ?_, e2, ?_⟩
  · simp only [push, siftUp, BHeap.len, Vec.len, Vec.getUnchecked, index_lt hlt, hget, Go.bind_ok, e1,
      Option.map_some]
  · intro hne
    have : (s.vec.push g x).data[0]? = s.vec.data[0]? := by
      simp only [Vec.push, Vec.goAppend]
      rw [List.getElem?_append_left (List.length_pos_iff.2 hne)]
    rwa [this] at e3

theorem BHeap.pushAll_any (g : Growth) (cmp : α → α → Ordering) (l : List α) (s : BHeap α) (P : α → Prop)
    (hP : ∀ x ∈ l, P x) :
    ∃ s', pushAll g cmp l s = .ok (some s') ∧ s'.vec.data.Perm (s.vec.data ++ l) ∧
      ((∃ r, s.vec.data[0]? = some r ∧ P r) → ∃ r, s'.vec.data[0]? = some r ∧ P r) := by
  induction l generalizing s with
  | nil => exact ⟨s, rfl, by simp, id⟩
  | cons x l ih =>
    obtain ⟨s1, e1, e2, e3⟩ := push_any g cmp s x
    obtain ⟨s2, f1, f2, f3⟩ := ih s1 (fun y hy => hP y (List.mem_cons_of_mem _ hy))
    refine ⟨s2, by simp only [pushAll, e1, Go.bind_ok, f1], ?_, ?_⟩
    · refine f2.trans ?_
      have := e2.append_right l
      simpa using this
    · rintro ⟨r, hr, hpr⟩
      apply f3
      have hne : s.vec.data ≠ [] := by intro h; rw [h] at hr; simp at hr
      rcases e3 hne with h | h
      · exact ⟨r, h.trans hr, hpr⟩
      · exact ⟨x, h, hP x (by simp)⟩

theorem BHeap.pushAll_eq (g : Growth) (cmp : α → α → Ordering) (hc : TotalCmp cmp) (l : List α) (s : BHeap α)
    (hs : IsHeap cmp s.vec.data) :
    ∃ s', pushAll g cmp l s = .ok (some s') ∧ IsHeap cmp s'.vec.data ∧ s'.vec.data.Perm (s.vec.data ++ l) := by
  induction l generalizing s with
  | nil => exact ⟨s, rfl, hs, by simp⟩
  | cons x l ih =>
    obtain ⟨s1, e1, e2, e3⟩ := push_eq g cmp hc s hs x
    obtain ⟨s2, f1, f2, f3⟩ := ih s1 e2
    refine ⟨s2, by simp only [pushAll, e1, Go.bind_ok, f1], f2, f3.trans ?_⟩
    exact (e3.append_right l).trans List.perm_middle.symm

/-- Pop gives the first element of the vector, whether or not the heap order holds. -/
theorem BHeap.pop_first (cmp : α → α → Ordering) (s s' : BHeap α) (o : Opt α) (h : s.pop cmp = .ok (some (s', o))) :
    o.value = s.vec.data[0]? := by
  unfold pop Vec.pop at h
  by_cases he : s.vec.data.length = 0
  · rw [if_pos he] at h
    simp only [Go.bind_ok, Opt.none, Opt.isNone, if_true, Except.ok.injEq, Option.some.injEq, Prod.mk.injEq] at h
    rw [← h.2]
    have : s.vec.data = [] := by simpa using he
    simp [this]
  · rw [if_neg he, index_lt (by omega)] at h
    simp only [Go.bind_ok, Opt.some, Opt.isNone, Opt.unwrap, deref, Bool.false_eq_true, if_false] at h
    by_cases h1 : s.vec.data.length = 1
    · have hem : (Vec.isEmpty ⟨s.vec.data.take (s.vec.data.length - 1), s.vec.cap⟩) = true := by
        simp [Vec.isEmpty, Vec.len, h1]
      rw [if_neg (by rw [hem]; simp)] at h
      simp only [Except.ok.injEq, Option.some.injEq, Prod.mk.injEq] at h
      rw [← h.2]
      simp [h1]
    · have hem : (Vec.isEmpty ⟨s.vec.data.take (s.vec.data.length - 1), s.vec.cap⟩) = false := by
        simp [Vec.isEmpty, Vec.len]; omega
      rw [if_pos (by rw [hem]; rfl)] at h
      have hl0 : 0 < (s.vec.data.take (s.vec.data.length - 1)).length := by simp; omega
      simp only [index_lt hl0, Go.bind_ok, Vec.setUnchecked, setIndex_lt hl0] at h
      cases hd : siftDownToBottom cmp
          ⟨(s.vec.data.take (s.vec.data.length - 1)).set 0 s.vec.data[s.vec.data.length - 1], s.vec.cap⟩ 0 with
      | error e => rw [hd] at h; simp at h
      | ok r =>
        rw [hd] at h
        cases r with
        | none => simp at h
        | some v =>
          simp only [Go.bind_ok, Option.map_some, Except.ok.injEq, Option.some.injEq, Prod.mk.injEq] at h
          rw [← h.2]
          simp [List.getElem?_eq_getElem (show 0 < s.vec.data.length by omega)]

/-- What Append does: if there is no room for Len more elements than asked for, zero values get in. -/
theorem BHeap.append_eq [Inhabited α] (g : Growth) (cmp : α → α → Ordering) (a b : BHeap α)
    (hsm : a.len + (a.len + b.len) < 2 ^ 63) (P : α → Prop) (hP : ∀ x ∈ b.vec.data, P x) :
    ∃ a', a.append g cmp b = .ok (some (a', b)) ∧
      a'.vec.data.Perm (a.vec.data ++ (if a.capacity < a.len + (a.len + b.len) then
        List.replicate (a.len + b.len) default else []) ++ b.vec.data) ∧
      ((∃ r, a.vec.data[0]? = some r ∧ P r) → ∃ r, a'.vec.data[0]? = some r ∧ P r) := by
  unfold append reserve Vec.reserve
  have h1 : usize (a.len + b.len) = a.len + b.len := by unfold usize; omega
  have h2 : usize (a.vec.len + (a.len + b.len)) = a.len + (a.len + b.len) := by
    unfold usize BHeap.len at *; omega
  rw [h1, h2]
  by_cases hg : a.capacity < a.len + (a.len + b.len)
  · rw [if_pos hg, if_pos hg]
    simp only [makeLen, show a.len + b.len < 2 ^ 63 by omega, if_true, Go.bind_ok]
    obtain ⟨a', e1, e2, e3⟩ := pushAll_any g cmp b.vec.data
      ⟨a.vec.goAppend g (List.replicate (a.len + b.len) default)⟩ P hP
    refine ⟨a', by simp [e1], ?_, ?_⟩
    · simpa [Vec.goAppend] using e2
    · rintro ⟨r, hr, hpr⟩
      apply e3
      refine ⟨r, ?_, hpr⟩
      simp only [Vec.goAppend]
      rw [List.getElem?_append_left (List.getElem?_eq_some_iff.1 hr).1]
      exact hr
  · rw [if_neg hg, if_neg hg]
    simp only [Go.bind_ok]
    obtain ⟨a', e1, e2, e3⟩ := pushAll_any g cmp b.vec.data ⟨a.vec⟩ P hP
    exact ⟨a', by simp [e1], by simpa using e2, e3⟩

/-- C68, full property: Append merges the contents into a valid heap and empties the other heap.
Proved: (1) if there is spare room for `2 * a.Len() + b.Len()` elements in total, the contents are
merged into a valid heap; (2) the whole property holds exactly when `b` is empty already and `a` has room for
twice its elements.  Missing: everything else, see `C68_append_fails`. -/
theorem C68_append_partial [Inhabited α] (g : Growth) (cmp : α → α → Ordering) (hc : TotalCmp cmp) (a b : BHeap α)
    (ha : IsHeap cmp a.vec.data) (hsm : a.len + (a.len + b.len) < 2 ^ 63) :
    (a.len + (a.len + b.len) ≤ a.capacity → ∃ a', a.append g cmp b = .ok (some (a', b)) ∧
      IsHeap cmp a'.vec.data ∧ a'.vec.data.Perm (a.vec.data ++ b.vec.data)) ∧
    ((∃ a' b', a.append g cmp b = .ok (some (a', b')) ∧ IsHeap cmp a'.vec.data ∧
        a'.vec.data.Perm (a.vec.data ++ b.vec.data) ∧ b'.vec.data = []) ↔
      b.vec.data = [] ∧ 2 * a.len ≤ a.capacity) := by
  have hroom : a.len + (a.len + b.len) ≤ a.capacity → ∃ a', a.append g cmp b = .ok (some (a', b)) ∧
      IsHeap cmp a'.vec.data ∧ a'.vec.data.Perm (a.vec.data ++ b.vec.data) := by
    intro h
    unfold BHeap.append BHeap.reserve Vec.reserve
    have h1 : usize (a.len + b.len) = a.len + b.len := by unfold usize; omega
    have h2 : usize (a.vec.len + (a.len + b.len)) = a.len + (a.len + b.len) := by
      unfold usize BHeap.len at *; omega
    rw [h1, h2, if_neg (by unfold BHeap.capacity at h; omega)]
    simp only [Go.bind_ok]
    obtain ⟨a', e1, e2, e3⟩ := BHeap.pushAll_eq g cmp hc b.vec.data ⟨a.vec⟩ ha
    exact ⟨a', by simp [e1], e2, e3⟩
  refine ⟨hroom, ?_, ?_⟩
  · rintro ⟨a', b', e1, e2, e3, e4⟩
    obtain ⟨a'', f1, f2, -⟩ := BHeap.append_eq g cmp a b hsm (fun _ => True) (fun _ _ => trivial)
    rw [f1] at e1
    simp only [Except.ok.injEq, Option.some.injEq, Prod.mk.injEq] at e1
    obtain ⟨rfl, rfl⟩ := e1
    refine ⟨e4, ?_⟩
    have hlen := f2.length_eq.symm.trans e3.length_eq
    have hb : b.len = 0 := by simp [BHeap.len, Vec.len, e4]
    by_cases hg : a.capacity < a.len + (a.len + b.len)
    · rw [if_pos hg] at hlen
      simp only [List.length_append, List.length_replicate] at hlen
      omega
    · omega
  · rintro ⟨hb, hcap⟩
    have hb' : b.len = 0 := by simp [BHeap.len, Vec.len, hb]
    obtain ⟨a', e1, e2, e3⟩ := hroom (by omega)
    exact ⟨a', b, e1, e2, e3, hb⟩

/-- C68 is violated: (1) by every nonempty `b`: it is not emptied; (2) by every Append that needs room: as many
zero values get into `a` as the two heaps have elements; (3) if moreover all elements are less than
the zero value, the next Pop does not return a maximum. -/
theorem C68_append_fails [Inhabited α] (g : Growth) (cmp : α → α → Ordering) (a b : BHeap α)
    (hsm : a.len + (a.len + b.len) < 2 ^ 63) (hne : a.len + b.len ≠ 0) :
    ∃ a', a.append g cmp b = .ok (some (a', b)) ∧
      (a.capacity < a.len + (a.len + b.len) → a'.len = 2 * (a.len + b.len) ∧
        (a.vec.data ≠ [] → (∀ x ∈ a.vec.data, cmp x default = .lt) → (∀ x ∈ b.vec.data, cmp x default = .lt) →
          default ∈ a'.vec.data ∧
          ∀ a'' o, a'.pop cmp = .ok (some (a'', o)) → ∃ x, o.value = some x ∧ cmp x default = .lt)) := by
  obtain ⟨a', e1, e2, -⟩ := BHeap.append_eq g cmp a b hsm (fun _ => True) (fun _ _ => trivial)
  refine ⟨a', e1, ?_⟩
  intro hg
  rw [if_pos hg] at e2
  have hl := e2.length_eq
  simp only [List.length_append, List.length_replicate, BHeap.len, Vec.len] at hl
  refine ⟨by simp only [BHeap.len, Vec.len]; omega, ?_⟩
  intro hane hA hB
  constructor
  · refine e2.mem_iff.2 ?_
    simp only [List.mem_append, List.mem_replicate]
    exact .inl (.inr ⟨hne, trivial⟩)
  · intro a'' o hpop
    obtain ⟨a1, f1, f2, f3⟩ := BHeap.append_eq g cmp a b hsm (fun x => cmp x default = .lt) hB
    rw [e1] at f1
    simp only [Except.ok.injEq, Option.some.injEq, Prod.mk.injEq, and_true] at f1
    subst f1
    have h0 : 0 < a.vec.data.length := List.length_pos_iff.2 hane
    obtain ⟨r, hr, hlt⟩ := f3 ⟨a.vec.data[0], List.getElem?_eq_getElem h0, hA _ (List.getElem_mem h0)⟩
    exact ⟨r, (BHeap.pop_first cmp a' a'' o hpop).trans hr, hlt⟩

/-- C94, full property: Reserve changes neither the contents nor the results of later operations.  Proved:
exactly when there was room already.  Missing: every call that needs room, see `C94_reserve_fails`. -/
theorem C94_reserve_partial [Inhabited α] (g : Growth) (s : BHeap α) (hcap : s.vec.CapOk) (hc : s.capacity < 2 ^ 63)
    (n : Nat) (hn : n < 2 ^ 63) :
    (∃ s', s.reserve g n = .ok s' ∧ s'.vec.data = s.vec.data ∧ s'.len + n ≤ s'.capacity) ↔ s.len + n ≤ s.capacity := by
  have h := C46_reserve_partial g s.vec hcap hc n (by omega)
  unfold BHeap.reserve
  constructor
  · rintro ⟨s', e1, e2, e3⟩
    cases hr : s.vec.reserve g n with
    | error e => rw [hr] at e1; simp at e1
    | ok v =>
      rw [hr] at e1
      simp only [Go.bind_ok, Except.ok.injEq] at e1
      subst e1
      exact h.1 ⟨v, hr, e2, e3⟩
  · intro hroom
    obtain ⟨v, e1, e2, e3⟩ := h.2 hroom
    exact ⟨⟨v⟩, by rw [e1]; rfl, e2, e3⟩

/-- C94 is violated by every Reserve that needs room: `n` zero values get into the heap; if its elements are
less than the zero value the next Pop does not return a maximum. -/
theorem C94_reserve_fails [Inhabited α] (g : Growth) (cmp : α → α → Ordering) (s : BHeap α) (hcap : s.vec.CapOk)
    (n : Nat) (hn : n < 2 ^ 63) (hc : s.capacity < 2 ^ 63) (hgrow : s.capacity < s.len + n) :
    ∃ s', s.reserve g n = .ok s' ∧ s'.vec.data = s.vec.data ++ List.replicate n default ∧ s'.vec.data ≠ s.vec.data ∧
      (s.vec.data ≠ [] → (∀ x ∈ s.vec.data, cmp x default = .lt) → default ∈ s'.vec.data ∧
        ∀ s'' o, s'.pop cmp = .ok (some (s'', o)) → ∃ x, o.value = some x ∧ cmp x default = .lt) := by
  obtain ⟨v, e1, e2, e3⟩ := (C46_reserve_fails g s.vec hcap hc n hgrow).1 hn
  have hn0 : n ≠ 0 := by
    intro h
    subst h
    unfold Vec.CapOk at hcap
    unfold BHeap.capacity Vec.capacity BHeap.len Vec.len at hgrow
    omega
  refine ⟨⟨v⟩, by unfold BHeap.reserve; rw [e1]; rfl, e2, e3, ?_⟩
  intro hne hA
  constructor
  · simp only [e2, List.mem_append, List.mem_replicate]
    exact .inr ⟨hn0, trivial⟩
  · intro s'' o hpop
    have h0 : 0 < s.vec.data.length := List.length_pos_iff.2 hne
    refine ⟨s.vec.data[0], ?_, hA _ (List.getElem_mem h0)⟩
    rw [BHeap.pop_first cmp _ s'' o hpop]
    simp only [e2]
    rw [List.getElem?_append_left h0, List.getElem?_eq_getElem h0]

/-! ### Concrete cases -/

/-- The order of the natural numbers meets the hypothesis on Cmp. -/
theorem natTotal : TotalCmp (compare : Nat → Nat → Ordering) := natCmp_lawful.totalCmp
/-- A heap of five elements, made by pushing. -/
def heap5 : BHeap Nat := ⟨⟨[9, 7, 4, 1, 3], 8⟩⟩
example : (Spec.runOps (BHeap.step doubling compare)
    [.push 3, .push 9, .push 4, .push 1, .push 7] (BHeap.new : BHeap Nat)).2 = some heap5 := by decide
theorem heap5_isHeap : IsHeap compare heap5.vec.data := by
  obtain ⟨rs, s', e1, e2, -⟩ := C66_heap_history doubling compare natTotal
    [.push 3, .push 9, .push 4, .push 1, .push 7] (BHeap.new : BHeap Nat) (C66_heap_new compare natTotal).1
  have h : (Spec.runOps (BHeap.step doubling compare)
    [.push 3, .push 9, .push 4, .push 1, .push 7] (BHeap.new : BHeap Nat)).2 = some heap5 := by decide
  rw [e1] at h
  cases h
  exact e2
example : heap5.pop compare = .ok (some (⟨⟨[7, 3, 4, 1], 8⟩⟩, Opt.some 9)) := by decide
example : heap5.intoSortedVec compare = .ok (some (⟨⟨[], 8⟩⟩, ⟨[1, 3, 4, 7, 9], 5⟩)) := by decide
/-- -3 and -5 in a vector without spare room: Append puts 0s in, and Pop gives -3. -/
example : (⟨⟨[-3], 1⟩⟩ : BHeap Int).append doubling compare ⟨⟨[-5], 1⟩⟩ =
    .ok (some (⟨⟨[-3, 0, 0, -5], 6⟩⟩, ⟨⟨[-5], 1⟩⟩)) := by decide
example : (⟨⟨[-3, 0, 0, -5], 6⟩⟩ : BHeap Int).pop compare = .ok (some (⟨⟨[0, 0, -5], 6⟩⟩, Opt.some (-3))) := by
  decide

end Gost
