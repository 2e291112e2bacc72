import Verif.Model.SortUnwind
import Verif.Props.Unwind
import Verif.Props.VecSearch
import Verif.Props.DequeRaw
/-
Property C146: sorting with comparisons that have effects, are inconsistent, or panic.
-/
namespace Gost
open Spec Unwind

variable {c σ α : Type}

/-! ### Exchanges -/

theorem Vec.swapData_ok (l : List α) {i j : Nat} (hi : i < l.length) (hj : j < l.length) :
    Vec.swapData l i j = .ok ((l.set i l[j]).set j l[i]) := by
  simp [Vec.swapData, index_lt hi, index_lt hj, setIndex, hi, hj]

theorem exchange_take (l : List α) {n i j : Nat} (x y : α) :
    ((l.set i x).set j y).take n = ((l.take n).set i x).set j y := by
  simp only [List.take_set]
theorem exchange_drop (l : List α) {n i j : Nat} (hi : i < n) (hj : j < n) (x y : α) :
    ((l.set i x).set j y).drop n = l.drop n := by
  rw [List.drop_set_of_lt hj, List.drop_set_of_lt hi]

namespace SortSteps
variable {n : Nat}

theorem list_perm (lt : α → α → Bool) (st : SortSteps n) : ∀ l : List α, (st.list lt l).Perm l := by
  induction st with
  | done => intro l; exact List.Perm.refl _
  | less i j k ih =>
    intro l
    unfold list
    split
    · exact ih _ l
    · exact List.Perm.refl _
  | swap i j k ih =>
    intro l
    unfold list
    split
    · next a b h1 h2 =>
      obtain ⟨p1, rfl⟩ := List.getElem?_eq_some_iff.1 h1
      obtain ⟨p2, rfl⟩ := List.getElem?_eq_some_iff.1 h2
      exact (ih _).trans (List.set_set_perm p1 p2)
    · exact List.Perm.refl _

/-- A container whose sorted part is the first `n` slots of a list. -/
structure View (c α : Type) where
  data : c → List α
  upd : c → List α → c
  data_upd : ∀ v l, data (upd v l) = l
  upd_upd : ∀ v l l', upd (upd v l) l' = upd v l'
  upd_data : ∀ v, upd v (data v) = v

/-- The `less` closures. -/
def View.less (V : View c α) (cmp : α → α → Eff σ Ordering) (i j : Nat) : Eff (c × σ) Bool := do
  let self ← get
  let lhs ← Eff.lift (index (V.data self) i)
  let rhs ← Eff.lift (index (V.data self) j)
  let o ← call (cmp lhs rhs)
  pure (o == .lt)
/-- The exchanges. -/
def View.swap (V : View c α) (i j : Nat) : Eff (c × σ) Unit := do
  let self ← get
  let data ← Eff.lift (Vec.swapData (V.data self) i j)
  put (V.upd self data)

theorem View.less_run (V : View c α) (cmp : α → α → Eff σ Ordering) {i j : Nat} (v : c) (s : σ)
    (hi : i < (V.data v).length) (hj : j < (V.data v).length) :
    V.less cmp i j (v, s) = match cmp (V.data v)[i] (V.data v)[j] s with
      | (.ok o, s') => (.ok (o == .lt), (v, s'))
      | (.error e, s') => (.error e, (v, s')) := by
  unfold View.less
  simp only [Eff.bind_run, Unwind.get, index_lt hi, index_lt hj, Eff.lift_ok, call, Pure.pure, Eff.pure]
  rcases cmp (V.data v)[i] (V.data v)[j] s with ⟨_ | _, _⟩ <;> rfl

theorem View.swap_run (V : View c α) {i j : Nat} (v : c) (s : σ)
    (hi : i < (V.data v).length) (hj : j < (V.data v).length) :
    (V.swap i j (v, s) : Except Panic Unit × (c × σ)) =
      (.ok (), (V.upd v (((V.data v).set i (V.data v)[j]).set j (V.data v)[i]), s)) := by
  unfold View.swap
  simp only [Eff.bind_run, Unwind.get, Vec.swapData_ok _ hi hj, Eff.lift_ok, put, Pure.pure, Eff.pure]

/-- Everything about a run: what is in the container, where a panic comes from, what the state is. -/
theorem View.run (V : View c α) (cmp : α → α → Eff σ Ordering) (st : SortSteps n) : ∀ (v : c) (s : σ),
    n ≤ (V.data v).length →
    ∃ o l s', st.run (V.less cmp) V.swap (v, s) = (o, (V.upd v (l ++ (V.data v).drop n), s')) ∧
      l.Perm ((V.data v).take n) ∧
      (∀ e, o = .error e → ∃ a ∈ (V.data v).take n, ∃ b ∈ (V.data v).take n, ∃ s1, cmp a b s1 = (.error e, s')) ∧
      (∀ I : σ → Prop, (∀ a ∈ (V.data v).take n, ∀ b ∈ (V.data v).take n, ∀ s1, I s1 → I (cmp a b s1).2) → I s → I s') ∧
      (∀ lt : α → α → Bool, (∀ a ∈ (V.data v).take n, ∀ b ∈ (V.data v).take n, ∀ s1 r s2, cmp a b s1 = (.ok r, s2) →
        (r == .lt) = lt a b) → o = .ok () → l = st.list lt ((V.data v).take n)) := by
  induction st with
  | done =>
    intro v s hn
    refine ⟨.ok (), (V.data v).take n, s, ?_, List.Perm.refl _, (by intro e h; cases h), (fun I _ h => h), (fun _ _ _ => rfl)⟩
    rw [List.take_append_drop, V.upd_data]; rfl
  | less i j k ih =>
    intro v s hn
    have hi : i.val < (V.data v).length := by omega
    have hj : j.val < (V.data v).length := by omega
    have mi : (V.data v)[i.val] ∈ (V.data v).take n := List.mem_take_iff_getElem.2 ⟨i, by omega, rfl⟩
    have mj : (V.data v)[j.val] ∈ (V.data v).take n := List.mem_take_iff_getElem.2 ⟨j, by omega, rfl⟩
    unfold SortSteps.run
    rw [Eff.bind_run, V.less_run cmp v s hi hj]
    rcases hc : cmp (V.data v)[i.val] (V.data v)[j.val] s with ⟨e | r, s1⟩
    · refine ⟨.error e, (V.data v).take n, s1, ?_, List.Perm.refl _, ?_, ?_, ?_⟩
      · rw [List.take_append_drop, V.upd_data]
      · rintro e' ⟨⟩
        exact ⟨_, mi, _, mj, s, hc⟩
      · intro I hI h
        have := hI _ mi _ mj s h
        rwa [hc] at this
      · intro lt _ h; cases h
    · obtain ⟨o, l, s', e1, e2, e3, e4, e5⟩ := ih (r == .lt) v s1 hn
      refine ⟨o, l, s', e1, e2, e3, ?_, ?_⟩
      · intro I hI h
        have := hI _ mi _ mj s h
        rw [hc] at this
        exact e4 I hI this
      · intro lt hl ho
        rw [e5 lt hl ho]
        conv => rhs; unfold list
        have hi' : ((V.data v).take n)[i.val]? = some (V.data v)[i.val] := by
          rw [List.getElem?_take_of_lt i.isLt, List.getElem?_eq_getElem hi]
        have hj' : ((V.data v).take n)[j.val]? = some (V.data v)[j.val] := by
          rw [List.getElem?_take_of_lt j.isLt, List.getElem?_eq_getElem hj]
        rw [hi', hj', hl _ mi _ mj s r s1 hc]
  | swap i j k ih =>
    intro v s hn
    have hi : i.val < (V.data v).length := by omega
    have hj : j.val < (V.data v).length := by omega
    unfold SortSteps.run
    rw [Eff.bind_run, V.swap_run v s hi hj]
    have hd := V.data_upd v (((V.data v).set i (V.data v)[j.val]).set j (V.data v)[i.val])
    obtain ⟨o, l, s', e1, e2, e3, e4, e5⟩ :=
      ih (V.upd v (((V.data v).set i (V.data v)[j.val]).set j (V.data v)[i.val])) s (by rw [hd]; simpa using hn)
    have ht : ((V.data v).take n).length = n := by simp; omega
    have p : ((((V.data v).set i (V.data v)[j.val]).set j (V.data v)[i.val]).take n).Perm ((V.data v).take n) := by
      rw [exchange_take]
      have := List.set_set_perm (as := (V.data v).take n) (i := i) (j := j) (by omega) (by omega)
      simpa using this
    rw [hd] at e1 e2 e3 e4 e5
    refine ⟨o, l, s', ?_, e2.trans p, ?_, ?_, ?_⟩
    · rw [V.upd_upd, exchange_drop _ i.isLt j.isLt] at e1
      exact e1
    · intro e he
      obtain ⟨a, ha, b, hb, h⟩ := e3 e he
      exact ⟨a, p.mem_iff.1 ha, b, p.mem_iff.1 hb, h⟩
    · intro I hI
      exact e4 I fun a ha b hb => hI a (p.mem_iff.1 ha) b (p.mem_iff.1 hb)
    · intro lt hl ho
      rw [e5 lt (fun a ha b hb => hl a (p.mem_iff.1 ha) b (p.mem_iff.1 hb)) ho]
      conv => rhs; unfold list
      have hi' : ((V.data v).take n)[i.val]? = some (V.data v)[i.val] := by
        rw [List.getElem?_take_of_lt i.isLt, List.getElem?_eq_getElem hi]
      have hj' : ((V.data v).take n)[j.val]? = some (V.data v)[j.val] := by
        rw [List.getElem?_take_of_lt j.isLt, List.getElem?_eq_getElem hj]
      rw [hi', hj', exchange_take]

end SortSteps

/-! ### Vec -/

/-- A Vec as a sorted slice. -/
def vecView : SortSteps.View (Vec α) α where
  data v := v.data
  upd v l := ⟨l, v.cap⟩
  data_upd _ _ := rfl
  upd_upd _ _ _ := rfl
  upd_data _ := rfl

/-- A VecDeque as a sorted slice. -/
def dequeView : SortSteps.View (VecDeque α) α where
  data d := d.buffer
  upd d l := ⟨l, d.len, d.head⟩
  data_upd _ _ := rfl
  upd_upd _ _ _ := rfl
  upd_data _ := rfl

theorem vec_sortBy_run (lib : (n : Nat) → SortSteps n) (cmp : α → α → Eff σ Ordering) (v : Vec α) (s : σ) :
    ∃ o l s', sortBy lib cmp (v, s) = (o, (⟨l, v.cap⟩, s')) ∧ l.Perm v.data ∧
      (∀ e, o = .error e → ∃ a ∈ v.data, ∃ b ∈ v.data, ∃ s1, cmp a b s1 = (.error e, s')) ∧
      (∀ I : σ → Prop, (∀ a ∈ v.data, ∀ b ∈ v.data, ∀ s1, I s1 → I (cmp a b s1).2) → I s → I s') ∧
      (∀ lt : α → α → Bool, (∀ a ∈ v.data, ∀ b ∈ v.data, ∀ s1 r s2, cmp a b s1 = (.ok r, s2) → (r == .lt) = lt a b) →
        o = .ok () → l = (lib v.data.length).list lt v.data) := by
  obtain ⟨o, l, s', e⟩ := SortSteps.View.run vecView cmp (lib v.data.length) v s (Nat.le_refl _)
  have ht : v.data.take v.data.length = v.data := List.take_length
  have hd : v.data.drop v.data.length = [] := List.drop_length
  simp only [vecView, ht, hd, List.append_nil] at e
  exact ⟨o, l, s', e⟩

/-- Sorting a Vec with any comparison at all, which may have effects, contradict itself, or panic at any call: when the
sort returns or the panic is recovered, the Vec has the same elements (each as often as before) and the same capacity;
a panic is one that the comparison raised on two elements of the Vec, and the sort itself does nothing after it. -/
theorem C146_vec (lib : (n : Nat) → SortSteps n) (cmp : α → α → Eff σ Ordering) (v : Vec α) (s : σ) :
    ∃ o l s', sortBy lib cmp (v, s) = (o, (⟨l, v.cap⟩, s')) ∧ l.Perm v.data ∧
      (∀ e, o = .error e → ∃ a ∈ v.data, ∃ b ∈ v.data, ∃ s1, cmp a b s1 = (.error e, s')) ∧
      (∀ I : σ → Prop, (∀ a ∈ v.data, ∀ b ∈ v.data, ∀ s1, I s1 → I (cmp a b s1).2) → I s → I s') ∧
      ((∀ a ∈ v.data, ∀ b ∈ v.data, ∀ s1, ∃ r, (cmp a b s1).1 = .ok r) → o = .ok ()) := by
  obtain ⟨o, l, s', e1, e2, e3, e4, _⟩ := vec_sortBy_run lib cmp v s
  refine ⟨o, l, s', e1, e2, e3, e4, fun h => ?_⟩
  rcases o with e | ⟨⟩
  · obtain ⟨a, ha, b, hb, s1, h1⟩ := e3 e rfl
    obtain ⟨r, hr⟩ := h a ha b hb s1
    rw [h1] at hr; cases hr
  · rfl

/-- Sort and SortUnstable of a Vec whose elements have a Cmp method are SortBy and SortUnstableBy with it. -/
theorem C146_vec_sort (lib : (n : Nat) → SortSteps n) (cmp : α → α → Eff σ Ordering) :
    Unwind.sort lib (some cmp) = sortBy lib cmp := rfl

/-! ### The contract of package sort -/

/-- Package sort with its steps, seen as in Model/Vec.lean. -/
def SortTrees.lib (T : SortTrees) : SortLib where
  stable lt l := (T.stable l.length).list lt l
  unstable lt l := (T.unstable l.length).list lt l
  stable_perm lt l := SortSteps.list_perm lt _ l
  unstable_perm lt l := SortSteps.list_perm lt _ l
  stable_sorted := T.stable_sorted
  unstable_sorted := T.unstable_sorted
  stable_stable := T.stable_stable

/-- If the comparison, whenever it returns, answers according to `ord`, then a sort that returns has the result of
Model/Vec.lean for `ord`: so C52 applies to comparisons with effects. -/
theorem C146_vec_answers (T : SortTrees) (cmp : α → α → Eff σ Ordering) (ord : α → α → Ordering)
    (hc : Answers cmp ord) (v v' : Vec α) (s s' : σ) :
    (sortBy T.stable cmp (v, s) = (.ok (), (v', s')) → v' = v.sortBy T.lib ord) ∧
    (sortBy T.unstable cmp (v, s) = (.ok (), (v', s')) → v' = v.sortUnstableBy T.lib ord) := by
  have key : ∀ lib : (n : Nat) → SortSteps n, sortBy lib cmp (v, s) = (.ok (), (v', s')) →
      v' = ⟨(lib v.data.length).list (Vec.less ord) v.data, v.cap⟩ := by
    intro lib h
    obtain ⟨o, l, s1, e1, _, _, _, e5⟩ := vec_sortBy_run lib cmp v s
    rw [h] at e1
    simp only [Prod.mk.injEq] at e1
    obtain ⟨e1, e2, -⟩ := e1
    rw [e2, e5 (Vec.less ord) _ e1.symm]
    intro a _ b _ s1 r s2 hr
    rw [hc a b s1 r s2 hr]; rfl
  exact ⟨key _, key _⟩

/-- A sort that returns has sorted the elements, if the answers were those of a lawful order; SortBy keeps the order of
the elements that are equal to any given one. -/
theorem C146_vec_sorted (T : SortTrees) (cmp : α → α → Eff σ Ordering) (ord : α → α → Ordering) (eq : α → α → Bool)
    (ho : LawfulOrd ord eq) (hc : Answers cmp ord) (v v' : Vec α) (s s' : σ) :
    (sortBy T.stable cmp (v, s) = (.ok (), (v', s')) → v'.data.Pairwise (fun a b => ord a b ≠ .gt) ∧
      ∀ x, Spec.equalTo ord x v'.data = Spec.equalTo ord x v.data) ∧
    (sortBy T.unstable cmp (v, s) = (.ok (), (v', s')) → v'.data.Pairwise (fun a b => ord a b ≠ .gt)) := by
  obtain ⟨⟨v1, e1, e2, p1, p2, _, p3⟩, ⟨v2, e3, e4, q1, q2, _⟩⟩ := C52_vec_sort T.lib v ord eq ho
  refine ⟨fun h => ?_, fun h => ?_⟩
  · rw [(C146_vec_answers T cmp ord hc v v' s s').1 h, e2]
    exact ⟨p2, p3⟩
  · rw [(C146_vec_answers T cmp ord hc v v' s s').2 h, e4]
    exact q2

/-! ### Elements without a Cmp method -/

namespace SortSteps
/-- Something is compared. -/
def asks {n : Nat} : SortSteps n → Bool
  | done => false
  | .less _ _ _ => true
  | .swap _ _ k => k.asks

theorem list_asks {n : Nat} (lt lt' : α → α → Bool) (st : SortSteps n) (h : st.asks = false) (l : List α) :
    st.list lt l = st.list lt' l := by
  induction st generalizing l with
  | done => rfl
  | less i j k => cases h
  | swap i j k ih =>
    unfold list
    split
    · exact ih h _
    · rfl

theorem asks_panics {n : Nat} (V : View c α) (e : Panic) (st : SortSteps n) (h : st.asks = true) : ∀ (v : c) (s : σ),
    n ≤ (V.data v).length → (st.run (V.less fun _ _ => Eff.panic e) V.swap (v, s)).1 = .error e := by
  induction st with
  | done => cases h
  | less i j k =>
    intro v s hn
    unfold SortSteps.run
    rw [Eff.bind_run, V.less_run _ v s (i := i) (j := j) (by omega) (by omega)]
    rfl
  | swap i j k ih =>
    intro v s hn
    unfold SortSteps.run
    rw [Eff.bind_run, V.swap_run v s (i := i) (j := j) (by omega) (by omega)]
    exact ih h _ s (by rw [V.data_upd]; simpa using hn)
end SortSteps

theorem sorts_asks (lib : (n : Nat) → SortSteps n)
    (hs : ∀ (lt : Nat → Nat → Bool) (l : List Nat), StrictWeak lt →
      ((lib l.length).list lt l).Pairwise fun a b => lt b a = false) (n : Nat) (hn : 2 ≤ n) : (lib n).asks = true := by
  by_cases ha : (lib n).asks = true
  · exact ha
  · simp only [Bool.not_eq_true] at ha
    have h1 := hs (fun a b => decide (a < b)) (List.range n) ⟨by simp, by simp; omega, by simp; omega⟩
    have h2 := hs (fun a b => decide (b < a)) (List.range n) ⟨by simp, by simp; omega, by simp; omega⟩
    have hp := SortSteps.list_perm (fun a b => decide (a < b)) (lib n) (List.range n)
    rw [List.length_range] at h1 h2
    rw [SortSteps.list_asks (fun a b => decide (b < a)) (fun a b => decide (a < b)) _ ha] at h2
    have hnd := hp.nodup_iff.2 List.nodup_range
    have hl := hp.length_eq
    generalize (lib n).list (fun a b => decide (a < b)) (List.range n) = l at *
    match l, hl with
    | [], hl => simp at hl; omega
    | [_], hl => simp at hl; omega
    | a :: b :: l, _ =>
      have h1 := (List.pairwise_cons.1 h1).1 b (by simp)
      have h2 := (List.pairwise_cons.1 h2).1 b (by simp)
      simp at h1 h2 hnd
      omega

/-- Sort and SortUnstable of two or more elements that have no Cmp method panic, and the Vec keeps its elements. -/
theorem C146_vec_noOrd (T : SortTrees) (v : Vec α) (s : σ) (h2 : 2 ≤ v.data.length) :
    (∃ l, Unwind.sort T.stable none (v, s) = (.error .nilDeref, (⟨l, v.cap⟩, s)) ∧ l.Perm v.data) ∧
    (∃ l, Unwind.sort T.unstable none (v, s) = (.error .nilDeref, (⟨l, v.cap⟩, s)) ∧ l.Perm v.data) := by
  have key : ∀ lib : (n : Nat) → SortSteps n, (lib v.data.length).asks = true →
      ∃ l, Unwind.sort lib none (v, s) = (.error .nilDeref, (⟨l, v.cap⟩, s)) ∧ l.Perm v.data := by
    intro lib ha
    obtain ⟨o, l, s', e1, e2, _, e4, _⟩ := vec_sortBy_run lib (fun _ _ => Eff.panic .nilDeref) v s
    have hs' : s' = s := e4 (· = s) (fun _ _ _ _ _ h => h) rfl
    have ho := SortSteps.asks_panics vecView .nilDeref _ ha v s (Nat.le_refl _)
    have : o = .error .nilDeref := by
      rw [← ho]
      exact (congrArg Prod.fst e1).symm
    subst hs' this
    exact ⟨l, e1, e2⟩
  exact ⟨key _ (sorts_asks _ (fun lt l => T.stable_sorted lt l) _ h2), key _ (sorts_asks _ (fun lt l => T.unstable_sorted lt l) _ h2)⟩

/-! ### VecDeque -/

theorem deque_sortBy_run (lib : (n : Nat) → SortSteps n) (cmp : α → α → Eff σ Ordering) (d : VecDeque α) (s : σ)
    (hl : d.len ≤ d.buffer.length) :
    ∃ o l s', dqSortBy lib cmp (d, s) = (o, (⟨l ++ d.buffer.drop d.len, d.len, d.head⟩, s')) ∧
      l.Perm (d.buffer.take d.len) ∧
      (∀ e, o = .error e → ∃ a ∈ d.buffer.take d.len, ∃ b ∈ d.buffer.take d.len, ∃ s1, cmp a b s1 = (.error e, s')) ∧
      (∀ I : σ → Prop, (∀ a ∈ d.buffer.take d.len, ∀ b ∈ d.buffer.take d.len, ∀ s1, I s1 → I (cmp a b s1).2) → I s → I s') ∧
      (∀ lt : α → α → Bool, (∀ a ∈ d.buffer.take d.len, ∀ b ∈ d.buffer.take d.len, ∀ s1 r s2,
        cmp a b s1 = (.ok r, s2) → (r == .lt) = lt a b) →
        o = .ok () → l = (lib d.len).list lt (d.buffer.take d.len)) := by
  have := SortSteps.View.run dequeView cmp (lib d.len) d s hl
  unfold dqSortBy
  rw [Eff.bind_run]
  simp only [Unwind.get, if_pos hl]
  exact this

/-- The slots that VecDeque.Sort and its variants exchange are the elements, or none of them is one of the elements:
the deque starts at slot 0, is full, or lies beyond its first Len slots. -/
def Spec.Unmixed (d : VecDeque α) : Prop :=
  d.head = 0 ∨ d.len = d.buffer.length ∨ (d.len ≤ d.head ∧ d.head + d.len ≤ d.buffer.length)

theorem unmixed_perm {d : VecDeque α} (h : d.Inv) (hu : Unmixed d) {l : List α} (hp : l.Perm (d.buffer.take d.len)) :
    (⟨l ++ d.buffer.drop d.len, d.len, d.head⟩ : VecDeque α).toList.Perm d.toList := by
  have h3 := h.len_le
  have hl : l.length = d.len := by rw [hp.length_eq]; simp; omega
  unfold VecDeque.toList
  simp only
  rcases hu with h0 | h0 | ⟨h1, h2⟩
  · rw [h0]
    simp only [List.drop_zero, List.take_zero, List.append_nil]
    rw [List.take_append_of_le_length (by omega), List.take_of_length_le (by omega)]
    exact hp
  · have : ∀ b : List α, b.length = d.len → ((b.drop d.head ++ b.take d.head).take d.len).Perm b := by
      intro b hb
      rw [List.take_of_length_le (by simp; omega)]
      exact List.perm_append_comm.trans (by rw [List.take_append_drop])
    have e : d.buffer.drop d.len = [] := List.drop_of_length_le (by omega)
    have e2 : d.buffer.take d.len = d.buffer := List.take_of_length_le (by omega)
    rw [e, List.append_nil]
    rw [e2] at hp
    exact (this l hl).trans (hp.trans (this d.buffer h0.symm).symm)
  · have e : (l ++ d.buffer.drop d.len).drop d.head = d.buffer.drop d.head := by
      rw [List.drop_append, List.drop_of_length_le (by omega), List.nil_append, List.drop_drop]
      congr 1; omega
    rw [e, List.take_append_of_le_length (by simp; omega), List.take_append_of_le_length (by simp; omega)]

/-- Sorting a VecDeque with any comparison at all: a panic is one that the comparison raised; if the sorted slots are the
elements, or none of them, the deque has the same elements at every exit.  In other layouts the sort exchanges elements
with free slots and elements get lost: `C146_deque_fails`. -/
theorem C146_deque_partial (lib : (n : Nat) → SortSteps n) (cmp : α → α → Eff σ Ordering) (d : VecDeque α) (h : d.Inv)
    (s : σ) :
    ∃ o d' s', dqSortBy lib cmp (d, s) = (o, (d', s')) ∧ d'.Inv ∧ d'.toList.length = d.toList.length ∧
      (Unmixed d → d'.toList.Perm d.toList) ∧
      (∀ e, o = .error e → ∃ a b s1, cmp a b s1 = (.error e, s')) ∧
      ((∀ a b s1, ∃ r, (cmp a b s1).1 = .ok r) → o = .ok ()) := by
  obtain ⟨o, l, s', e1, e2, e3, _, _⟩ := deque_sortBy_run lib cmp d s h.len_le
  have h3 := h.len_le
  have hl : l.length = d.len := by rw [e2.length_eq]; simp; omega
  have hb : (l ++ d.buffer.drop d.len).length = d.buffer.length := by simp; omega
  have hi : VecDeque.Inv (⟨l ++ d.buffer.drop d.len, d.len, d.head⟩ : VecDeque α) :=
    ⟨by rw [hb]; exact h.pos, by rw [hb]; exact h.small, by rw [hb]; exact h.len_le, by rw [hb]; exact h.head_lt⟩
  refine ⟨o, _, s', e1, hi, ?_, fun hu => unmixed_perm h hu e2, ?_, ?_⟩
  · rw [VecDeque.toList_length hi, VecDeque.toList_length h]
  · intro e he
    obtain ⟨a, _, b, _, s1, h1⟩ := e3 e he
    exact ⟨a, b, s1, h1⟩
  · intro hc
    rcases o with e | ⟨⟩
    · obtain ⟨a, ha, b, hb, s1, h1⟩ := e3 e rfl
      obtain ⟨r, hr⟩ := hc a b s1
      rw [h1] at hr; cases hr
    · rfl

/-- Sort and SortUnstable of a VecDeque whose elements have a Cmp method are SortBy and SortUnstableBy with it; without
one they panic when there are two elements or more, and in the layouts of `C146_deque_partial` the deque keeps them. -/
theorem C146_deque_sort (T : SortTrees) (d : VecDeque α) (h : d.Inv) (s : σ) :
    (∀ lib (cmp : α → α → Eff σ Ordering), dqSort lib (some cmp) = dqSortBy lib cmp) ∧
    (2 ≤ d.toList.length →
      (∃ d', dqSort T.stable none (d, s) = (.error .explicit, (d', s)) ∧ (Unmixed d → d'.toList.Perm d.toList)) ∧
      (∃ d', dqSort T.unstable none (d, s) = (.error .explicit, (d', s)) ∧ (Unmixed d → d'.toList.Perm d.toList))) := by
  refine ⟨fun _ _ => rfl, fun h2 => ?_⟩
  rw [VecDeque.toList_length h] at h2
  have key : ∀ lib : (n : Nat) → SortSteps n, (lib d.len).asks = true →
      ∃ d', dqSort lib none (d, s) = (.error .explicit, (d', s)) ∧ (Unmixed d → d'.toList.Perm d.toList) := by
    intro lib ha
    obtain ⟨o, l, s', e1, e2, _, e4, _⟩ := deque_sortBy_run lib (fun _ _ => Eff.panic .explicit) d s h.len_le
    have hs' : s' = s := e4 (· = s) (fun _ _ _ _ _ h => h) rfl
    have ho := SortSteps.asks_panics dequeView .explicit _ ha d s h.len_le
    have : o = .error .explicit := by
      rw [← ho]
      have e1 := congrArg Prod.fst e1
      unfold dqSortBy at e1
      rw [Eff.bind_run] at e1
      simp only [Unwind.get, if_pos h.len_le] at e1
      exact e1.symm
    subst hs' this
    exact ⟨_, e1, fun hu => unmixed_perm h hu e2⟩
  exact ⟨key _ (sorts_asks _ (fun lt l => T.stable_sorted lt l) _ h2), key _ (sorts_asks _ (fun lt l => T.unstable_sorted lt l) _ h2)⟩

/-- If the comparison, whenever it returns, answers according to `ord`, then a sort that returns has the result of
Model/VecDeque.lean for `ord`: so C60 applies to comparisons with effects. -/
theorem C146_deque_answers (T : SortTrees) (cmp : α → α → Eff σ Ordering) (ord : α → α → Ordering)
    (hc : Answers cmp ord) (d d' : VecDeque α) (h : d.Inv) (s s' : σ) :
    (dqSortBy T.stable cmp (d, s) = (.ok (), (d', s')) → d.sortBy T.lib ord = .ok d') ∧
    (dqSortBy T.unstable cmp (d, s) = (.ok (), (d', s')) → d.sortUnstableBy T.lib ord = .ok d') := by
  have ht : (d.buffer.take d.len).length = d.len := by have := h.len_le; simp; omega
  have key : ∀ lib : (n : Nat) → SortSteps n, dqSortBy lib cmp (d, s) = (.ok (), (d', s')) →
      d' = ⟨(lib (d.buffer.take d.len).length).list (Vec.less ord) (d.buffer.take d.len) ++ d.buffer.drop d.len, d.len,
        d.head⟩ := by
    intro lib h'
    obtain ⟨o, l, s1, e1, _, _, _, e5⟩ := deque_sortBy_run lib cmp d s h.len_le
    rw [h'] at e1
    simp only [Prod.mk.injEq] at e1
    obtain ⟨e1, e2, -⟩ := e1
    rw [e2, e5 (Vec.less ord) _ e1.symm, ht]
    intro a _ b _ s1 r s2 hr
    rw [hc a b s1 r s2 hr]; rfl
  unfold VecDeque.sortBy VecDeque.sortUnstableBy
  rw [if_pos h.len_le, if_pos h.len_le]
  exact ⟨fun e => by rw [key _ e]; rfl, fun e => by rw [key _ e]; rfl⟩

/-- C146 is violated by VecDeque.SortBy: a new deque, `l` (not empty) pushed at the back and then `x` at the front, where
the zero value is neither x nor one of l and is less than all of l.  After a sort (with a comparison that neither panics
nor contradicts itself) the zero value is the second element and one of the elements is gone. -/
theorem C146_deque_fails [Inhabited α] (T : SortTrees) (ord : α → α → Ordering) (eq : α → α → Bool) (ho : LawfulOrd ord eq)
    (l : List α) (hl : l.length < 6) (hne : l ≠ []) (x : α) (hx : x ≠ default) (hd : ∀ a ∈ l, ord default a = .lt) (s : σ) :
    ∃ (d d' : VecDeque α), (do let d ← VecDeque.new; let d ← pushBacks d l; d.pushFront x) = .ok d ∧
      d.toList = x :: l ∧ dqSortBy T.stable (fun a b => (pure (ord a b) : Eff σ Ordering)) (d, s) = (.ok (), (d', s)) ∧
      d'.toList[1]? = some default ∧ default ∉ d.toList ∧ ¬ d'.toList.Perm d.toList := by
  obtain ⟨e1, e2⟩ := new_pushBacks_pushFront l hl x
  have hpos : 0 < l.length := List.length_pos_iff.2 hne
  obtain ⟨k, hk⟩ : ∃ k, 6 - l.length = k + 1 := ⟨5 - l.length, by omega⟩
  have hb : (l ++ List.replicate (6 - l.length) default ++ [x]).take (l.length + 1) = l ++ [default] := by
    simp only [hk, List.replicate_succ, List.append_assoc]
    rw [List.take_append, List.take_of_length_le (by omega)]
    simp
  have hb2 : (l ++ List.replicate (6 - l.length) default ++ [x]).drop (l.length + 1) =
      List.replicate k default ++ [x] := by
    simp only [hk, List.replicate_succ, List.append_assoc]
    rw [List.drop_append, List.drop_of_length_le (by omega)]
    simp
  have hw := less_strictWeak ord eq ho
  have hnl : default ∉ l := by
    intro hm
    have := hw.irrefl default
    simp [Vec.less, hd _ hm] at this
  obtain ⟨o, m, s', r1, r2, r3, r4, r5⟩ := deque_sortBy_run T.stable (fun a b => (pure (ord a b) : Eff σ Ordering))
    (⟨l ++ List.replicate (6 - l.length) default ++ [x], l.length + 1, 6⟩ : VecDeque α) s (by simp)
  simp only [hb, hb2] at r1 r2 r3 r4 r5
  have hs : s' = s := r4 (· = s) (fun _ _ _ _ _ h => h) rfl
  have hok : o = .ok () := by
    rcases o with e | ⟨⟩
    · obtain ⟨a, _, b, _, s1, h1⟩ := r3 e rfl
      cases h1
    · rfl
  have hm := r5 (Vec.less ord) (fun a _ b _ s1 r s2 h => by cases h; rfl) hok
  subst hs hok
  have hsorted := T.stable_sorted (Vec.less ord) (l ++ [default]) hw
  have hll : (l ++ [default]).length = l.length + 1 := by simp
  rw [hll, ← hm] at hsorted
  have hlen := r2.length_eq
  simp at hlen
  have hd' : VecDeque.toList (⟨m ++ (List.replicate k default ++ [x]), l.length + 1, 6⟩ : VecDeque α) =
      x :: m.take l.length := by
    unfold VecDeque.toList
    simp only
    have e6 : (m ++ List.replicate k default).length = 6 := by simp; omega
    rw [← List.append_assoc, List.drop_append_of_le_length (by omega), List.drop_of_length_le (by omega),
      List.take_append_of_le_length (l₂ := [x]) (by omega),
      List.take_of_length_le (l := m ++ List.replicate k default) (by omega)]
    simp only [List.nil_append, List.cons_append, List.take_succ_cons]
    rw [List.take_append_of_le_length (by omega)]
  have hfirst : ∃ t, m = default :: t := by
    match m, hlen with
    | a :: t, _ =>
      have ha : a ∈ l ++ [default] := r2.mem_iff.1 (by simp)
      rcases List.mem_append.1 ha with ha | ha
      · exfalso
        have hdm : default ∈ a :: t := r2.mem_iff.2 (by simp)
        rcases List.mem_cons.1 hdm with h0 | h0
        · exact hnl (h0 ▸ ha)
        · have := (List.pairwise_cons.1 hsorted).1 _ h0
          simp [Vec.less, hd a ha] at this
      · exact ⟨t, by rw [List.mem_singleton.1 ha]⟩
  obtain ⟨t, rfl⟩ := hfirst
  have h1 : VecDeque.toList (⟨default :: t ++ (List.replicate k default ++ [x]), l.length + 1, 6⟩ : VecDeque α) =
      x :: default :: t.take (l.length - 1) := by
    rw [hd']
    obtain ⟨n, hn⟩ : ∃ n, l.length = n + 1 := ⟨l.length - 1, by omega⟩
    rw [hn]; rfl
  have hnx : default ∉ x :: l := by
    intro h
    rcases List.mem_cons.1 h with h | h
    · exact hx h.symm
    · exact hnl h
  refine ⟨_, _, e1, e2, r1, ?_, by rw [e2]; exact hnx, ?_⟩
  · rw [h1]; rfl
  · rw [h1, e2]
    intro hp
    exact hnx (hp.mem_iff.1 (by simp))

/-! ### The contract can be met: insertion sort -/

namespace SortSteps
/-- The inner loop of insertion sort (`for j := i; j > 0 && less(j, j-1); j-- { swap(j, j-1) }`), then `k`. -/
def insertSteps (n : Nat) (k : SortSteps n) : (j : Nat) → j < n → SortSteps n
  | 0, _ => k
  | j + 1, h => .less ⟨j + 1, h⟩ ⟨j, by omega⟩ fun b =>
      if b then .swap ⟨j + 1, h⟩ ⟨j, by omega⟩ (insertSteps n k j (by omega)) else k
/-- The last `m` rounds of insertion sort. -/
def insertionRounds (n : Nat) : (m : Nat) → m ≤ n → SortSteps n
  | 0, _ => .done
  | m + 1, h => insertSteps n (insertionRounds n m (by omega)) (n - (m + 1)) (by omega)
/-- Insertion sort. -/
def insertion (n : Nat) : SortSteps n := insertionRounds n n (Nat.le_refl n)

/-- Insert x into a list that is sorted from the greatest element on. -/
def insRev (lt : α → α → Bool) (x : α) : List α → List α
  | [] => [x]
  | y :: r => if lt x y then y :: insRev lt x r else x :: y :: r

theorem insertSteps_list (lt : α → α → Bool) (n : Nat) (k : SortSteps n) (x : α) (r : List α) : ∀ (rest : List α) (j : Nat)
    (h : j < n), j = r.length → (insertSteps n k j h).list lt (r.reverse ++ x :: rest) =
      k.list lt ((insRev lt x r).reverse ++ rest) := by
  induction r with
  | nil => rintro rest j h rfl; rfl
  | cons y r ih =>
    rintro rest j h rfl
    have e : (y :: r).reverse ++ x :: rest = r.reverse ++ y :: x :: rest := by simp
    have e1 : (r.reverse ++ y :: x :: rest)[r.length]? = some y := by
      rw [List.getElem?_append_right (by simp)]; simp
    have e2 : (r.reverse ++ y :: x :: rest)[r.length + 1]? = some x := by
      rw [List.getElem?_append_right (by simp)]; simp
    rw [e]
    simp only [List.length_cons, insertSteps]
    conv => lhs; unfold list
    simp only [e1, e2]
    unfold insRev
    by_cases hl : lt x y
    · simp only [hl, if_true]
      conv => lhs; unfold list
      simp only [e1, e2]
      have e3 : ((r.reverse ++ y :: x :: rest).set (r.length + 1) y).set r.length x = r.reverse ++ x :: y :: rest := by
        rw [List.set_append_right _ _ (by simp), List.set_append_right _ _ (by simp)]
        simp
      rw [e3, ih (y :: rest) r.length (by simp at h; omega) rfl]
      simp
    · simp [hl]

theorem insertionRounds_list (lt : α → α → Bool) (n m : Nat) (h : m ≤ n) : ∀ (r rest : List α), rest.length = m →
    r.length + rest.length = n →
    (insertionRounds n m h).list lt (r.reverse ++ rest) = (rest.foldl (fun r x => insRev lt x r) r).reverse := by
  induction m with
  | zero =>
    intro r rest h1 h2
    have := List.length_eq_zero_iff.1 h1
    subst this
    simp [insertionRounds, list]
  | succ m ih =>
    intro r rest h1 h2
    match rest, h1 with
    | x :: rest, h1 =>
      simp only [List.length_cons] at h1 h2
      unfold insertionRounds
      rw [insertSteps_list lt n _ x r rest _ _ (by omega), ih (by omega) _ rest (by omega)]
      · rfl
      · have : (insRev lt x r).length = r.length + 1 := by
          clear h2
          induction r with
          | nil => rfl
          | cons y r ih2 =>
            unfold insRev
            split
            · simp [ih2]
            · simp
        omega

theorem insertion_list (lt : α → α → Bool) (l : List α) :
    (insertion l.length).list lt l = (l.foldl (fun r x => insRev lt x r) []).reverse := by
  have := insertionRounds_list lt l.length l.length (Nat.le_refl _) [] l rfl (by simp)
  simpa [insertion] using this

theorem insRev_mem (lt : α → α → Bool) (x : α) (r : List α) (a : α) : a ∈ insRev lt x r ↔ a = x ∨ a ∈ r := by
  induction r with
  | nil => simp [insRev]
  | cons y r ih =>
    unfold insRev
    split
    · simp only [List.mem_cons, ih]
      constructor
      · rintro (h | h | h) <;> simp [h]
      · rintro (h | h | h) <;> simp [h]
    · simp

theorem insRev_sorted (lt : α → α → Bool) (hw : StrictWeak lt) (x : α) (r : List α)
    (h : r.Pairwise fun a b => lt a b = false) : (insRev lt x r).Pairwise fun a b => lt a b = false := by
  induction r with
  | nil => simp [insRev]
  | cons y r ih =>
    obtain ⟨h1, h2⟩ := List.pairwise_cons.1 h
    unfold insRev
    by_cases hl : lt x y
    · rw [if_pos hl, List.pairwise_cons]
      refine ⟨fun a ha => ?_, ih h2⟩
      rcases (insRev_mem lt x r a).1 ha with rfl | ha
      · cases hya : lt y a with
        | false => rfl
        | true =>
          have := hw.trans _ _ _ hl hya
          rw [hw.irrefl] at this; cases this
      · exact h1 a ha
    · rw [if_neg hl, List.pairwise_cons]
      refine ⟨fun a ha => ?_, h⟩
      simp only [Bool.not_eq_true] at hl
      rcases List.mem_cons.1 ha with rfl | ha
      · exact hl
      · cases hxa : lt x a with
        | false => rfl
        | true =>
          rcases hw.cotrans x y a hxa with h3 | h3
          · rw [hl] at h3; cases h3
          · rw [h1 a ha] at h3; cases h3

theorem insRev_filter (lt : α → α → Bool) (hw : StrictWeak lt) (x z : α) (r : List α) :
    (insRev lt x r).filter (fun a => !lt a z && !lt z a) = (x :: r).filter (fun a => !lt a z && !lt z a) := by
  induction r with
  | nil => rfl
  | cons y r ih =>
    unfold insRev
    by_cases hl : lt x y
    · rw [if_pos hl, List.filter_cons, ih]
      simp only [List.filter_cons]
      rcases hw.cotrans x z y hl with h | h <;> simp [h]
    · rw [if_neg hl]

theorem insertion_sorted (lt : α → α → Bool) (l : List α) (hw : StrictWeak lt) :
    ((insertion l.length).list lt l).Pairwise fun a b => lt b a = false := by
  rw [insertion_list, List.pairwise_reverse]
  have : ∀ r : List α, (r.Pairwise fun a b => lt a b = false) →
      (l.foldl (fun r x => insRev lt x r) r).Pairwise fun a b => lt a b = false := by
    induction l with
    | nil => intro r h; exact h
    | cons x l ih => intro r h; exact ih _ (insRev_sorted lt hw x r h)
  exact this [] List.Pairwise.nil

theorem insertion_stable (lt : α → α → Bool) (l : List α) (hw : StrictWeak lt) (z : α) :
    ((insertion l.length).list lt l).filter (fun a => !lt a z && !lt z a) = l.filter (fun a => !lt a z && !lt z a) := by
  rw [insertion_list, List.filter_reverse]
  have : ∀ r : List α, (l.foldl (fun r x => insRev lt x r) r).filter (fun a => !lt a z && !lt z a) =
      (l.filter (fun a => !lt a z && !lt z a)).reverse ++ r.filter (fun a => !lt a z && !lt z a) := by
    induction l with
    | nil => intro r; rfl
    | cons x l ih =>
      intro r
      rw [List.foldl_cons, ih, insRev_filter lt hw]
      simp only [List.filter_cons]
      split <;> simp
  rw [this []]
  simp
end SortSteps

/-- The contract of package sort with steps is satisfiable: insertion sort meets it. -/
def insertionTrees : SortTrees where
  stable := SortSteps.insertion
  unstable := SortSteps.insertion
  stable_sorted := SortSteps.insertion_sorted
  unstable_sorted := SortSteps.insertion_sorted
  stable_stable := SortSteps.insertion_stable

-- a comparison that panics at its third call: the elements are half sorted, and all there
example : sortBy insertionTrees.stable
    (fun a b k => if k = 3 then (.error .explicit, k) else (.ok (compare a b), k + 1)) (⟨[5, 3, 4, 1], 4⟩, 0) =
    (.error .explicit, (⟨[3, 4, 5, 1], 4⟩, 3)) := by decide +kernel
-- a comparison that always says "less" returns, too
example : sortBy insertionTrees.unstable (fun _ _ k => (.ok .lt, k + 1)) (⟨[5, 3, 4, 1], 4⟩, 0) =
    (.ok (), (⟨[1, 4, 3, 5], 4⟩, 6)) := by decide +kernel
-- a comparison that counts its calls
example : sortBy insertionTrees.stable (fun (a b : Nat × Nat) k => (.ok (compare a.1 b.1), k + 1))
    (⟨[(2, 0), (1, 1), (2, 2), (1, 3)], 4⟩, 0) =
    (.ok (), (⟨[(1, 1), (1, 3), (2, 0), (2, 2)], 4⟩, 5)) := by decide +kernel
example : Answers (fun (a b : Nat) (k : Nat) => ((.ok (compare a b), k + 1) : Except Panic Ordering × Nat)) compare := by
  intro a b s o s' h; cases h; rfl
example : Unwind.sort insertionTrees.stable none ((⟨[5, 3, 4], 4⟩ : Vec Nat), ()) =
    (.error .nilDeref, (⟨[5, 3, 4], 4⟩, ())) := by decide +kernel
-- deques: from slot 0, full, and beyond the sorted slots
example : dqSortBy insertionTrees.stable (fun a b k => if k = 2 then (.error .explicit, k) else (.ok (compare a b), k + 1))
    ((⟨[3, 2, 1, 0], 3, 0⟩ : VecDeque Nat), 0) = (.error .explicit, (⟨[2, 1, 3, 0], 3, 0⟩, 2)) := by decide +kernel
example : Unmixed (⟨[3, 2, 1, 0], 3, 0⟩ : VecDeque Nat) ∧ Unmixed (⟨[3, 2, 1, 0], 4, 3⟩ : VecDeque Nat) ∧
    Unmixed (⟨[0, 0, 2, 1], 2, 2⟩ : VecDeque Nat) ∧ ¬ Unmixed (⟨[3, 2, 0, 1], 3, 3⟩ : VecDeque Nat) := by
  unfold Unmixed; decide
-- 9, 4, 5 sorted: 9, 0, 4; the 5 is lost
example : (match dqSortBy insertionTrees.stable (fun a b => (pure (compare a b) : Eff Unit Ordering))
    ((⟨[4, 5, 0, 0, 0, 0, 9], 3, 6⟩ : VecDeque Nat), ()) with
  | (.ok (), (d, ())) => d.toList
  | _ => []) = [9, 0, 4] := by decide +kernel

end Gost
