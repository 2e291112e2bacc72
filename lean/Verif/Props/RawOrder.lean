import Verif.Model.RawOrder
import Verif.Props.BinaryHeap
import Verif.Props.VecSearch
import Verif.Props.UnwindHeap
/-
C158: a comparison that answers with other numbers than the three constants, e.g. Ordering(a - b), is not read by its sign.
-/
namespace Gost
variable {σ α κ ν : Type}

/-- What a reader of `type Ordering int` may expect: negative is less, positive is greater. -/
def Spec.bySign (c : Int) : Ordering := if c < 0 then .lt else if c = 0 then .eq else .gt

/-- One of OrderingLess, OrderingEqual, OrderingGreater. -/
def Spec.Proper (c : Int) : Prop := c = -1 ∨ c = 0 ∨ c = 1
instance (c : Int) : Decidable (Spec.Proper c) := inferInstanceAs (Decidable (_ ∨ _ ∨ _))

namespace Raw
open Spec

/-- The tests in the code, on the numbers, are the tests of the readings. -/
theorem tests (c : Int) :
    (asLess c = .lt ↔ c = -1) ∧ (asHeap c = .lt ↔ c = -1) ∧ (asHeap c = .eq ↔ c = 0) ∧
    (asSearch c = .gt ↔ c = 1) ∧ (asSearch c = .eq ↔ c = 0) ∧ (asInsert c = .gt ↔ c = 1) ∧ (asInsert c = .lt ↔ c = -1) := by
  unfold asLess asHeap asSearch asInsert
  refine ⟨?_, ?_, ?_, ?_, ?_, ?_, ?_⟩ <;> (repeat' split) <;> simp <;> omega

theorem proper_sign {c : Int} (h : Proper c) :
    asLess c = bySign c ∧ asHeap c = bySign c ∧ asSearch c = bySign c ∧ asInsert c = bySign c := by
  rcases h with h | h | h <;> subst h <;> decide

/-- A search either never ends, or ends with the answer of the search by sign. -/
theorem searchLoop_or (c : α → Int) (data : List α) (s : σ) : ∀ (w : Nat) (low high : Int), 0 ≤ low → high < data.length →
    (high - low + 1).toNat ≤ w →
    (∀ fuel, searchLoop (fun a => (pure (c a) : Eff σ Int)) data fuel low high s = (.ok none, s)) ∨
    ∃ r, Vec.binarySearchLoop (fun a => (pure (bySign (c a)) : Eff σ Ordering)) data low high s = (.ok r, s) ∧
      ∀ fuel, w < fuel → searchLoop (fun a => (pure (c a) : Eff σ Int)) data fuel low high s = (.ok (some r), s) := by
  intro w
  induction w using Nat.strongRecOn with
  | ind w ih =>
    intro low high h0 h1 hw
    by_cases hle : low ≤ high
    · have hm0 : 0 ≤ (low + high) / 2 := by omega
      have hm1 : (low + high) / 2 ≤ high := by omega
      have hm2 : low ≤ (low + high) / 2 := by omega
      have hlt : ((low + high) / 2).toNat < data.length := by omega
      -- one round
      have step : ∀ fuel, searchLoop (fun a => (pure (c a) : Eff σ Int)) data (fuel + 1) low high s =
          (if c data[((low + high) / 2).toNat] = -1 then
            searchLoop (fun a => (pure (c a) : Eff σ Int)) data fuel ((low + high) / 2 + 1) high s
          else if c data[((low + high) / 2).toNat] = 1 then
            searchLoop (fun a => (pure (c a) : Eff σ Int)) data fuel low ((low + high) / 2 - 1) s
          else if c data[((low + high) / 2).toNat] = 0 then (.ok (some (Opt.some ((low + high) / 2).toNat)), s)
          else searchLoop (fun a => (pure (c a) : Eff σ Int)) data fuel low high s) := by
        intro fuel
        rw [searchLoop, if_pos hle]
        simp only [index_lt hlt]
        show (if c data[((low + high) / 2).toNat] = -1 then _ else _ : Eff σ _) s = _
        split
        · rfl
        · split
          · rfl
          · split <;> rfl
      have stepR : Vec.binarySearchLoop (fun a => (pure (bySign (c a)) : Eff σ Ordering)) data low high s =
          (match bySign (c data[((low + high) / 2).toNat]) with
            | .lt => Vec.binarySearchLoop (fun a => (pure (bySign (c a)) : Eff σ Ordering)) data ((low + high) / 2 + 1) high s
            | .gt => Vec.binarySearchLoop (fun a => (pure (bySign (c a)) : Eff σ Ordering)) data low ((low + high) / 2 - 1) s
            | .eq => (.ok (Opt.some ((low + high) / 2).toNat), s)) := by
        rw [Vec.binarySearchLoop, dif_pos hle]
        simp only [index_lt hlt]
        show (match bySign (c data[((low + high) / 2).toNat]) with | .lt => _ | .gt => _ | .eq => _ : Eff σ _) s = _
        cases bySign (c data[((low + high) / 2).toNat]) <;> rfl
      by_cases c1 : c data[((low + high) / 2).toNat] = -1
      · rcases ih (w - 1) (by omega) ((low + high) / 2 + 1) high (by omega) h1 (by omega) with hn | ⟨r, e1, e2⟩
        · refine .inl fun fuel => ?_
          cases fuel with
          | zero => rfl
          | succ fuel => rw [step, if_pos c1, hn]
        · refine .inr ⟨r, by rw [stepR, c1]; exact e1, fun fuel hf => ?_⟩
          cases fuel with
          | zero => omega
          | succ fuel => rw [step, if_pos c1]; exact e2 fuel (by omega)
      · by_cases c2 : c data[((low + high) / 2).toNat] = 1
        · rcases ih (w - 1) (by omega) low ((low + high) / 2 - 1) h0 (by omega) (by omega) with hn | ⟨r, e1, e2⟩
          · refine .inl fun fuel => ?_
            cases fuel with
            | zero => rfl
            | succ fuel => rw [step, if_neg c1, if_pos c2, hn]
          · refine .inr ⟨r, by rw [stepR, c2]; exact e1, fun fuel hf => ?_⟩
            cases fuel with
            | zero => omega
            | succ fuel => rw [step, if_neg c1, if_pos c2]; exact e2 fuel (by omega)
        · by_cases c3 : c data[((low + high) / 2).toNat] = 0
          · refine .inr ⟨_, by rw [stepR, c3]; rfl, fun fuel hf => ?_⟩
            cases fuel with
            | zero => omega
            | succ fuel => rw [step, if_neg c1, if_neg c2, if_pos c3]
          · refine .inl fun fuel => ?_
            induction fuel with
            | zero => rfl
            | succ fuel ihf => rw [step, if_neg c1, if_neg c2, if_neg c3, ihf]
    · refine .inr ⟨Opt.none, ?_, fun fuel hf => ?_⟩
      · rw [Vec.binarySearchLoop, dif_neg hle]; rfl
      · cases fuel with
        | zero => omega
        | succ fuel => rw [searchLoop, if_neg hle]; rfl

/-- Proper answers: the search ends. -/
theorem searchLoop_proper (c : α → Int) (data : List α) (hc : ∀ a ∈ data, Proper (c a)) (s : σ) :
    ∀ (w : Nat) (low high : Int), 0 ≤ low → high < data.length → (high - low + 1).toNat < w →
    (searchLoop (fun a => (pure (c a) : Eff σ Int)) data w low high s).1 ≠ .ok none := by
  intro w
  induction w with
  | zero => intros; omega
  | succ w ih =>
    intro low high h0 h1 hw
    by_cases hle : low ≤ high
    · have hlt : ((low + high) / 2).toNat < data.length := by omega
      rw [searchLoop, if_pos hle]
      simp only [index_lt hlt]
      show ((if c data[((low + high) / 2).toNat] = -1 then _ else _ : Eff σ _) s).1 ≠ _
      rcases hc _ (List.getElem_mem hlt) with h | h | h
      · rw [if_pos h]; exact ih _ _ (by omega) h1 (by omega)
      · rw [if_neg (by omega), if_neg (by omega), if_pos h]; intro hh; cases hh
      · rw [if_neg (by omega), if_pos h]; exact ih _ _ h0 (by omega) (by omega)
    · rw [searchLoop, if_neg hle]; intro hh; cases hh

/-- Pop of any heap, with any comparison: the first element, and the others stay. -/
theorem _root_.Gost.BHeap.pop_any (ord : α → α → Ordering) (s : BHeap α) (x : α) (l : List α) (hs : s.vec.data = x :: l) :
    ∃ s', s.pop ord = .ok (some (s', Opt.some x)) ∧ s'.vec.data.Perm l := by
  have ht := pop_triple (σ := Unit) (fun a b => pure (ord a b)) s.vec s.vec () rfl
  rcases hx : Unwind.pop (σ := Unit) (fun a b => pure (ord a b)) (s.vec, ()) with ⟨e | r, t⟩
  · rw [hx] at ht
    obtain ⟨⟨a, b, u, h⟩, _⟩ := ht
    cases h
  · rw [hx] at ht
    have ha := pop_answers (ord := ord) (by intro a b s o s' h; cases h; rfl) hx
    rcases ht with ⟨h, _⟩ | ⟨x', l', h, hr, hl⟩
    · rw [h] at hs; cases hs
    · rw [h] at hs
      injection hs with h1 h2
      subst h1 h2
      rw [hr] at ha
      exact ⟨⟨t.1⟩, ha, hl⟩

theorem siftUpLoop_top (ord : α → α → Ordering) (elt : α) (fuel : Nat) (v : Vec α)
    (pos : Nat) (hf : pos < fuel) (hp : v.data[pos]? = some elt)
    (hgt : ∀ j y, j ≠ pos → v.data[j]? = some y → ord elt y = .gt) :
    ∃ v' p', BHeap.siftUpLoop ord 0 fuel v elt pos = .ok (some (v', p')) ∧ v'.data[0]? = some elt := by
  induction fuel generalizing v pos with
  | zero => omega
  | succ fuel ih =>
    have hpos : pos < v.data.length := (List.getElem?_eq_some_iff.1 hp).1
    unfold BHeap.siftUpLoop
    by_cases h0 : pos > 0
    · rw [if_pos h0]
      have hpar : (pos - 1) / 2 < v.data.length := by omega
      simp only [index_lt hpar, Go.bind_ok, hgt ((pos - 1) / 2) _ (by omega) (List.getElem?_eq_getElem hpar)]
      rw [if_neg (by simp)]
      obtain ⟨v1, e1, e2, e3, e4, e5⟩ := v.swap_ok pos ((pos - 1) / 2) hpos hpar
      simp only [e1, Go.bind_ok]
      refine ih v1 ((pos - 1) / 2) (by omega) (by rw [e5, if_neg (by omega), if_pos rfl, hp]) ?_
      intro j y hj hy
      rw [e5] at hy
      by_cases hjp : j = pos
      · rw [if_pos hjp] at hy
        exact hgt _ y (by omega) hy
      · rw [if_neg hjp, if_neg hj] at hy
        exact hgt j y hjp hy
    · rw [if_neg h0]
      have : pos = 0 := by omega
      subst this
      exact ⟨v, 0, rfl, hp⟩

end Raw

open Spec Raw

/-- **C158**, as far as it holds.  The full property: the methods read the number that a comparison answers by its sign, so that
Ordering(a - b) is as good as the three constants.  Here: a comparison that answers with the three constants only is read by its
sign everywhere, and every search ends.  Missing: any other number (the theorems below). -/
theorem C158_proper_partial (c : α → α → Int) (hc : ∀ a b, Proper (c a b)) (f : α → Int) (hf : ∀ a, Proper (f a)) :
    (∀ (v : Vec α) (s : σ) (fuel : Nat), v.len < fuel →
      ∃ r, v.binarySearchBy (fun a => (pure (bySign (f a)) : Eff σ Ordering)) s = (.ok r, s) ∧
        Raw.binarySearchBy fuel v (fun a => (pure (f a) : Eff σ Int)) s = (.ok (some r), s)) ∧
    (∀ (S : SortLib) (v : Vec α), Raw.sortBy S v c = v.sortBy S (fun a b => bySign (c a b)) ∧
      Raw.sort S c v = v.sort S (some fun a b => bySign (c a b)) ∧
      Raw.sortUnstableBy S v c = v.sortUnstableBy S (fun a b => bySign (c a b))) ∧
    (∀ (S : SortLib) (d : VecDeque α), Raw.dequeSortBy S d c = d.sortBy S (fun a b => bySign (c a b))) ∧
    (∀ (g : Growth) (s : BHeap α) (x : α), Raw.push g c s x = s.push g (fun a b => bySign (c a b)) x ∧
      Raw.pop c s = s.pop (fun a b => bySign (c a b))) ∧
    (∀ (h : BStore α ν) (m : BMap) (k : α) (v : ν), Raw.get c h m k = m.get (fun a b => bySign (c a b)) h k ∧
      Raw.insert c h m k v = m.insert (fun a b => bySign (c a b)) h k v) := by
  have e1 : (fun a b => asLess (c a b)) = fun a b => bySign (c a b) := by
    funext a b; exact (proper_sign (hc a b)).1
  have e2 : (fun a b => asHeap (c a b)) = fun a b => bySign (c a b) := by
    funext a b; exact (proper_sign (hc a b)).2.1
  have e3 : (fun a b => asSearch (c a b)) = fun a b => bySign (c a b) := by
    funext a b; exact (proper_sign (hc a b)).2.2.1
  have e4 : (fun a b => asInsert (c a b)) = fun a b => bySign (c a b) := by
    funext a b; exact (proper_sign (hc a b)).2.2.2
  refine ⟨?_, ?_, ?_, ?_, ?_⟩
  · intro v s fuel hfu
    rcases searchLoop_or f v.data s v.data.length 0 ((v.data.length : Int) - 1) (by omega) (by omega) (by omega) with hn | ⟨r, h1, h2⟩
    · have := searchLoop_proper f v.data (fun a _ => hf a) s (v.data.length + 1) 0 ((v.data.length : Int) - 1) (by omega)
        (by omega) (by omega)
      rw [hn] at this
      exact absurd rfl this
    · exact ⟨r, h1, h2 fuel hfu⟩
  · intro S v; simp only [Raw.sortBy, Raw.sort, Raw.sortUnstableBy, e1, and_self]
  · intro S v; simp only [Raw.dequeSortBy, e1]
  · intro g s x; simp only [Raw.push, Raw.pop, e2, and_self]
  · intro h m k v
    refine ⟨by simp only [Raw.get, e3], ?_⟩
    have e5 : ∀ a b, (c a b = -1) = (bySign (c a b) = .lt) := by
      intro a b; rw [← (proper_sign (hc a b)).2.2.2, propext (tests (c a b)).2.2.2.2.2.2]
    unfold Raw.insert
    simp only [e3, e4, e5]
    unfold BMap.insert
    cases m.root <;> rfl

/-- **C158**, exact for BinarySearchBy with a function without effects, on a Vec and on a VecDeque: either the call never returns, or
it returns what the search by sign returns. -/
theorem C158_search_exact_partial (f : α → Int) (s : σ) :
    (∀ v : Vec α,
      (∀ fuel, Raw.binarySearchBy fuel v (fun a => (pure (f a) : Eff σ Int)) s = (.ok none, s)) ∨
      ∃ r, v.binarySearchBy (fun a => (pure (bySign (f a)) : Eff σ Ordering)) s = (.ok r, s) ∧
        ∀ fuel, v.len < fuel → Raw.binarySearchBy fuel v (fun a => (pure (f a) : Eff σ Int)) s = (.ok (some r), s)) ∧
    (∀ d : VecDeque α, d.len ≤ d.buffer.length →
      (∀ fuel, Raw.dequeBinarySearchBy fuel d (fun a => (pure (f a) : Eff σ Int)) s = (.ok none, s)) ∨
      ∃ r, d.binarySearchBy (fun a => (pure (bySign (f a)) : Eff σ Ordering)) s = (.ok r, s) ∧
        ∀ fuel, d.len < fuel → Raw.dequeBinarySearchBy fuel d (fun a => (pure (f a) : Eff σ Int)) s = (.ok (some r), s)) := by
  constructor
  · intro v
    exact searchLoop_or f v.data s v.data.length 0 ((v.data.length : Int) - 1) (by omega) (by omega) (by omega)
  · intro d hd
    exact searchLoop_or f d.buffer s d.len 0 ((d.len : Int) - 1) (by omega) (by omega) (by omega)

/-- **C158** fails: BinarySearch and BinarySearchBy never return if the comparison answers the element in the middle with another
number, in particular on a Vec with one element that is greater or less by 2. -/
theorem C158_search_fails (v : Vec α) (hv : 0 < v.len) :
    (∀ (f : α → Int) (s : σ), ¬ Proper (f (v.data[(v.len - 1) / 2]'(by simp only [Vec.len] at *; omega))) →
      ∀ fuel, Raw.binarySearchBy fuel v (fun a => (pure (f a) : Eff σ Int)) s = (.ok none, s)) ∧
    (∀ (c : α → α → Int) (x : α), ¬ Proper (c (v.data[(v.len - 1) / 2]'(by simp only [Vec.len] at *; omega)) x) →
      ∀ fuel, Raw.binarySearch fuel c v x = .ok none) := by
  have key : ∀ {σ : Type} (f : α → Int) (s : σ), ¬ Proper (f (v.data[(v.len - 1) / 2]'(by simp only [Vec.len] at *; omega))) →
      ∀ fuel, searchLoop (fun a => (pure (f a) : Eff σ Int)) v.data fuel 0 ((v.data.length : Int) - 1) s = (.ok none, s) := by
    intro σ f s hf fuel
    simp only [Vec.len] at hv hf
    have hm : ((0 + ((v.data.length : Int) - 1)) / 2).toNat = (v.data.length - 1) / 2 := by omega
    induction fuel with
    | zero => rfl
    | succ fuel ih =>
      rw [searchLoop, if_pos (by omega), hm]
      have hlt : (v.data.length - 1) / 2 < v.data.length := by omega
      simp only [index_lt hlt]
      show (if f v.data[(v.data.length - 1) / 2] = -1 then _ else _ : Eff σ _) s = _
      rw [if_neg (fun h => hf (.inl h)), if_neg (fun h => hf (.inr (.inr h))), if_neg (fun h => hf (.inr (.inl h)))]
      exact ih
  refine ⟨fun f s hf fuel => key f s hf fuel, fun c x hc fuel => ?_⟩
  unfold Raw.binarySearch
  rw [key (fun a => c a x) () hc fuel]

/-- **C158** fails: Sort and SortBy of a Vec and SortBy of a VecDeque leave everything where it is, if the comparison never answers
exactly -1, whatever its signs say. -/
theorem C158_sort_fails (S : SortLib) (c : α → α → Int) (hc : ∀ a b, c a b ≠ -1) (v : Vec α) (d : VecDeque α)
    (hd : d.len ≤ d.buffer.length) :
    Raw.sortBy S v c = v ∧ Raw.sort S c v = .ok v ∧ Raw.dequeSortBy S d c = .ok d := by
  have hl : ∀ a b, Vec.less (fun a b => asLess (c a b)) a b = false := by
    intro a b
    have := (tests (c a b)).1
    simp only [Vec.less, beq_eq_false_iff_ne, ne_eq, this]
    exact hc a b
  have hs : ∀ l : List α, S.stable (Vec.less fun a b => asLess (c a b)) l = l := by
    intro l
    cases l with
    | nil => exact List.Perm.eq_nil (S.stable_perm _ _)
    | cons x l =>
      have h := S.stable_stable (Vec.less fun a b => asLess (c a b)) (x :: l)
        ⟨by simp [hl], by simp [hl], by simp [hl]⟩ x
      have ht : ∀ l : List α, l.filter (fun _ => true) = l := fun l => List.filter_eq_self.2 (fun _ _ => rfl)
      simpa only [hl, Bool.not_false, Bool.and_self, ht] using h
  refine ⟨by simp [Raw.sortBy, Vec.sortBy, hs], by simp [Raw.sort, Vec.sort, Vec.sortBy, hs], ?_⟩
  simp [Raw.dequeSortBy, VecDeque.sortBy, hs, hd]

/-- **C158** fails: an element that Cmp answers with a number other than -1 and 0 for all others, also if it is a negative one, goes
to the top of the BinaryHeap: the next Pop returns it. -/
theorem C158_heap_fails (g : Growth) (c : α → α → Int) (s : BHeap α) (x : α) (hx : ∀ y ∈ s.vec.data, c x y ≠ -1 ∧ c x y ≠ 0) :
    ∃ s' s'', Raw.push g c s x = .ok (some s') ∧ Raw.pop c s' = .ok (some (s'', Opt.some x)) ∧
      s''.vec.data.Perm s.vec.data := by
  have hgt : ∀ j y, j ≠ s.vec.data.length → (s.vec.push g x).data[j]? = some y →
      (fun a b => asHeap (c a b)) x y = .gt := by
    intro j y hj hy
    simp only [Vec.push, Vec.goAppend] at hy
    have hjl := (List.getElem?_eq_some_iff.1 hy).1
    rw [List.length_append, List.length_singleton] at hjl
    rw [List.getElem?_append_left (by omega)] at hy
    have := hx y (List.mem_of_getElem? hy)
    simp only [asHeap]
    rw [if_neg this.1, if_neg this.2]
  have hp : (s.vec.push g x).data[s.vec.data.length]? = some x := by simp [Vec.push, Vec.goAppend]
  have hlt := (List.getElem?_eq_some_iff.1 hp).1
  have hget := (List.getElem?_eq_some_iff.1 hp).2
  obtain ⟨v', p', e1, e2⟩ := siftUpLoop_top (fun a b => asHeap (c a b)) x (s.vec.data.length + 1) (s.vec.push g x)
    s.vec.data.length (by omega) hp hgt
  obtain ⟨s1, f1, f2, _⟩ := BHeap.push_any g (fun a b => asHeap (c a b)) s x
  have f1' := f1
  simp only [BHeap.push, BHeap.siftUp, BHeap.len, Vec.len, Vec.getUnchecked, index_lt hlt, hget, Go.bind_ok, e1,
    Option.map_some, Except.ok.injEq, Option.some.injEq] at f1'
  subst f1'
  cases hd : v'.data with
  | nil => rw [hd] at e2; cases e2
  | cons y l =>
    rw [hd] at e2
    simp only [List.getElem?_cons_zero, Option.some.injEq] at e2
    subst e2
    obtain ⟨s'', g1, g2⟩ := BHeap.pop_any (fun a b => asHeap (c a b)) ⟨v'⟩ y l hd
    refine ⟨_, s'', f1, g1, g2.trans ?_⟩
    simp only [hd] at f2
    exact (List.perm_cons y).1 (f2.trans (List.perm_append_singleton y _))

/-- **C158** fails: a BTreeMap does not find its second key if Cmp answers with other numbers than the three constants: Get gives
None, and inserting the key again adds it again. -/
theorem C158_map_fails (c : κ → κ → Int) (k1 k2 : κ) (h12 : ¬ Proper (c k1 k2)) (h21 : ¬ Proper (c k2 k1)) (h22 : c k2 k2 = 0)
    (v1 v2 v3 : ν) :
    ∃ h1 m1 h2 m2 h3 m3, Raw.insert c [] BMap.new k1 v1 = .ok (h1, m1, Opt.none) ∧
      Raw.insert c h1 m1 k2 v2 = .ok (h2, m2, Opt.none) ∧ m2.length = 2 ∧ Raw.get c h2 m2 k2 = .ok Opt.none ∧
      Raw.insert c h2 m2 k2 v3 = .ok (h3, m3, Opt.none) ∧ m3.length = 3 := by
  have a1 : asSearch (c k2 k1) = .lt := by
    simp only [asSearch]
    rw [if_neg (fun h => h21 (.inr (.inr h))), if_neg (fun h => h21 (.inr (.inl h)))]
  have a2 : asInsert (c k1 k2) = .eq := by
    simp only [asInsert]
    rw [if_neg (fun h => h12 (.inr (.inr h))), if_neg (fun h => h12 (.inl h))]
  have a3 : asInsert (c k2 k2) = .eq := by rw [h22]; rfl
  let n1 : BNode κ ν := ⟨true, 0, [some k1, none, none, none, none, none, none, none, none, none, none],
    [some v1, none, none, none, none, none, none, none, none, none, none], 1, List.replicate 12 none⟩
  let n2 : BNode κ ν := ⟨true, 0, [some k1, some k2, none, none, none, none, none, none, none, none, none],
    [some v1, some v2, none, none, none, none, none, none, none, none, none], 2, List.replicate 12 none⟩
  let n3 : BNode κ ν := ⟨true, 0, [some k1, some k2, some k2, none, none, none, none, none, none, none, none],
    [some v1, some v2, some v3, none, none, none, none, none, none, none, none], 3, List.replicate 12 none⟩
  refine ⟨[n1], ⟨some 0, 1⟩, [n2], ⟨some 0, 2⟩, [n3], ⟨some 0, 3⟩, rfl, ?_, rfl, ?_, ?_, rfl⟩
  · simp [Raw.insert, BTree.search, BTree.searchIdx, BTree.capacity, BTree.load, BTree.insertNonFull, BTree.insertLeaf,
      BTree.leafLoop, index, setIndex, usize, n1, n2, a1, a2]
  · simp [Raw.get, BMap.get, BTree.search, BTree.searchIdx, BTree.load, n2, a1]
  · simp [Raw.insert, BTree.search, BTree.searchIdx, BTree.capacity, BTree.load, BTree.insertNonFull, BTree.insertLeaf,
      BTree.leafLoop, index, setIndex, usize, n3, n2, a1, a3]

/-! ### Examples: Ordering(a - b) and Ordering(10 * (a - b)) -/

/-- Cmp by subtraction. -/
abbrev Raw.diff (a b : Int) : Int := a - b
/-- A comparison of tens. -/
abbrev Raw.diff10 (a b : Int) : Int := 10 * (a - b)

-- three constants
example : ∀ a b : Int, Proper (if a < b then -1 else if a = b then 0 else 1) := by
  intro a b; unfold Proper
  by_cases h : a < b
  · simp [h]
  · by_cases h' : a = b <;> simp [h, h']
-- a search that ends and one that does not: 3 among 2, 3, 4 with a - b, and 6
example : (Raw.binarySearch 4 Raw.diff ⟨[2, 3, 4], 3⟩ 4).toOption = some (some ⟨some 2⟩) ∧
    (Raw.binarySearch 400 Raw.diff ⟨[2, 3, 4], 3⟩ 6).toOption = some none ∧ ¬ Proper (Raw.diff 3 6) := by decide +kernel
example : ∀ fuel, Raw.binarySearch fuel Raw.diff ⟨[2, 3, 4], 3⟩ 6 = .ok none :=
  (C158_search_fails (σ := Unit) ⟨[2, 3, 4], 3⟩ (by decide)).2 Raw.diff 6 (by decide)
-- nothing is sorted
example : ∀ a b, Raw.diff10 a b ≠ -1 := by intro a b; simp only [Raw.diff10]; omega
example (S : SortLib) : Raw.sortBy S ⟨[3, 1, 2], 3⟩ Raw.diff10 = ⟨[3, 1, 2], 3⟩ ∧ bySign (Raw.diff10 1 3) = .lt :=
  ⟨(C158_sort_fails S Raw.diff10 (by intro a b; simp only [Raw.diff10]; omega) ⟨[3, 1, 2], 3⟩ ⟨[0], 0, 0⟩ (by decide)).1, by decide⟩
-- 1 is popped before 9
example : (do
      let s ← Raw.push doubling Raw.diff BHeap.new 9
      let s ← Raw.push doubling Raw.diff (s.getD BHeap.new) 1
      Raw.pop Raw.diff (s.getD BHeap.new) : Go _).toOption.map (fun r => r.map (·.2.value)) = some (some (some 1)) := by decide +kernel
example : ∀ y ∈ [(9 : Int), 5, 7], Raw.diff 1 y ≠ -1 ∧ Raw.diff 1 y ≠ 0 ∧ bySign (Raw.diff 1 y) = .lt := by decide
-- keys 1 and 5
example : ¬ Proper (Raw.diff 1 5) ∧ ¬ Proper (Raw.diff 5 1) ∧ Raw.diff 5 5 = 0 := by decide

end Gost
