import Verif.Model.Reenter
import Verif.Props.SliceHeap
import Verif.Props.VecDeque
import Verif.Props.SortUnwind
/-
Property C152: functions of the user that use the container whose method calls them.
-/
namespace Gost
variable {α β σ τ ω : Type}

namespace Spec
/-- Every method the function calls satisfies P. -/
def Only (P : ω → Prop) : Use ω α β → Prop
  | .done _ => True
  | .look k => ∀ l, Only P (k l)
  | .op o k => P o ∧ Only P k

/-- The answer of a function that only looks at the container, when the elements are l. -/
def read (l : List α) : Use ω α β → Option β
  | .done b => some b
  | .look k => read l (k l)
  | .op _ _ => none

/-- The function f is called with these values, one call after another, and gives these answers; what it finds in the
container may be anything. -/
inductive Calls {γ : Type} (run : Use ω α (β × σ) → γ → Go ((β × σ) × γ)) (f : α → σ → Use ω α (β × σ)) :
    List (α × β) → σ → σ → Prop
  | nil (s : σ) : Calls run f [] s s
  | cons {v b s s1 s2 c c' tr} (h : run (f v s) c = .ok ((b, s1), c')) (t : Calls run f tr s1 s2) :
      Calls run f ((v, b) :: tr) s s2

/-- The values whose answers are accepted. -/
def kept (accept : β → τ → Bool × τ) : τ → List (α × β) → List α
  | _, [] => []
  | t, (v, b) :: tr => if (accept b t).1 then v :: kept accept (accept b t).2 tr else kept accept (accept b t).2 tr

/-- Calls of a function that only looks, for each value; `seen acc` are the elements it finds when `acc` have been
accepted so far. -/
def reads (f : α → σ → Use ω α (Bool × σ)) (seen : List α → List α) : List α → List α → σ → Option (List α × σ)
  | [], acc, s => some (acc, s)
  | v :: rest, acc, s =>
    match read (seen acc) (f v s) with
    | some (true, s) => reads f seen rest (acc ++ [v]) s
    | some (false, s) => reads f seen rest acc s
    | none => none

/-- The first element with each key. -/
def firstWithKey {κ : Type} (keq : κ → κ → Bool) : List κ → List (α × κ) → List α
  | _, [] => []
  | seen, (v, k) :: tr => if seen.any (keq k) then firstWithKey keq seen tr else v :: firstWithKey keq (k :: seen) tr
end Spec

open Spec

theorem Use.run_read {γ : Type} (view : γ → List α) (step : ω → γ → Go γ) (u : Use ω α β) (hu : Only (fun _ => False) u) (c : γ) :
    ∃ b, read (view c) u = some b ∧ u.run view step c = .ok (b, c) := by
  induction u with
  | done b => exact ⟨b, rfl, rfl⟩
  | look k ih => exact ih _ (hu _)
  | op o k => exact hu.1.elim

namespace Reenter
variable [Inhabited α]

theorem run_good (g : Growth) (S : SortLib) (u : Use (MOp α) α β) : ∀ (c c' : VecVar α) (b : β), c.2.Valid c.1 →
    u.run contents (perform g S) c = .ok (b, c') → ∃ v, Slice.Good c.1 c.2 c'.1 c'.2 v := by
  induction u with
  | done b =>
    intro c c' b' hv h
    cases h
    exact ⟨_, Slice.Good.refl hv⟩
  | look k ih => intro c c' b' hv h; exact ih _ c c' b' hv h
  | op o k ih =>
    intro c c' b' hv h
    have hg := MOp.heap_good g S o hv
    simp only [Use.run, perform] at h
    cases e : o.heap g S c.1 c.2 with
    | error x => rw [e] at h; cases h
    | ok c1 =>
      rw [e] at hg h
      obtain ⟨v, -, h1⟩ := hg
      obtain ⟨v', h2⟩ := ih c1 c' b' h1.1 h
      exact ⟨v', h1.trans h2⟩

/-- The loops of Retain and DedupByKey. -/
theorem collect_run (g : Growth) (S : SortLib) (accept : β → τ → Bool × τ) (f : α → σ → Use (MOp α) α (β × σ)) (range : Slice)
    (J : VecVar α → Prop) (Q : Nat → α → Prop) (hQ : ∀ c i v, J c → index (range.view c.1) i = .ok v → Q i v)
    (hJ : ∀ v s b s' c c', c.2.Valid c.1 → J c → (f v s).run contents (perform g S) c = .ok ((b, s'), c') → J c')
    (n : Nat) : ∀ (i : Nat) (t : τ) (nd : Slice) (c : VecVar α) (s : σ) (h' : SHeap α) (nd' : Slice) (s' : σ), c.2.Valid c.1 →
    nd.Valid c.1 → nd.arr ≠ c.2.arr → nd.len + n ≤ (nd.array c.1).length → J c →
    (∀ h h' self, J (h, self) → h.length ≤ h'.length → (∀ a, a < h.length → a ≠ nd.arr → h'[a]? = h[a]?) → J (h', self)) →
    collectLoop g S accept f range n i t nd c s = .ok (h', nd', s') →
    ∃ tr, tr.length = n ∧ Calls (Use.run contents (perform g S)) f tr s s' ∧ nd'.Valid h' ∧
      nd'.view h' = nd.view c.1 ++ kept accept t tr ∧ ∀ k v b, tr[k]? = some (v, b) → Q (i + k) v := by
  induction n with
  | zero =>
    intro i t nd c s h' nd' s' hc hn _ _ _ _ h
    cases h
    exact ⟨[], rfl, .nil _, hn, by simp [kept], by simp⟩
  | succ n ih =>
    intro i t nd c s h' nd' s' hc hn hne hcap hj hfj h
    unfold collectLoop at h
    cases ei : index (range.view c.1) i with
    | error e => rw [ei] at h; cases h
    | ok value =>
      rw [ei] at h
      cases er : (f value s).run contents (perform g S) c with
      | error e => simp only [bind, Except.bind, er] at h; cases h
      | ok r =>
        obtain ⟨⟨b, s1⟩, c1⟩ := r
        obtain ⟨v, g1, -, g3, g4, g5⟩ := run_good g S _ c c1 _ hc er
        have hj1 := hJ value s b s1 c c1 hc hj er
        have hq0 := hQ c i value hj ei
        have hq : ∀ (tr : List (α × β)), (∀ k v b, tr[k]? = some (v, b) → Q (i + 1 + k) v) →
            ∀ k v b', ((value, b) :: tr)[k]? = some (v, b') → Q (i + k) v := by
          intro tr htr k v b' hk
          cases k with
          | zero => simp only [List.getElem?_cons_zero, Option.some.injEq, Prod.mk.injEq] at hk; rw [← hk.1]; exact hq0
          | succ k => rw [List.getElem?_cons_succ] at hk; have := htr k v b' hk; rwa [Nat.add_right_comm, Nat.add_assoc] at this
        have hfr := g5 nd.arr hn.1 hne
        obtain ⟨t1, t2⟩ := toVec_frame (t := nd) hfr
        have hn1 : nd.Valid c1.1 := ⟨Nat.lt_of_lt_of_le hn.1 g3, by rw [t2]; exact hn.2⟩
        have hne1 : nd.arr ≠ c1.2.arr := by
          have := hn.1
          rcases g4 with e | e
          · rw [e]; exact hne
          · omega
        have hview : nd.view c1.1 = nd.view c.1 := congrArg Vec.data t1
        simp only [bind, Except.bind, er] at h
        by_cases ha : (accept b t).1 = true
        · rw [if_pos ha] at h
          obtain ⟨p1, p2, p3, p4, p5⟩ := Slice.good_append g hn1 [value]
          have hl := Slice.view_length hn1
          have hroom : nd.len + 1 ≤ (nd.array c1.1).length := by rw [t2]; omega
          have hcapv : ((nd.toVec c1.1).goAppend g [value]) = ⟨nd.view c1.1 ++ [value], (nd.array c1.1).length⟩ := by
            unfold Vec.goAppend Slice.toVec
            simp only [List.length_cons, List.length_nil, hl]
            rw [if_pos (by omega)]
          rw [hcapv] at p2
          have q1 : (nd.goAppend g c1.1 [value]).2.view (nd.goAppend g c1.1 [value]).1 = nd.view c1.1 ++ [value] := congrArg Vec.data p2
          have q2 : ((nd.goAppend g c1.1 [value]).2.array (nd.goAppend g c1.1 [value]).1).length = (nd.array c1.1).length :=
            congrArg Vec.cap p2
          have q3 : (nd.goAppend g c1.1 [value]).2 = ⟨nd.arr, nd.len + 1⟩ := by
            unfold Slice.goAppend
            simp only [List.length_cons, List.length_nil]
            rw [if_pos (by omega)]
          have hfc := p5 c1.2.arr g1.1 (Ne.symm hne1)
          obtain ⟨u1, u2⟩ := toVec_frame (t := c1.2) hfc
          obtain ⟨tr, k1, k2, k3, k4, k5⟩ := ih (i + 1) (accept b t).2 _ ((nd.goAppend g c1.1 [value]).1, c1.2) s1 h' nd' s'
            ⟨Nat.lt_of_lt_of_le g1.1 p3, by show _ ≤ (c1.2.array _).length; rw [u2]; exact g1.2⟩ p1 (by rw [q3]; exact hne1)
            (by rw [q2, q3, t2]; show nd.len + 1 + n ≤ _; omega) (hfj _ _ _ hj1 p3 p5) (by rw [q3]; exact hfj) h
          refine ⟨(value, b) :: tr, by simp [k1], .cons er k2, k3, ?_, hq tr k5⟩
          rw [k4, q1, hview, kept, if_pos ha]
          simp
        · rw [if_neg ha] at h
          obtain ⟨tr, k1, k2, k3, k4, k5⟩ := ih (i + 1) (accept b t).2 nd c1 s1 h' nd' s' g1 hn1 hne1 (by rw [t2]; omega) hj1 hfj h
          refine ⟨(value, b) :: tr, by simp [k1], .cons er k2, k3, ?_, hq tr k5⟩
          rw [k4, hview, kept, if_neg ha]

theorem make_frame {c : VecVar α} (hv : c.2.Valid c.1) (n : Nat) : (∀ t : Slice, t.arr < c.1.length →
      t.array (Slice.make c.1 0 n).1 = t.array c.1) ∧ c.2.Valid (Slice.make c.1 0 n).1 := by
  have k : ∀ t : Slice, t.arr < c.1.length → t.array (Slice.make c.1 0 n).1 = t.array c.1 := by
    intro t ht
    unfold Slice.make Slice.array
    simp only
    rw [List.getElem?_append_left ht]
  refine ⟨k, ?_, ?_⟩
  · show c.2.arr < (c.1 ++ [_]).length
    have := hv.1
    simp; omega
  · rw [k c.2 hv.1]; exact hv.2

theorem collect_start {c : VecVar α} (hv : c.2.Valid c.1) (g : Growth) (S : SortLib) (accept : β → τ → Bool × τ)
    (f : α → σ → Use (MOp α) α (β × σ)) (t : τ) (s : σ) (h' : SHeap α) (nd' : Slice) (s' : σ)
    (J : VecVar α → Prop) (Q : Nat → α → Prop) (hQ : ∀ c' i v, J c' → index (c.2.view c'.1) i = .ok v → Q i v)
    (hJ : ∀ v s b s' c c', c.2.Valid c.1 → J c → (f v s).run contents (perform g S) c = .ok ((b, s'), c') → J c')
    (hj : J ((Slice.make c.1 0 c.2.len).1, c.2))
    (hfj : ∀ h h' self, J (h, self) → h.length ≤ h'.length → (∀ a, a < h.length → a ≠ c.1.length → h'[a]? = h[a]?) → J (h', self))
    (h : collectLoop g S accept f c.2 c.2.len 0 t (Slice.make c.1 0 c.2.len).2 ((Slice.make c.1 0 c.2.len).1, c.2) s = .ok (h', nd', s')) :
    ∃ tr, tr.length = c.2.len ∧ Calls (Use.run contents (perform g S)) f tr s s' ∧ nd'.Valid h' ∧ nd'.view h' = kept accept t tr ∧
      ∀ k v b, tr[k]? = some (v, b) → Q k v := by
  obtain ⟨m1, m2, m3, -, m5⟩ := Slice.good_make (α := α) (h := c.1) (s := ⟨c.1.length, 0⟩) 0 c.2.len (by omega)
  have hcap : ((Slice.make c.1 0 c.2.len).2.array (Slice.make c.1 0 c.2.len).1).length = c.2.len := congrArg Vec.cap m2
  have hview : (Slice.make c.1 0 c.2.len).2.view (Slice.make c.1 0 c.2.len).1 = [] := congrArg Vec.data m2
  obtain ⟨tr, k1, k2, k3, k4, k5⟩ := collect_run g S accept f c.2 J Q hQ hJ c.2.len 0 t _ ((Slice.make c.1 0 c.2.len).1, c.2) s h' nd' s'
    (make_frame hv _).2 m1
    (by have := hv.1; show c.1.length ≠ c.2.arr; omega) (by rw [hcap]; show 0 + _ ≤ _; omega) hj hfj h
  exact ⟨tr, k1, k2, k3, by rw [k4, hview]; rfl, fun k v b hk => by have := k5 k v b hk; rwa [Nat.zero_add] at this⟩

/-! ### Functions that push, clear or take out nothing but the end -/

/-- The methods that do not write to the elements there are: Push, Clear, Retain. -/
def Adds : MOp α → Prop
  | .push _ | .clear | .retain _ => True
  | _ => False

/-- The elements of the slice `range` are l, and the variable does not hold a shorter slice of the same array. -/
def Keeps (range : Slice) (l : List α) (c : VecVar α) : Prop :=
  range.Valid c.1 ∧ range.view c.1 = l ∧ (c.2.arr = range.arr → range.len ≤ c.2.len)

theorem keeps_frame {range : Slice} {l : List α} {h h' : SHeap α} {self : Slice} (hk : Keeps range l (h, self))
    (hl : h.length ≤ h'.length) (hf : h'[range.arr]? = h[range.arr]?) : Keeps range l (h', self) := by
  obtain ⟨t1, t2⟩ := toVec_frame (t := range) hf
  obtain ⟨⟨k0, k1⟩, k2, k3⟩ := hk
  exact ⟨⟨Nat.lt_of_lt_of_le k0 hl, by rw [t2]; exact k1⟩, (congrArg Vec.data t1).trans k2, k3⟩

theorem adds_step (g : Growth) (S : SortLib) (o : MOp α) (ho : Adds o) (range : Slice) (l : List α) (c : VecVar α)
    (hv : c.2.Valid c.1) (hk : Keeps range l c) :
    ∃ c', perform g S o c = .ok c' ∧ c'.2.Valid c'.1 ∧ Keeps range l c' := by
  have hg := MOp.heap_good g S o hv
  unfold perform
  have fresh : ∀ (c' : VecVar α) v, Slice.Good c.1 ⟨c.1.length, 0⟩ c'.1 c'.2 v → Keeps range l c' := by
    rintro c' v ⟨g1, g2, g3, g4, g5⟩
    obtain ⟨⟨k0, k1⟩, k2, k3⟩ := hk
    have hf := g5 range.arr k0 (by show range.arr ≠ c.1.length; omega)
    obtain ⟨t1, t2⟩ := toVec_frame (t := range) hf
    refine ⟨⟨Nat.lt_of_lt_of_le k0 g3, by rw [t2]; exact k1⟩, (congrArg Vec.data t1).trans k2, fun e => ?_⟩
    rcases g4 with g4 | g4
    · have : c'.2.arr = c.1.length := g4
      omega
    · omega
  cases o with
  | push v =>
    refine ⟨c.2.goAppend g c.1 [v], rfl, (Slice.good_append g hv [v]).1, ?_⟩
    obtain ⟨g1, g2, g3, g4, g5⟩ := Slice.good_append g hv [v]
    by_cases hroom : c.2.len + 1 ≤ (c.2.array c.1).length
    · have e : c.2.goAppend g c.1 [v] =
          (c.1.set c.2.arr ((c.2.array c.1).take c.2.len ++ [v] ++ (c.2.array c.1).drop (c.2.len + 1)), ⟨c.2.arr, c.2.len + 1⟩) := by
        unfold Slice.goAppend
        simp only [List.length_cons, List.length_nil]
        rw [if_pos (by omega)]
      by_cases ha : c.2.arr = range.arr
      · obtain ⟨⟨k0, k1⟩, k2, k3⟩ := hk
        have k3 := k3 ha
        rw [e]
        have harr : range.array (c.1.set c.2.arr ((c.2.array c.1).take c.2.len ++ [v] ++ (c.2.array c.1).drop (c.2.len + 1))) =
            (c.2.array c.1).take c.2.len ++ [v] ++ (c.2.array c.1).drop (c.2.len + 1) := by
          unfold Slice.array
          rw [← ha, List.getElem?_set_self hv.1]
          rfl
        have hsame : range.array c.1 = c.2.array c.1 := by unfold Slice.array; rw [ha]
        have hcl := hv.2
        refine ⟨⟨by simpa using k0, ?_⟩, ?_, fun _ => by show _ ≤ c.2.len + 1; omega⟩
        · show range.len ≤ (range.array _).length
          rw [harr]
          simp
          omega
        · show (range.array _).take range.len = l
          rw [harr, List.append_assoc, List.take_append_of_le_length (by simp; omega), List.take_take, Nat.min_eq_left k3, ← k2]
          unfold Slice.view
          rw [hsame]
      · refine keeps_frame (h := c.1) (self := (c.2.goAppend g c.1 [v]).2) ?_ g3 (g5 _ hk.1.1 (fun h => ha h.symm))
        refine ⟨hk.1, hk.2.1, fun h => ?_⟩
        rw [e] at h
        exact absurd h ha
    · have e : (c.2.goAppend g c.1 [v]).2 = ⟨c.1.length, c.2.len + 1⟩ := by
        unfold Slice.goAppend
        simp only [List.length_cons, List.length_nil]
        rw [if_neg (by omega)]
      have e1 : ∃ d, (c.2.goAppend g c.1 [v]).1 = c.1 ++ [d] := by
        unfold Slice.goAppend
        simp only [List.length_cons, List.length_nil]
        rw [if_neg (by omega)]
        exact ⟨_, rfl⟩
      obtain ⟨d, e1⟩ := e1
      refine keeps_frame (h := c.1) (self := (c.2.goAppend g c.1 [v]).2) ⟨hk.1, hk.2.1, fun h => ?_⟩ g3 ?_
      · rw [e] at h
        have := hk.1.1
        have : c.1.length = range.arr := h
        omega
      · show (c.2.goAppend g c.1 [v]).1[range.arr]? = _
        rw [e1, List.getElem?_append_left hk.1.1]
  | clear =>
    have := Slice.good_make (α := α) (h := c.1) (s := ⟨c.1.length, 0⟩) 0 0 (by omega)
    exact ⟨_, rfl, this.1, fresh _ _ this⟩
  | retain p =>
    have h0 := Slice.good_make (α := α) (h := c.1) (s := ⟨c.1.length, 0⟩) 0 c.2.len (by omega)
    have := Slice.retain_fold g p (c.2.view c.1) _ _ _ h0 (by
      show (List.replicate 0 default).length + _ ≤ c.2.len
      rw [Slice.view_length hv]; simp)
    exact ⟨_, rfl, this.1, fresh _ _ this⟩
  | pop | insert _ _ | setUnchecked _ _ | swap _ _ | reverse | fill _ | dedup _ | sortBy _ => exact ho.elim

theorem adds_run (g : Growth) (S : SortLib) (range : Slice) (l : List α) (u : Use (MOp α) α β) (hu : Only Adds u) :
    ∀ c : VecVar α, c.2.Valid c.1 → Keeps range l c →
      ∃ b c', u.run contents (perform g S) c = .ok (b, c') ∧ c'.2.Valid c'.1 ∧ Keeps range l c' := by
  induction u with
  | done b => exact fun c hv hk => ⟨b, c, rfl, hv, hk⟩
  | look k ih => exact fun c hv hk => ih _ (hu _) c hv hk
  | op o k ih =>
    intro c hv hk
    obtain ⟨c1, e1, h1, h2⟩ := adds_step g S o hu.1 range l c hv hk
    obtain ⟨b, c2, e2, h3⟩ := ih hu.2 c1 h1 h2
    refine ⟨b, c2, ?_, h3⟩
    simp only [Use.run, e1]
    exact e2

theorem collect_ok (g : Growth) (S : SortLib) (accept : β → τ → Bool × τ) (f : α → σ → Use (MOp α) α (β × σ)) (range : Slice)
    (l : List α) (hf : ∀ v s, Only Adds (f v s)) (n : Nat) : ∀ (i : Nat) (t : τ) (nd : Slice) (c : VecVar α) (s : σ), c.2.Valid c.1 →
    nd.Valid c.1 → nd.arr ≠ c.2.arr → nd.arr ≠ range.arr → Keeps range l c → i + n ≤ range.len →
    ∃ r, collectLoop g S accept f range n i t nd c s = .ok r := by
  induction n with
  | zero => exact fun i t nd c s _ _ _ _ _ _ => ⟨_, rfl⟩
  | succ n ih =>
    intro i t nd c s hv hn hne hnr hk hi
    unfold collectLoop
    have hl := Slice.view_length hk.1
    obtain ⟨value, ei⟩ : ∃ v, index (range.view c.1) i = .ok v := by
      refine ⟨(range.view c.1)[i], ?_⟩
      unfold index
      rw [List.getElem?_eq_getElem (by omega)]
    obtain ⟨⟨b, s1⟩, c1, er, hv1, hk1⟩ := adds_run g S range l _ (hf value s) c hv hk
    obtain ⟨v, g1, -, g3, g4, g5⟩ := run_good g S _ c c1 _ hv er
    obtain ⟨t1, t2⟩ := toVec_frame (t := nd) (g5 nd.arr hn.1 hne)
    have hn1 : nd.Valid c1.1 := ⟨Nat.lt_of_lt_of_le hn.1 g3, by rw [t2]; exact hn.2⟩
    have hne1 : nd.arr ≠ c1.2.arr := by
      have := hn.1
      rcases g4 with e | e
      · rw [e]; exact hne
      · omega
    simp only [ei, er, bind, Except.bind]
    by_cases ha : (accept b t).1 = true
    · rw [if_pos ha]
      obtain ⟨p1, p2, p3, p4, p5⟩ := Slice.good_append g hn1 [value]
      obtain ⟨u1, u2⟩ := toVec_frame (t := c1.2) (p5 c1.2.arr hv1.1 (Ne.symm hne1))
      refine ih (i + 1) _ _ ((nd.goAppend g c1.1 [value]).1, c1.2) s1
        ⟨Nat.lt_of_lt_of_le hv1.1 p3, by show _ ≤ (c1.2.array _).length; rw [u2]; exact hv1.2⟩ p1 ?_ ?_
        (keeps_frame (h := c1.1) (self := c1.2) hk1 p3 (p5 _ hk1.1.1 (Ne.symm hnr))) (by omega)
      · rcases p4 with e | e
        · rw [e]; exact hne1
        · have := hv1.1
          show _ ≠ c1.2.arr
          omega
      · rcases p4 with e | e
        · rw [e]; exact hnr
        · have := hk1.1.1
          omega
    · rw [if_neg ha]
      exact ih (i + 1) _ nd c1 s1 hv1 hn1 hne1 hnr hk1 (by omega)

theorem keeps_start {c : VecVar α} (hv : c.2.Valid c.1) : Keeps c.2 (contents c) ((Slice.make c.1 0 c.2.len).1, c.2) := by
  obtain ⟨k1, k2⟩ := make_frame hv c.2.len
  exact ⟨k2, by show (c.2.array _).take _ = (c.2.array c.1).take _; rw [k1 c.2 hv.1], fun _ => Nat.le_refl _⟩

omit [Inhabited α] in
theorem kept_retain (tr : List (α × Bool)) : kept (fun b (_ : Unit) => (b, ())) () tr = (tr.filter (·.2)).map (·.1) := by
  induction tr with
  | nil => rfl
  | cons x tr ih =>
    obtain ⟨v, b⟩ := x
    cases b <;> simp [kept, ih]

omit [Inhabited α] in
theorem kept_dedup {κ : Type} (keq : κ → κ → Bool) (tr : List (α × κ)) : ∀ seen,
    kept (fun k (seen : List κ) => (!seen.any (keq k), if seen.any (keq k) then seen else k :: seen)) seen tr =
      firstWithKey keq seen tr := by
  induction tr with
  | nil => exact fun _ => rfl
  | cons x tr ih =>
    intro seen
    obtain ⟨v, k⟩ := x
    unfold kept firstWithKey
    cases hs : seen.any (keq k) <;>
      simp only [Bool.not_false, Bool.not_true, Bool.false_eq_true, if_true, if_false, ih]

/-- The result of the loops for every function of the user, and for those that only add. -/
theorem collect_all (g : Growth) (S : SortLib) (accept : β → τ → Bool × τ) (f : α → σ → Use (MOp α) α (β × σ)) (t : τ)
    (c : VecVar α) (hv : c.2.Valid c.1) (s : σ) :
    (∀ h' nd' s', collectLoop g S accept f c.2 c.2.len 0 t (Slice.make c.1 0 c.2.len).2 ((Slice.make c.1 0 c.2.len).1, c.2) s = .ok (h', nd', s') →
      ∃ tr, tr.length = c.2.len ∧ Calls (Use.run contents (perform g S)) f tr s s' ∧ nd'.Valid h' ∧ nd'.view h' = kept accept t tr) ∧
    ((∀ v s, Only Adds (f v s)) → ∃ h' nd' s' tr,
      collectLoop g S accept f c.2 c.2.len 0 t (Slice.make c.1 0 c.2.len).2 ((Slice.make c.1 0 c.2.len).1, c.2) s = .ok (h', nd', s') ∧
      Calls (Use.run contents (perform g S)) f tr s s' ∧ nd'.Valid h' ∧ nd'.view h' = kept accept t tr ∧ tr.map (·.1) = contents c) := by
  constructor
  · intro h' nd' s' h
    obtain ⟨tr, k1, k2, k3, k4, -⟩ := collect_start hv g S accept f t s h' nd' s' (fun _ => True) (fun _ _ => True)
      (fun _ _ _ _ _ => trivial) (fun _ _ _ _ _ _ _ _ _ => trivial) trivial (fun _ _ _ _ _ _ => trivial) h
    exact ⟨tr, k1, k2, k3, k4⟩
  · intro hf
    obtain ⟨m1, m2, m3, -, m5⟩ := Slice.good_make (α := α) (h := c.1) (s := ⟨c.1.length, 0⟩) 0 c.2.len (by omega)
    have hlt := hv.1
    obtain ⟨⟨h', nd', s'⟩, e⟩ := collect_ok g S accept f c.2 (contents c) hf c.2.len 0 t (Slice.make c.1 0 c.2.len).2
      ((Slice.make c.1 0 c.2.len).1, c.2) s (make_frame hv _).2 m1 (by show c.1.length ≠ c.2.arr; omega)
      (by show c.1.length ≠ c.2.arr; omega) (keeps_start hv) (by omega)
    obtain ⟨tr, k1, k2, k3, k4, k5⟩ := collect_start hv g S accept f t s h' nd' s' (Keeps c.2 (contents c))
      (fun i v => (contents c)[i]? = some v)
      (fun c' i v hk hi => by
        rw [hk.2.1] at hi
        unfold index at hi
        cases hx : (contents c)[i]? with
        | none => rw [hx] at hi; cases hi
        | some x => rw [hx] at hi; cases hi; rfl)
      (fun v s b s' c1 c2 hv1 hk hr => by
        obtain ⟨b', c3, e1, -, e2⟩ := adds_run g S c.2 (contents c) _ (hf v s) c1 hv1 hk
        rw [hr] at e1
        cases e1
        exact e2)
      (keeps_start hv)
      (fun h h' self hk hl hfr => keeps_frame hk hl (hfr _ hk.1.1 (by omega))) e
    refine ⟨h', nd', s', tr, e, k2, k3, k4, ?_⟩
    apply List.ext_getElem?
    intro i
    by_cases hi : i < tr.length
    · rw [List.getElem?_map, List.getElem?_eq_getElem hi]
      obtain ⟨⟨v, b⟩, hvb⟩ : ∃ x, tr[i] = x := ⟨_, rfl⟩
      rw [k5 i v b (by rw [List.getElem?_eq_getElem hi, hvb]), hvb]
      rfl
    · have hl := Slice.view_length hv
      rw [List.getElem?_eq_none (by simpa using Nat.le_of_not_lt hi),
        List.getElem?_eq_none (by show (c.2.view c.1).length ≤ i; omega)]
end Reenter

open Reenter
variable [Inhabited α]

/-- C152, Vec.Retain and DedupByKey, whatever the function of the user does with the vector (with any of its methods): if the
call returns, the function was called Len times, with the Len the vector had at the beginning, one call after another, and
the vector holds the values it accepted (for which its keys were new), in order.  Nothing the function did to the vector is
left. -/
theorem C152_vec_partial {κ : Type} (g : Growth) (S : SortLib) (c c' : VecVar α) (hv : c.2.Valid c.1) (s s' : σ) :
    (∀ p, Reenter.retain g S p c s = .ok (c', s') →
      ∃ tr, tr.length = (contents c).length ∧ Calls (Use.run contents (perform g S)) p tr s s' ∧
        contents c' = (tr.filter (·.2)).map (·.1)) ∧
    (∀ (keq : κ → κ → Bool) key, Reenter.dedupByKey g S keq key c s = .ok (c', s') →
      ∃ tr, tr.length = (contents c).length ∧ Calls (Use.run contents (perform g S)) key tr s s' ∧
        contents c' = firstWithKey keq [] tr) := by
  have hl : (contents c).length = c.2.len := Slice.view_length hv
  constructor
  · intro p h
    unfold Reenter.retain at h
    simp only [bind, Except.bind] at h
    split at h
    · cases h
    · rename_i r e
      obtain ⟨h', nd', s''⟩ := r
      cases h
      obtain ⟨tr, k1, k2, k3, k4⟩ := (collect_all g S _ p () c hv s).1 h' nd' s'' e
      exact ⟨tr, by omega, k2, by rw [← kept_retain]; exact k4⟩
  · intro keq key h
    unfold Reenter.dedupByKey at h
    simp only [bind, Except.bind] at h
    split at h
    · cases h
    · rename_i r e
      obtain ⟨h', nd', s''⟩ := r
      cases h
      obtain ⟨tr, k1, k2, k3, k4⟩ := (collect_all g S _ key [] c hv s).1 h' nd' s'' e
      exact ⟨tr, by omega, k2, by rw [← kept_dedup]; exact k4⟩

/-- C152: when the function calls nothing but Push, Clear and Retain on the vector (and looks at it), Retain and DedupByKey
return, and the values the function is called with are the elements the vector had at the beginning. -/
theorem C152_vec_adding {κ : Type} (g : Growth) (S : SortLib) (c : VecVar α) (hv : c.2.Valid c.1) (s : σ) :
    (∀ p, (∀ v s, Only Adds (p v s)) → ∃ c' s' tr, Reenter.retain g S p c s = .ok (c', s') ∧
      tr.map (·.1) = contents c ∧ Calls (Use.run contents (perform g S)) p tr s s' ∧ contents c' = (tr.filter (·.2)).map (·.1)) ∧
    (∀ (keq : κ → κ → Bool) key, (∀ v s, Only Adds (key v s)) → ∃ c' s' tr, Reenter.dedupByKey g S keq key c s = .ok (c', s') ∧
      tr.map (·.1) = contents c ∧ Calls (Use.run contents (perform g S)) key tr s s' ∧ contents c' = firstWithKey keq [] tr) := by
  constructor
  · intro p hp
    obtain ⟨h', nd', s', tr, e, k2, k3, k4, k5⟩ := (collect_all g S _ p () c hv s).2 hp
    refine ⟨(h', nd'), s', tr, ?_, k5, k2, by rw [← kept_retain]; exact k4⟩
    unfold Reenter.retain
    simp only [bind, Except.bind, e]
  · intro keq key hp
    obtain ⟨h', nd', s', tr, e, k2, k3, k4, k5⟩ := (collect_all g S _ key [] c hv s).2 hp
    refine ⟨(h', nd'), s', tr, ?_, k5, k2, by rw [← kept_dedup]; exact k4⟩
    unfold Reenter.dedupByKey
    simp only [bind, Except.bind, e]

/-- A function that pushes onto the vector, then clears it when the vector holds more than three elements, and accepts. -/
example : ∀ (v : Nat) (s : Unit), Only Adds (.op (.push (v + 10)) (.look fun l => if l.length > 3 then .op .clear (.done (true, s)) else .done (true, s)) :
    Use (MOp Nat) Nat (Bool × Unit)) := by
  intro v s
  refine ⟨trivial, fun l => ?_⟩
  dsimp only
  split
  · exact ⟨trivial, trivial⟩
  · trivial

/-- C152 fails: what the function pushes is lost, for every vector and every predicate of this kind. -/
theorem C152_vec_lost_fails (g : Growth) (S : SortLib) (c : VecVar α) (hv : c.2.Valid c.1) (x : α) (s : σ) :
    ∃ c', Reenter.retain g S (fun _ s => .op (.push x) (.done (true, s))) c s = .ok (c', s) ∧ contents c' = contents c := by
  obtain ⟨c', s', tr, h1, h2, h3, h4⟩ := (C152_vec_adding (κ := Unit) g S c hv s).1 (fun _ s => .op (.push x) (.done (true, s)))
    (fun _ _ => ⟨trivial, trivial⟩)
  have k : ∀ (tr : List (α × Bool)) (s s' : σ), Calls (Use.run contents (perform g S))
      (fun _ s => (.op (.push x) (.done (true, s)) : Use (MOp α) α (Bool × σ))) tr s s' → s' = s ∧ ∀ p ∈ tr, p.2 = true := by
    intro tr s s' h
    induction h with
    | nil s => exact ⟨rfl, by simp⟩
    | cons h t ih =>
      simp only [Use.run, perform, MOp.heap, bind, Except.bind] at h
      cases h
      refine ⟨ih.1, ?_⟩
      intro p hp
      rcases List.mem_cons.1 hp with rfl | hp
      · rfl
      · exact ih.2 p hp
  obtain ⟨e, ht⟩ := k tr s s' h3
  subst e
  refine ⟨c', h1, ?_⟩
  rw [h4, List.filter_eq_self.2 ht, h2]

/-- C152 fails: with Pop and Push the function writes to elements it has not been called with yet: Retain of [1,2,3] by a
predicate that accepts everything and once replaces the last element gives [1,2,9]. -/
theorem C152_vec_overwrites_fails (g : Growth) (S : SortLib) :
    ((Reenter.retain g S (fun _ (b : Bool) => if b then .op .pop (.op (.push 9) (.done (true, false))) else .done (true, b))
      ([[1, 2, 3]], ⟨0, 3⟩) true).map fun r => contents r.1) = .ok [1, 2, 9] := rfl

namespace Reenter
theorem retain_reads (g : Growth) (S : SortLib) (p : α → σ → Use (MOp α) α (Bool × σ)) (hp : ∀ v s, Only (fun _ => False) (p v s))
    (range : Slice) (l : List α) (rest : List α) : ∀ (pre acc : List α) (nd : Slice) (h : SHeap α) (s : σ), l = pre ++ rest →
    range.Valid h → range.view h = l → nd.Valid h → nd.arr ≠ range.arr → nd.view h = acc → nd.len + rest.length ≤ (nd.array h).length →
    ∃ h' nd' k s', reads p (fun _ => l) rest acc s = some (k, s') ∧
      collectLoop g S (fun b (_ : Unit) => (b, ())) p range rest.length pre.length () nd (h, range) s = .ok (h', nd', s') ∧
      nd'.view h' = k := by
  induction rest with
  | nil => exact fun pre acc nd h s _ _ _ _ _ ha _ => ⟨h, nd, acc, s, rfl, rfl, ha⟩
  | cons v rest ih =>
    intro pre acc nd h s hl hr hvw hn hne ha hcap
    have ei : index (range.view h) pre.length = .ok v := by
      unfold index
      rw [hvw, hl, List.getElem?_append_right (Nat.le_refl _)]
      simp
    obtain ⟨⟨b, s1⟩, r1, r2⟩ := Use.run_read contents (perform g S) (p v s) (hp v s) (h, range)
    have r1 : read l (p v s) = some (b, s1) := by rw [← hvw]; exact r1
    simp only [List.length_cons, reads, r1]
    unfold collectLoop
    simp only [ei, r2, bind, Except.bind]
    have hl' : l = (pre ++ [v]) ++ rest := by rw [hl]; simp
    have hpl : pre.length + 1 = (pre ++ [v]).length := by simp
    simp only [List.length_cons] at hcap
    cases b with
    | false =>
      rw [hpl]
      exact ih (pre ++ [v]) acc nd h s1 hl' hr hvw hn hne ha (by omega)
    | true =>
      obtain ⟨p1, p2, p3, p4, p5⟩ := Slice.good_append g hn [v]
      have hlen := Slice.view_length hn
      have q3 : (nd.goAppend g h [v]).2 = ⟨nd.arr, nd.len + 1⟩ := by
        unfold Slice.goAppend
        simp only [List.length_cons, List.length_nil]
        rw [if_pos (by omega)]
      have hcapv : ((nd.toVec h).goAppend g [v]) = ⟨nd.view h ++ [v], (nd.array h).length⟩ := by
        unfold Vec.goAppend Slice.toVec
        simp only [List.length_cons, List.length_nil, hlen]
        rw [if_pos (by omega)]
      rw [hcapv] at p2
      have q1 := congrArg Vec.data p2
      have q2 := congrArg Vec.cap p2
      obtain ⟨t1, t2⟩ := toVec_frame (t := range) (p5 range.arr hr.1 (Ne.symm hne))
      rw [hpl]
      refine ih (pre ++ [v]) (acc ++ [v]) _ _ s1 hl' ⟨Nat.lt_of_lt_of_le hr.1 p3, by rw [t2]; exact hr.2⟩
        ((congrArg Vec.data t1).trans hvw) p1 (by rw [q3]; exact hne) (by rw [← ha]; exact q1) ?_
      have q2 : ((nd.goAppend g h [v]).2.array (nd.goAppend g h [v]).1).length = (nd.array h).length := q2
      rw [q2, q3]
      show nd.len + 1 + rest.length ≤ _
      omega
end Reenter

/-- C152, Vec.Retain with a predicate that only looks at the vector: at every call it sees the elements the vector had at the
beginning, and the accepted elements are left. -/
theorem C152_vec_reads (g : Growth) (S : SortLib) (c : VecVar α) (hv : c.2.Valid c.1) (s : σ) (p : α → σ → Use (MOp α) α (Bool × σ))
    (hp : ∀ v s, Only (fun _ => False) (p v s)) :
    ∃ c' s', Reenter.retain g S p c s = .ok (c', s') ∧ reads p (fun _ => contents c) (contents c) [] s = some (contents c', s') := by
  obtain ⟨m1, m2, m3, -, m5⟩ := Slice.good_make (α := α) (h := c.1) (s := ⟨c.1.length, 0⟩) 0 c.2.len (by omega)
  have hl : (contents c).length = c.2.len := Slice.view_length hv
  have hk := keeps_start hv
  have hcap : ((Slice.make c.1 0 c.2.len).2.array (Slice.make c.1 0 c.2.len).1).length = c.2.len := congrArg Vec.cap m2
  obtain ⟨h', nd', k, s', e1, e2, e3⟩ := retain_reads g S p hp c.2 (contents c) (contents c) [] [] _ _ s rfl hk.1 hk.2.1 m1
    (by have := hv.1; show c.1.length ≠ c.2.arr; omega) (congrArg Vec.data m2) (by rw [hcap, hl]; show 0 + _ ≤ _; omega)
  rw [hl] at e2
  refine ⟨(h', nd'), s', ?_, ?_⟩
  · unfold Reenter.retain
    simp only [bind, Except.bind]
    have e2' : collectLoop g S (fun b (_ : Unit) => (b, ())) p c.2 c.2.len 0 () (Slice.make c.1 0 c.2.len).2
      ((Slice.make c.1 0 c.2.len).1, c.2) s = .ok (h', nd', s') := e2
    rw [e2']
  · rw [e1]
    show some (k, s') = some (nd'.view h', s')
    rw [e3]

/-! ### Sorting -/

namespace Reenter
theorem sort_reads {n : Nat} (g : Growth) (S : SortLib) (cmp : α → α → σ → Use (MOp α) α (Ordering × σ))
    (hc : ∀ a b s, Only (fun _ => False) (cmp a b s)) (range : Slice) (st : SortSteps n) : ∀ (h : SHeap α) (s : σ),
    range.Valid h → range.len = n →
    ∃ h' s', sortSteps g S cmp range st (h, range) s = .ok ((h', range), s') ∧ range.Valid h' ∧
      (range.view h').Perm (range.view h) ∧
      (∀ I : σ → Prop, (∀ a b s o s1, ∀ l : List α, l.Perm (range.view h) → a ∈ l → b ∈ l → I s → read l (cmp a b s) = some (o, s1) → I s1) →
        I s → I s') ∧
      (∀ lt : α → α → Bool, (∀ a b s o s1, ∀ l : List α, l.Perm (range.view h) → read l (cmp a b s) = some (o, s1) → (o == .lt) = lt a b) →
        range.view h' = st.list lt (range.view h)) := by
  induction st with
  | done => exact fun h s hv _ => ⟨h, s, rfl, hv, List.Perm.refl _, fun _ _ h => h, fun _ _ => rfl⟩
  | less i j k ih =>
    intro h s hv hn
    have hl := Slice.view_length hv
    have hi : i.val < (range.view h).length := by omega
    have hj : j.val < (range.view h).length := by omega
    obtain ⟨⟨o, s1⟩, r1, r2⟩ := Use.run_read contents (perform g S) (cmp (range.view h)[i.val] (range.view h)[j.val] s) (hc _ _ _) (h, range)
    have r1 : read (range.view h) (cmp (range.view h)[i.val] (range.view h)[j.val] s) = some (o, s1) := r1
    obtain ⟨h', s', e1, e2, e3, e4, e5⟩ := ih (o == .lt) h s1 hv hn
    refine ⟨h', s', ?_, e2, e3, ?_, ?_⟩
    · unfold sortSteps
      simp only [index_lt hi, index_lt hj, r2, bind, Except.bind]
      exact e1
    · intro I hI h0
      exact e4 I hI (hI _ _ s o s1 _ (List.Perm.refl _) (List.getElem_mem hi) (List.getElem_mem hj) h0 r1)
    · intro lt hlt
      rw [e5 lt hlt]
      conv => rhs; unfold SortSteps.list
      rw [List.getElem?_eq_getElem hi, List.getElem?_eq_getElem hj]
      simp only
      rw [hlt _ _ s o s1 _ (List.Perm.refl _) r1]
  | swap i j k ih =>
    intro h s hv hn
    have hl := Slice.view_length hv
    have hi : i.val < (range.view h).length := by omega
    have hj : j.val < (range.view h).length := by omega
    obtain ⟨g1, g2, g3, g4, g5⟩ := Slice.good_writeBack hv (((range.view h).set i (range.view h)[j.val]).set j (range.view h)[i.val])
      (by simpa using hl) range.len (Nat.le_refl _)
    have hw : range.view (range.writeBack h (((range.view h).set i (range.view h)[j.val]).set j (range.view h)[i.val])) =
        ((range.view h).set i (range.view h)[j.val]).set j (range.view h)[i.val] := by
      have := congrArg Vec.data g2
      refine this.trans ?_
      exact List.take_of_length_le (by simp; omega)
    have p : (((range.view h).set i (range.view h)[j.val]).set j (range.view h)[i.val]).Perm (range.view h) := List.set_set_perm hi hj
    obtain ⟨h', s', e1, e2, e3, e4, e5⟩ := ih _ s g1 hn
    rw [hw] at e3 e4 e5
    refine ⟨h', s', ?_, e2, e3.trans p, ?_, ?_⟩
    · unfold sortSteps
      simp only [Vec.swapData_ok _ hi hj, bind, Except.bind]
      exact e1
    · intro I hI h0
      exact e4 I (fun a b s o s1 l hl => hI a b s o s1 l (hl.trans p)) h0
    · intro lt hlt
      rw [e5 lt (fun a b s o s1 l hl => hlt a b s o s1 l (hl.trans p))]
      conv => rhs; unfold SortSteps.list
      rw [List.getElem?_eq_getElem hi, List.getElem?_eq_getElem hj]
end Reenter

/-- C152, SortBy and SortUnstableBy with a comparison that only looks at the vector: the call returns; at every call the
comparison sees a permutation of the elements (so whatever it does with what it sees keeps every invariant that holds for
all permutations); the result is a permutation, and if the answers are those of a pure function it is what package sort
gives for this function, hence sorted if the function is a strict weak order. -/
theorem C152_sort_reads (g : Growth) (S : SortLib) (T : SortTrees) (cmp : α → α → σ → Use (MOp α) α (Ordering × σ))
    (hc : ∀ a b s, Only (fun _ => False) (cmp a b s)) (c : VecVar α) (hv : c.2.Valid c.1) (s : σ) :
    ∀ lib, (lib = T.stable ∨ lib = T.unstable) → ∃ c' s', Reenter.sortBy g S lib cmp c s = .ok (c', s') ∧ (contents c').Perm (contents c) ∧
      (∀ I : σ → Prop, (∀ a b s o s1, ∀ l : List α, l.Perm (contents c) → a ∈ l → b ∈ l → I s → read l (cmp a b s) = some (o, s1) → I s1) →
        I s → I s') ∧
      (∀ lt : α → α → Bool, StrictWeak lt →
        (∀ a b s o s1, ∀ l : List α, l.Perm (contents c) → read l (cmp a b s) = some (o, s1) → (o == .lt) = lt a b) →
        (contents c').Pairwise fun a b => lt b a = false) := by
  intro lib hlib
  obtain ⟨h', s', e1, e2, e3, e4, e5⟩ := sort_reads g S cmp hc c.2 (lib c.2.len) c.1 s hv rfl
  refine ⟨(h', c.2), s', e1, e3, e4, fun lt hw hlt => ?_⟩
  have e6 := e5 lt hlt
  have hl : (c.2.view c.1).length = c.2.len := Slice.view_length hv
  show (c.2.view h').Pairwise _
  rw [e6]
  rcases hlib with rfl | rfl
  · have := T.stable_sorted lt (c.2.view c.1) hw
    rwa [hl] at this
  · have := T.unstable_sorted lt (c.2.view c.1) hw
    rwa [hl] at this

/-- C152 fails for SortBy: a comparison that pushes onto a vector without spare capacity moves the vector to a new array; what
is sorted from then on is the old one.  Here package sort (insertion sort, as it does for short slices) sorts [2,1] and the
vector is [2,1,9] afterwards.  And if the comparison clears the vector, the next call of `less` panics. -/
theorem C152_sort_fails (g : Growth) (S : SortLib) :
    ((Reenter.sortBy g S SortSteps.insertion
      (fun a b (_ : Unit) => .op (.push 9) (.done (if a < b then .lt else if a = b then .eq else .gt, ())))
      ([[2, 1]], ⟨0, 2⟩) ()).map fun r => contents r.1) = .ok [2, 1, 9] ∧
    (Reenter.sortBy g S SortSteps.insertion
      (fun a b (_ : Unit) => .op .clear (.done (if a < b then .lt else if a = b then .eq else .gt, ())))
      ([[3, 2, 1]], ⟨0, 3⟩) ()) = .error .indexOutOfRange := ⟨rfl, rfl⟩

/-! ### VecDeque -/

namespace Reenter
/-- A method called by the function of the user on the deque. -/
def dqPerform (o : DequeOp α) (d : VecDeque α) : Go (VecDeque α) := (VecDeque.step o d).map (·.1)

theorem dq_reads (p : α → σ → Use (DequeOp α) α (Bool × σ)) (hp : ∀ v s, Only (fun _ => False) (p v s)) (l : List α) (rest : List α) :
    ∀ (fuel : Nat) (pre acc : List α) (d : VecDeque α) (s : σ), rest.length < fuel → l = pre ++ rest → d.Inv → acc.length ≤ pre.length →
    d.toList = acc ++ l.drop acc.length →
    ∃ d' k s', reads p (fun acc => acc ++ l.drop acc.length) rest acc s = some (k, s') ∧ d'.Inv ∧
      dqRetainLoop dqPerform VecDeque.toList p fuel pre.length acc.length d s = .ok (some (d', k.length, s')) ∧
      d'.toList = k ++ l.drop k.length ∧ k.length ≤ l.length := by
  induction rest with
  | nil =>
    intro fuel pre acc d s hf hl hi ha hd
    obtain ⟨fuel, rfl⟩ : ∃ m, fuel = m + 1 := ⟨fuel - 1, by simp at hf; omega⟩
    have hlen := VecDeque.toList_length hi
    rw [hd] at hlen
    simp only [List.append_nil] at hl
    subst hl
    simp only [List.length_append, List.length_drop] at hlen
    refine ⟨d, acc, s, rfl, hi, ?_, hd, ha⟩
    unfold dqRetainLoop
    rw [if_neg (by omega)]
  | cons v rest ih =>
    intro fuel pre acc d s hf hl hi ha hd
    obtain ⟨fuel, rfl⟩ : ∃ m, fuel = m + 1 := ⟨fuel - 1, by simp at hf; omega⟩
    have hlen := VecDeque.toList_length hi
    have hll : l.length = pre.length + 1 + rest.length := by rw [hl]; simp; omega
    have hlen' : d.len = l.length := by
      rw [← hlen, hd]
      simp only [List.length_append, List.length_drop]
      omega
    have hv : d.toList[pre.length]? = some v := by
      rw [hd, List.getElem?_append_right ha, List.getElem?_drop, show acc.length + (pre.length - acc.length) = pre.length by omega, hl,
        List.getElem?_append_right (Nat.le_refl _)]
      simp
    obtain ⟨hlt, hv⟩ := List.getElem?_eq_some_iff.1 hv
    obtain ⟨⟨b, s1⟩, r1, r2⟩ := Use.run_read VecDeque.toList dqPerform (p v s) (hp v s) d
    rw [hd] at r1
    have hl' : l = (pre ++ [v]) ++ rest := by rw [hl]; simp
    have hpl : pre.length + 1 = (pre ++ [v]).length := by simp
    unfold dqRetainLoop
    rw [if_pos (by omega)]
    simp only [VecDeque.getUnchecked_eq hi hlt, hv, r2, reads, r1, bind, Except.bind]
    simp only [List.length_cons] at hf
    cases b with
    | false =>
      rw [hpl]
      exact ih fuel (pre ++ [v]) acc d s1 (by omega) hl' hi (by simp; omega) hd
    | true =>
      obtain ⟨p1, p2, p3, p4, p5⟩ := VecDeque.put_eq hi (k := acc.length) (by omega) v
      simp only [p1]
      have hk : acc.length + 1 = (acc ++ [v]).length := by simp
      rw [hpl]
      simp only [if_true]
      rw [hk]
      refine ih fuel (pre ++ [v]) (acc ++ [v]) _ s1 (by omega) hl' p2 (by simp; omega) ?_
      rw [p3, hd, List.set_append_right _ _ (Nat.le_refl _)]
      have : l.drop acc.length = (l[acc.length]'(by omega)) :: l.drop (acc.length + 1) := List.drop_eq_getElem_cons (by omega)
      rw [this, Nat.sub_self, List.set_cons_zero]
      simp
end Reenter

/-- C152, VecDeque.Retain with a predicate that only looks at the deque: the accepted elements are left.  At each call the
predicate sees the elements accepted so far followed by the old elements from that position on; so it sees the old elements
only as long as it has rejected none.  The full property, that it sees the old elements, fails: `C152_deque_sees_fails`. -/
theorem C152_deque_reads_partial (p : α → σ → Use (DequeOp α) α (Bool × σ)) (hp : ∀ v s, Only (fun _ => False) (p v s)) (d : VecDeque α)
    (hi : d.Inv) (s : σ) (fuel : Nat) (hf : d.len < fuel) :
    ∃ d' s', dqRetain dqPerform VecDeque.toList p fuel d s = .ok (some (d', s')) ∧ d'.Inv ∧
      reads p (fun acc => acc ++ d.toList.drop acc.length) d.toList [] s = some (d'.toList, s') := by
  have hlen := VecDeque.toList_length hi
  obtain ⟨d', k, s', e1, e2, e3, e4, e5⟩ := dq_reads p hp d.toList d.toList fuel [] [] d s (by omega) rfl hi (Nat.le_refl _) rfl
  have hl' := VecDeque.toList_length e2
  have hk : k.length ≤ d'.len := by rw [← hl', e4]; simp
  obtain ⟨c1, c2⟩ := VecDeque.cut_eq e2 hk
  refine ⟨{ d' with len := k.length }, s', ?_, c1, ?_⟩
  · unfold dqRetain
    have e3' : dqRetainLoop dqPerform VecDeque.toList p fuel 0 0 d s = .ok (some (d', k.length, s')) := e3
    rw [e3']
    rfl
  · rw [e1, c2, e4]
    simp

/-- C152 fails: a predicate that rejects 1 and accepts other elements as long as the deque holds a 1, called for 1, 2, 3: it
accepts 2 and 3 if it sees these elements (as Vec.Retain shows them), but VecDeque.Retain shows it 2, 2, 3 when it is called
with 3. -/
theorem C152_deque_sees_fails :
    reads (ω := DequeOp Nat) (fun v (_ : Unit) => .look fun l => .done (v != 1 && l.contains 1, ())) (fun _ => [1, 2, 3]) [1, 2, 3] [] () =
      some ([2, 3], ()) ∧
    ((dqRetain dqPerform VecDeque.toList (fun v (_ : Unit) => .look fun l => .done (v != 1 && l.contains 1, ())) 9
      (⟨[1, 2, 3], 3, 0⟩ : VecDeque Nat) ()).map fun r => r.map fun r => r.1.toList) = .ok (some [2]) := ⟨rfl, rfl⟩

/-- C152 fails: the predicate accepts everything and, when it is called with 1, removes the element at the front; the result
for 1, 2, 3, 4 is 1, 3, 4: 1 is back, and 2 is lost although the predicate was never called with it. -/
theorem C152_deque_pop_fails :
    ((dqRetain dqPerform VecDeque.toList (fun v (_ : Unit) => if v = 1 then .op .popFront (.done (true, ())) else .done (true, ())) 9
      (⟨[1, 2, 3, 4], 4, 0⟩ : VecDeque Nat) ()).map fun r => r.map fun r => r.1.toList) = .ok (some [1, 3, 4]) := rfl

namespace Reenter
theorem pushBack_ok {d d' : VecDeque α} (hi : d.Inv) {v : α} (h : d.pushBack v = .ok d') : d'.Inv ∧ d'.len = d.len + 1 := by
  by_cases hs : d.len < d.buffer.length ∨ 2 * d.len < 2 ^ 63
  · obtain ⟨e, h1, h2, h3, -⟩ := VecDeque.pushBack_eq hi hs v
    rw [h1] at h
    cases h
    have := VecDeque.toList_length hi
    have := VecDeque.toList_length h2
    rw [h3] at this
    simp at this
    exact ⟨h2, by omega⟩
  · exfalso
    have hle := hi.len_le
    have hsm := hi.small
    have hfull : d.isFull = true := by unfold VecDeque.isFull; simp; omega
    have hu : usize (d.buffer.length * 2) = d.buffer.length * 2 := by unfold usize; omega
    have hm : makeLen (d.buffer.length * 2) = .error .makeLen := by
      unfold makeLen
      rw [if_neg (by omega)]
    unfold VecDeque.pushBack VecDeque.growIfFull VecDeque.grow remake at h
    simp only [hfull, if_true, Bool.not_true, Bool.false_eq_true, if_false, hu, hm, bind, Except.bind] at h
    cases h
end Reenter

/-- C152 fails: VecDeque.Retain with a predicate that pushes an element whenever it is called never returns, unless it panics
because no memory is left. -/
theorem C152_deque_push_fails (d : VecDeque α) (hi : d.Inv) (h0 : 0 < d.len) (x : α) (b : Bool) (s : σ) (fuel : Nat) :
    ∀ r, dqRetain dqPerform VecDeque.toList (fun _ s => .op (.pushBack x) (.done (b, s))) fuel d s = .ok r → r = none := by
  have loop : ∀ (fuel i k : Nat) (d : VecDeque α) (s : σ), d.Inv → i < d.len → k ≤ i →
      ∀ r, dqRetainLoop dqPerform VecDeque.toList (fun _ s => .op (.pushBack x) (.done (b, s))) fuel i k d s = .ok r → r = none := by
    intro fuel
    induction fuel with
    | zero => intro i k d s _ _ _ r h; cases h; rfl
    | succ fuel ih =>
      intro i k d s hi h1 h2 r h
      have hl := VecDeque.toList_length hi
      unfold dqRetainLoop at h
      rw [if_pos h1] at h
      simp only [VecDeque.getUnchecked_eq hi (i := i) (by omega), bind, Except.bind, Use.run, dqPerform, VecDeque.step] at h
      cases hp : d.pushBack x with
      | error e => rw [hp] at h; cases h
      | ok d1 =>
        rw [hp] at h
        obtain ⟨p1, p2⟩ := pushBack_ok hi hp
        simp only [Except.map] at h
        cases b with
        | false => exact ih (i + 1) k d1 s p1 (by omega) (by omega) r h
        | true =>
          obtain ⟨q1, q2, q3, q4, q5⟩ := VecDeque.put_eq p1 (k := k) (by omega) (d.toList[i]'(by omega))
          simp only [if_true, q1] at h
          exact ih (i + 1) (k + 1) _ s q2 (by omega) (by omega) r h
  intro r h
  unfold dqRetain at h
  cases hr : dqRetainLoop dqPerform VecDeque.toList (fun _ s => .op (.pushBack x) (.done (b, s))) fuel 0 0 d s with
  | error e => rw [hr] at h; cases h
  | ok o =>
    have := loop fuel 0 0 d s hi h0 (Nat.le_refl _) o hr
    subst this
    rw [hr] at h
    cases h
    rfl

example : VecDeque.Inv (⟨[1, 2, 3], 3, 0⟩ : VecDeque Nat) := by constructor <;> decide
/-- The hypotheses of the theorems about Vec are met: a vector of two elements in an array with room for four. -/
example : Slice.Valid [[1, 2, 0, 0]] ⟨0, 2⟩ := by constructor <;> decide
end Gost
