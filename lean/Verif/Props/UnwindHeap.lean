import Verif.Model.Unwind
import Verif.Props.BinaryHeap
/-
Property C132: a BinaryHeap whose Cmp method panics (or answers anything at all).
-/
namespace Gost
open Spec

variable {c σ α β : Type}

namespace Unwind

/-! ### Reasoning about computations that keep the container when they panic -/

/-- From states where the container satisfies P: a result is in Q with its container, a panic is one of E and leaves
the container in X. -/
def Triple (E : Panic → Prop) (P : c → Prop) (x : Eff (c × σ) β) (Q : β → c → Prop) (X : c → Prop) : Prop :=
  ∀ v s, P v → match x (v, s) with
    | (.ok b, s') => Q b s'.1
    | (.error e, s') => E e ∧ X s'.1

variable {E : Panic → Prop} {P : c → Prop} {Q : β → c → Prop} {X : c → Prop}

theorem Triple.pure {b : β} (h : ∀ v, P v → Q b v) : Triple (σ := σ) E P (pure b) Q X := fun v _ hp => h v hp
theorem Triple.bind {γ : Type} {x : Eff (c × σ) γ} {R : γ → c → Prop} {f : γ → Eff (c × σ) β}
    (h1 : Triple E P x R X) (h2 : ∀ b, Triple E (R b) (f b) Q X) : Triple E P (x >>= f) Q X := by
  intro v s hp
  have := h1 v s hp
  rw [Eff.bind_run]
  rcases hx : x (v, s) with ⟨_ | b, s'⟩
  · rw [hx] at this; exact this
  · rw [hx] at this
    exact h2 b s'.1 s'.2 this
theorem Triple.get_bind {f : c → Eff (c × σ) β} (h : ∀ v, P v → Triple E (fun w => w = v) (f v) Q X) :
    Triple E P (get >>= f) Q X := by
  intro v s hp
  exact h v hp v s rfl
theorem Triple.put_bind {w : c} {f : Unit → Eff (c × σ) β} (h : Triple E (fun u => u = w) (f ()) Q X) :
    Triple E P (put w >>= f) Q X := by
  intro v s _
  exact h w s rfl
theorem Triple.put {w : c} {Q : Unit → c → Prop} (h : Q () w) : Triple (σ := σ) E P (put w) Q X := fun _ _ _ => h
theorem Triple.lift_bind {γ : Type} {x : Go γ} {b : γ} {f : γ → Eff (c × σ) β} (hx : x = .ok b)
    (h : Triple E P (f b) Q X) : Triple E P (Eff.lift x >>= f) Q X := by
  subst hx; exact h
theorem Triple.call_bind {γ : Type} {x : Eff σ γ} {f : γ → Eff (c × σ) β} (hx : ∀ s e, (x s).1 = .error e → E e)
    (hX : ∀ v, P v → X v) (h : ∀ b, Triple E P (f b) Q X) : Triple E P (call x >>= f) Q X := by
  intro v s hp
  rw [Eff.bind_run]
  unfold call
  rcases hr : x s with ⟨e | b, s'⟩
  · simp only
    exact ⟨hx s e (by rw [hr]), hX v hp⟩
  · simp only
    exact h b v s' hp
theorem Triple.weaken {P' : c → Prop} {x : Eff (c × σ) β} (h : Triple E P x Q X) (hp : ∀ v, P' v → P v) :
    Triple E P' x Q X := fun v s hv => h v s (hp v hv)
theorem Triple.conseq {Q' : β → c → Prop} {x : Eff (c × σ) β} (h : Triple E P x Q X)
    (hq : ∀ b v, Q b v → Q' b v) : Triple E P x Q' X := by
  intro v s hv
  have := h v s hv
  rcases hx : x (v, s) with ⟨_ | b, s'⟩
  · rw [hx] at this; exact this
  · rw [hx] at this; exact hq _ _ this

end Unwind

namespace Spec
/-- The panics that a comparison can raise. -/
def Raises (cmp : α → α → Eff σ Ordering) (e : Panic) : Prop := ∃ a b s, (cmp a b s).1 = .error e
end Spec

open Unwind

/-! ### No element is lost -/

/-- The vector holds the elements of l. -/
def Holds (l : List α) (v : Vec α) : Prop := v.data.Perm l

theorem Holds.swap {l : List α} {v v' : Vec α} {i j : Nat} (h : Holds l v) (e : v.swap i j = .ok v')
    (hi : i < l.length) (hj : j < l.length) : Holds l v' := by
  obtain ⟨w, e1, _, e3, _⟩ := Vec.swap_ok v i j (by rw [h.length_eq]; exact hi) (by rw [h.length_eq]; exact hj)
  rw [e] at e1
  injection e1 with e1
  subst e1
  exact e3.trans h

theorem swap_holds {l : List α} {v : Vec α} (h : Holds l v) {i j : Nat} (hi : i < l.length) (hj : j < l.length) :
    ∃ v', v.swap i j = .ok v' ∧ Holds l v' := by
  obtain ⟨w, e1, _⟩ := Vec.swap_ok v i j (by rw [h.length_eq]; exact hi) (by rw [h.length_eq]; exact hj)
  exact ⟨w, e1, h.swap e1 hi hj⟩

theorem siftUpLoop_triple (cmp : α → α → Eff σ Ordering) (l : List α) (start : Nat) (fuel : Nat) :
    ∀ (elt : α) (pos : Nat), pos < l.length → pos < fuel →
      Triple (Raises cmp) (Holds l) (Unwind.siftUpLoop cmp start fuel elt pos)
        (fun r v => r.isSome = true ∧ Holds l v) (Holds l) := by
  induction fuel with
  | zero => intro elt pos _ h; omega
  | succ fuel ih =>
    intro elt pos hp hf
    unfold Unwind.siftUpLoop
    by_cases h0 : pos > start
    · rw [if_pos h0]
      refine Triple.get_bind fun v hv => ?_
      refine Triple.lift_bind (index_lt (by rw [hv.length_eq]; omega)) ?_
      refine Triple.call_bind (fun s e he => ⟨_, _, _, he⟩) (by rintro w rfl; exact hv) fun o => ?_
      by_cases ho : o = .lt ∨ o = .eq
      · rw [if_pos ho]
        exact Triple.pure (by rintro w rfl; exact ⟨rfl, hv⟩)
      · rw [if_neg ho]
        obtain ⟨w, e, hw⟩ := swap_holds hv (i := pos) (j := (pos - 1) / 2) hp (by omega)
        refine Triple.lift_bind e (Triple.put_bind ?_)
        exact (ih elt _ (by omega) (by omega)).weaken (by rintro u rfl; exact hw)
    · rw [if_neg h0]
      exact Triple.pure fun v hv => ⟨rfl, hv⟩

theorem siftUp_triple (cmp : α → α → Eff σ Ordering) (l : List α) (start pos : Nat) (hp : pos < l.length) :
    Triple (Raises cmp) (Holds l) (Unwind.siftUp cmp start pos)
      (fun r v => r.isSome = true ∧ Holds l v) (Holds l) := by
  unfold Unwind.siftUp
  refine Triple.get_bind fun v hv => ?_
  refine Triple.lift_bind (index_lt (by rw [hv.length_eq]; exact hp)) ?_
  exact (siftUpLoop_triple cmp l start _ _ pos hp (by omega)).weaken (by rintro u rfl; exact hv)

theorem push_triple (g : Growth) (cmp : α → α → Eff σ Ordering) (l : List α) (x : α) :
    Triple (Raises cmp) (Holds l) (Unwind.push g cmp x)
      (fun r v => r = some () ∧ Holds (x :: l) v) (Holds (x :: l)) := by
  unfold Unwind.push
  refine Triple.get_bind fun v hv => Triple.put_bind ?_
  have hx : Holds (x :: l) (v.push g x) := by
    unfold Holds Vec.push Vec.goAppend
    exact List.perm_append_comm.trans (List.Perm.cons x hv)
  refine Triple.bind ((siftUp_triple cmp (x :: l) 0 v.len (by unfold Vec.len; rw [hv.length_eq]; simp)).weaken
    (by rintro u rfl; exact hx)) fun r => Triple.pure ?_
  rintro w ⟨hr, hw⟩
  cases r with
  | none => cases hr
  | some p => exact ⟨rfl, hw⟩

theorem siftDownLoop_triple (cmp : α → α → Eff σ Ordering) (l : List α) (fuel : Nat) :
    ∀ (pos child : Nat), pos < l.length → pos < child → l.length < fuel + pos →
      Triple (Raises cmp) (Holds l) (Unwind.siftDownLoop cmp l.length fuel pos child)
        (fun r v => (∃ p k, r = some (p, k) ∧ p < l.length) ∧ Holds l v) (Holds l) := by
  induction fuel with
  | zero => intro pos child h _ hf; omega
  | succ fuel ih =>
    intro pos child hp hpc hf
    unfold Unwind.siftDownLoop
    by_cases h0 : child ≤ l.length - 2
    · rw [if_pos h0]
      have h2 : 2 ≤ l.length := by omega
      refine Triple.get_bind fun v hv => ?_
      refine Triple.lift_bind (index_lt (by rw [hv.length_eq]; omega)) ?_
      refine Triple.lift_bind (index_lt (by rw [hv.length_eq]; omega)) ?_
      refine Triple.call_bind (fun s e he => ⟨_, _, _, he⟩) (by rintro w rfl; exact hv) fun o => ?_
      have key : ∀ k, k = child ∨ k = child + 1 → Triple (σ := σ) (Raises cmp) (fun w => w = v)
          (do let v ← Eff.lift (v.swap pos k); Unwind.put v; Unwind.siftDownLoop cmp l.length fuel k (2 * k + 1))
          (fun r v => (∃ p k, r = some (p, k) ∧ p < l.length) ∧ Holds l v) (Holds l) := by
        intro k hk
        obtain ⟨w, e, hw⟩ := swap_holds hv (i := pos) (j := k) hp (by omega)
        refine Triple.lift_bind e (Triple.put_bind ?_)
        exact (ih k _ (by omega) (by omega) (by omega)).weaken (by rintro u rfl; exact hw)
      by_cases ho : o = .lt ∨ o = .eq
      · simp only [if_pos ho]; exact key _ (.inr rfl)
      · simp only [if_neg ho]; exact key _ (.inl rfl)
    · rw [if_neg h0]
      exact Triple.pure fun v hv => ⟨⟨_, _, rfl, hp⟩, hv⟩

theorem siftDownToBottom_triple (cmp : α → α → Eff σ Ordering) (l : List α) (hp : l ≠ []) :
    Triple (Raises cmp) (Holds l) (Unwind.siftDownToBottom cmp 0)
      (fun r v => r = some () ∧ Holds l v) (Holds l) := by
  have h0 : 0 < l.length := List.length_pos_iff.2 hp
  unfold Unwind.siftDownToBottom
  refine Triple.get_bind fun v hv => ?_
  have hl : v.len = l.length := hv.length_eq
  refine Triple.lift_bind (index_lt (by rw [hv.length_eq]; exact h0)) ?_
  rw [hl]
  refine Triple.bind ((siftDownLoop_triple cmp l (l.length + 1) 0 (2 * 0 + 1) h0 (by omega) (by omega)).weaken
    (by rintro u rfl; exact hv)) fun r => ?_
  have up : ∀ p, p < l.length → Triple (σ := σ) (Raises cmp) (Holds l)
      (do let r ← Unwind.siftUp cmp 0 p; pure (r.map fun _ => ()))
      (fun r v => r = some () ∧ Holds l v) (Holds l) := by
    intro p hp
    refine Triple.bind (siftUp_triple cmp l 0 p hp) fun r => Triple.pure ?_
    rintro w ⟨hr, hw⟩
    cases r with
    | none => cases hr
    | some p => exact ⟨rfl, hw⟩
  match r with
  | none => exact fun v s h => by obtain ⟨⟨p, k, h, _⟩, _⟩ := h; cases h
  | some (hole, child) =>
    simp only
    by_cases hc : child = l.length - 1
    · rw [if_pos hc]
      refine Triple.get_bind fun w hw => ?_
      obtain ⟨⟨p, k, e, hpl⟩, hw⟩ := hw
      injection e with e
      injection e with e1 e2
      obtain ⟨u, e, hu⟩ := swap_holds hw (i := hole) (j := child) (by omega) (by omega)
      refine Triple.lift_bind e (Triple.put_bind ?_)
      exact (up child (by omega)).weaken (by rintro u rfl; exact hu)
    · rw [if_neg hc]
      intro w s hw
      obtain ⟨⟨p, k, e, hpl⟩, hw⟩ := hw
      injection e with e
      injection e with e1 e2
      exact up hole (by omega) w s hw

theorem pop_triple (cmp : α → α → Eff σ Ordering) (v0 : Vec α) :
    Triple (Raises cmp) (fun v => v = v0) (Unwind.pop cmp)
      (fun r v => (v0.data = [] ∧ r = some Opt.none ∧ v.data = []) ∨
        ∃ x l, v0.data = x :: l ∧ r = some (Opt.some x) ∧ Holds l v)
      (fun v => ∃ x l, v0.data = x :: l ∧ Holds l v) := by
  obtain ⟨data, cap⟩ := v0
  unfold Unwind.pop
  refine Triple.get_bind ?_
  rintro v rfl
  match data with
  | [] =>
    refine Triple.lift_bind (b := (⟨[], cap⟩, Opt.none)) (by simp [Vec.pop]) ?_
    refine Triple.put_bind ?_
    rw [if_pos (by rfl)]
    exact Triple.pure (by rintro w rfl; exact .inl ⟨rfl, rfl, rfl⟩)
  | [x] =>
    refine Triple.lift_bind (b := (⟨[], cap⟩, Opt.some x)) (by simp [Vec.pop, index]) ?_
    refine Triple.put_bind ?_
    rw [if_neg (by simp [Opt.isNone, Opt.some])]
    refine Triple.lift_bind (b := x) rfl ?_
    rw [if_neg (by simp [Vec.isEmpty])]
    exact Triple.pure (by rintro w rfl; exact .inr ⟨x, [], rfl, rfl, List.Perm.refl _⟩)
  | x :: y :: l =>
    have e : (Vec.mk (x :: y :: l) cap).pop =
        .ok (⟨x :: (y :: l).dropLast, cap⟩, Opt.some ((y :: l).getLast (by simp))) := by
      unfold Vec.pop
      rw [if_neg (by simp), index_lt (by simp)]
      simp only [Go.bind_ok]
      congr 2
      · rw [← List.dropLast_eq_take]; rfl
      · congr 1
        simp only [List.length_cons, Nat.add_sub_cancel, List.getElem_cons_succ, List.getLast_eq_getElem]
    refine Triple.lift_bind e ?_
    refine Triple.put_bind ?_
    rw [if_neg (by simp [Opt.isNone, Opt.some])]
    refine Triple.lift_bind (b := (y :: l).getLast (by simp)) rfl ?_
    rw [if_pos (by simp [Vec.isEmpty])]
    refine Triple.lift_bind (b := x) (by simp [index]) ?_
    refine Triple.lift_bind (b := ⟨(y :: l).getLast (by simp) :: (y :: l).dropLast, cap⟩)
      (by simp [Vec.setUnchecked, setIndex]) ?_
    refine Triple.put_bind ?_
    have hp : Holds (y :: l) ⟨(y :: l).getLast (by simp) :: (y :: l).dropLast, cap⟩ := by
      unfold Holds
      have := List.dropLast_concat_getLast (l := y :: l) (by simp)
      refine List.Perm.trans ?_ (List.Perm.of_eq this)
      exact (List.perm_append_comm (l₁ := (y :: l).dropLast) (l₂ := [_])).symm
    have := siftDownToBottom_triple cmp (y :: l) (by simp)
    intro v s hv
    subst hv
    have h := Triple.bind (this.weaken (P' := fun v => Holds (y :: l) v) (fun _ h => h))
      (f := fun r => (pure (r.map fun _ => Opt.some x) : Eff (Vec α × σ) (Option (Opt α))))
      (Q := fun r v => r = some (Opt.some x) ∧ Holds (y :: l) v)
      (fun r => Triple.pure (by rintro w ⟨rfl, hw⟩; exact ⟨rfl, hw⟩)) _ s hp
    split at h
    · next b s' hb =>
      exact .inr ⟨x, y :: l, rfl, h.1, h.2⟩
    · next b s' hb =>
      exact ⟨h.1, x, y :: l, rfl, h.2⟩

/-! ### Histories in which every panic is recovered -/

namespace Spec
/-- What an operation may do to a bag of elements when comparisons can raise the panics E: a Push adds its element and a
Pop removes one, whether or not a comparison panics. -/
inductive BagStep (E : Panic → Prop) : HeapOp α → List α → Except Panic (Option (Obs α)) → List α → Prop
  | push {v bag bag'} : bag'.Perm (v :: bag) → BagStep E (.push v) bag (.ok (some .unit)) bag'
  | pushPanic {v bag bag' e} : E e → bag'.Perm (v :: bag) → BagStep E (.push v) bag (.error e) bag'
  | popNone : BagStep E .pop [] (.ok (some (.opt none))) []
  | popSome {m bag bag'} : bag.Perm (m :: bag') → BagStep E .pop bag (.ok (some (.opt (some m)))) bag'
  | popPanic {m bag bag' e} : E e → bag.Perm (m :: bag') → BagStep E .pop bag (.error e) bag'
  | clear {bag} : BagStep E .clear bag (.ok (some .unit)) []
  | len {bag} : BagStep E .len bag (.ok (some (.nat bag.length))) bag
  | isEmpty {bag} : BagStep E .isEmpty bag (.ok (some (.bool bag.isEmpty))) bag
  | asSlice {bag} {l : List α} : l.Perm bag → BagStep E .asSlice bag (.ok (some (.other l))) bag

/-- Histories of bags. -/
inductive BagRun (E : Panic → Prop) :
    List (HeapOp α) → List α → List (Except Panic (Option (Obs α))) → List α → Prop
  | nil {bag} : BagRun E [] bag [] bag
  | cons {o os bag r bag1 rs bag2} : BagStep E o bag r bag1 → BagRun E os bag1 rs bag2 →
      BagRun E (o :: os) bag (r :: rs) bag2

/-- A program that recovers every panic and goes on with the state it finds. -/
def runRecover {ω ρ τ : Type} (step : ω → Eff τ ρ) : List ω → τ → List (Except Panic ρ) × τ
  | [], t => ([], t)
  | o :: os, t => ((step o t).1 :: (runRecover step os (step o t).2).1, (runRecover step os (step o t).2).2)
end Spec

/-- The implementation; a loop that does not end would be `none`. -/
def Unwind.step (g : Growth) (cmp : α → α → Eff σ Ordering) : HeapOp α → Eff (Vec α × σ) (Option (Obs α))
  | .push x => do
    let r ← Unwind.push g cmp x
    pure (r.map fun _ => .unit)
  | .pop => do
    let r ← Unwind.pop cmp
    pure (r.map fun o => .opt o.value)
  | .clear => do
    let v ← Unwind.get
    Unwind.put v.clear
    pure (some .unit)
  | .len => do
    let v ← Unwind.get
    pure (some (.nat v.len))
  | .isEmpty => do
    let v ← Unwind.get
    pure (some (.bool v.isEmpty))
  | .asSlice => do
    let v ← Unwind.get
    pure (some (.other v.data))

theorem Vec.isEmpty_data (v : Vec α) : v.isEmpty = v.data.isEmpty := by
  unfold Vec.isEmpty Vec.len
  cases v.data <;> rfl

theorem Unwind.step_bag (g : Growth) (cmp : α → α → Eff σ Ordering) (o : HeapOp α) (t : Vec α × σ) :
    BagStep (Raises cmp) o t.1.data (Unwind.step g cmp o t).1 (Unwind.step g cmp o t).2.1.data := by
  obtain ⟨v, s⟩ := t
  cases o with
  | push x =>
    have h := push_triple g cmp v.data x v s (List.Perm.refl _)
    simp only [Unwind.step, Eff.bind_run]
    rcases hr : Unwind.push g cmp x (v, s) with ⟨e | r, t⟩
    · rw [hr] at h
      exact .pushPanic h.1 h.2
    · rw [hr] at h
      obtain ⟨rfl, h⟩ := h
      exact .push h
  | pop =>
    have h := pop_triple cmp v v s rfl
    simp only [Unwind.step, Eff.bind_run]
    rcases hr : Unwind.pop cmp (v, s) with ⟨e | r, t⟩
    · rw [hr] at h
      obtain ⟨h1, x, l, h2, h3⟩ := h
      exact .popPanic (m := x) h1 (by rw [h2]; exact (h3.cons x).symm)
    · rw [hr] at h
      rcases h with ⟨h1, h2, h3⟩ | ⟨x, l, h1, h2, h3⟩
      · subst h2
        simp only
        rw [h1]
        have : BagStep (α := α) (Raises cmp) .pop [] (.ok (some (.opt none))) [] := .popNone
        simpa [Opt.none, h3] using this
      · subst h2
        exact .popSome (by rw [h1]; exact (h3.cons x).symm)
  | clear => exact .clear
  | len => exact .len
  | isEmpty =>
    have : BagStep (α := α) (Raises cmp) .isEmpty v.data (.ok (some (.bool v.data.isEmpty))) v.data := .isEmpty
    rw [← Vec.isEmpty_data] at this
    exact this
  | asSlice => exact .asSlice (List.Perm.refl _)

/-- C132: for every Cmp method - with effects, with panics, with answers that contradict each other - and every history
in which the panics are recovered, the heap works as a bag: a Push adds exactly its element even if it panics, a Pop
removes exactly one element (and returns it unless it panics), Len, IsEmpty and AsSlice count and show what is there.
No loop runs for ever, no index is out of range: the only panics are those of Cmp. -/
theorem C132_heap_bag (g : Growth) (cmp : α → α → Eff σ Ordering) (ops : List (HeapOp α)) (t : Vec α × σ) :
    BagRun (Raises cmp) ops t.1.data (runRecover (Unwind.step g cmp) ops t).1
      (runRecover (Unwind.step g cmp) ops t).2.1.data := by
  induction ops generalizing t with
  | nil => exact .nil
  | cons o os ih => exact .cons (Unwind.step_bag g cmp o t) (ih _)

/-! ### Runs in which no comparison panics -/

namespace Unwind
theorem bind_ok {γ : Type} {x : Eff σ γ} {f : γ → Eff σ β} {s s' : σ} {b : β} :
    (x >>= f) s = (.ok b, s') ↔ ∃ a s1, x s = (.ok a, s1) ∧ f a s1 = (.ok b, s') := by
  rw [Eff.bind_run]
  rcases x s with ⟨e | a, s1⟩
  · simp
  · simp only
    constructor
    · intro h; exact ⟨a, s1, rfl, h⟩
    · rintro ⟨a', s1', h1, h2⟩
      injection h1 with h1 h3
      injection h1 with h1
      subst h1 h3
      exact h2
theorem get_ok {v w : c} {s : σ} {t : c × σ} : get (v, s) = (.ok w, t) ↔ v = w ∧ t = (v, s) := by
  unfold get
  simp only [Prod.mk.injEq, Except.ok.injEq]
  constructor <;> (rintro ⟨rfl, rfl⟩; exact ⟨rfl, rfl⟩)
theorem put_ok {v w : c} {s : σ} {t : c × σ} : put w (v, s) = (.ok (), t) ↔ t = (w, s) := by
  unfold put
  simp only [Prod.mk.injEq, true_and]
  exact eq_comm
theorem lift_ok {x : Go β} {b : β} {s t : σ} : Eff.lift x s = (.ok b, t) ↔ x = .ok b ∧ t = s := by
  unfold Eff.lift
  simp only [Prod.mk.injEq]
  constructor <;> (rintro ⟨rfl, rfl⟩; exact ⟨rfl, rfl⟩)
theorem pure_ok {a b : β} {s t : σ} : (pure a : Eff σ β) s = (.ok b, t) ↔ a = b ∧ t = s := by
  simp only [Eff.pure_run, Prod.mk.injEq, Except.ok.injEq]
  constructor <;> (rintro ⟨rfl, rfl⟩; exact ⟨rfl, rfl⟩)
theorem call_ok {x : Eff σ β} {b : β} {v : c} {s : σ} {t : c × σ} :
    call x (v, s) = (.ok b, t) ↔ ∃ s', x s = (.ok b, s') ∧ t = (v, s') := by
  unfold call
  rcases x s with ⟨e | a, s1⟩
  · simp
  · simp only [Prod.mk.injEq, Except.ok.injEq]
    constructor
    · rintro ⟨rfl, rfl⟩; exact ⟨s1, ⟨rfl, rfl⟩, rfl⟩
    · rintro ⟨s', ⟨rfl, rfl⟩, rfl⟩; exact ⟨rfl, rfl⟩
end Unwind

namespace Spec
/-- Whenever the comparison returns, its answer is that of ord; it may have effects and may panic. -/
def Answers (cmp : α → α → Eff σ Ordering) (ord : α → α → Ordering) : Prop :=
  ∀ a b s o s', cmp a b s = (.ok o, s') → o = ord a b
end Spec

section
variable {cmp : α → α → Eff σ Ordering} {ord : α → α → Ordering}

theorem siftUpLoop_answers (hc : Answers cmp ord) (start fuel : Nat) :
    ∀ (elt : α) (pos : Nat) (v : Vec α) (s : σ) (r : Option Nat) (t : Vec α × σ),
      Unwind.siftUpLoop cmp start fuel elt pos (v, s) = (.ok r, t) →
      BHeap.siftUpLoop ord start fuel v elt pos = .ok (r.map fun p => (t.1, p)) := by
  induction fuel with
  | zero =>
    intro elt pos v s r t h
    obtain ⟨rfl, rfl⟩ := pure_ok.1 h
    rfl
  | succ fuel ih =>
    intro elt pos v s r t h
    unfold Unwind.siftUpLoop at h
    unfold BHeap.siftUpLoop
    by_cases h0 : pos > start
    · rw [if_pos h0] at h ⊢
      obtain ⟨_, _, h1, h⟩ := bind_ok.1 h
      obtain ⟨rfl, rfl⟩ := get_ok.1 h1
      obtain ⟨p, _, h1, h⟩ := bind_ok.1 h
      obtain ⟨h2, rfl⟩ := Unwind.lift_ok.1 h1
      obtain ⟨o, _, h1, h⟩ := bind_ok.1 h
      obtain ⟨s1, h3, rfl⟩ := call_ok.1 h1
      have ho := hc _ _ _ _ _ h3
      subst ho
      simp only [h2, Go.bind_ok]
      by_cases ho : ord elt p = .lt ∨ ord elt p = .eq
      · rw [if_pos ho] at h ⊢
        obtain ⟨rfl, rfl⟩ := pure_ok.1 h
        rfl
      · rw [if_neg ho] at h ⊢
        obtain ⟨w, _, h1, h⟩ := bind_ok.1 h
        obtain ⟨h4, rfl⟩ := Unwind.lift_ok.1 h1
        obtain ⟨_, _, h1, h⟩ := bind_ok.1 h
        have := put_ok.1 h1
        subst this
        simp only [h4, Go.bind_ok]
        exact ih _ _ _ _ _ _ h
    · rw [if_neg h0] at h ⊢
      obtain ⟨rfl, rfl⟩ := pure_ok.1 h
      rfl

theorem siftUp_answers (hc : Answers cmp ord) {start pos : Nat} {v : Vec α} {s : σ} {r : Option Nat} {t : Vec α × σ}
    (h : Unwind.siftUp cmp start pos (v, s) = (.ok r, t)) :
    BHeap.siftUp ord v start pos = .ok (r.map fun p => (t.1, p)) := by
  unfold Unwind.siftUp at h
  obtain ⟨_, _, h1, h⟩ := bind_ok.1 h
  obtain ⟨rfl, rfl⟩ := get_ok.1 h1
  obtain ⟨p, _, h1, h⟩ := bind_ok.1 h
  obtain ⟨h2, rfl⟩ := Unwind.lift_ok.1 h1
  unfold BHeap.siftUp
  simp only [h2, Go.bind_ok]
  exact siftUpLoop_answers hc _ _ _ _ _ _ _ _ h

theorem push_answers (hc : Answers cmp ord) {g : Growth} {x : α} {v : Vec α} {s : σ} {r : Option Unit} {t : Vec α × σ}
    (h : Unwind.push g cmp x (v, s) = (.ok r, t)) :
    BHeap.push g ord ⟨v⟩ x = .ok (r.map fun _ => ⟨t.1⟩) := by
  unfold Unwind.push at h
  obtain ⟨_, _, h1, h⟩ := bind_ok.1 h
  obtain ⟨rfl, rfl⟩ := get_ok.1 h1
  obtain ⟨_, _, h1, h⟩ := bind_ok.1 h
  have := put_ok.1 h1
  subst this
  obtain ⟨r', t', h1, h⟩ := bind_ok.1 h
  obtain ⟨rfl, rfl⟩ := pure_ok.1 h
  have := siftUp_answers hc h1
  unfold BHeap.push
  simp only [this, Go.bind_ok]
  cases r' <;> rfl

theorem siftDownLoop_answers (hc : Answers cmp ord) (end_ fuel : Nat) :
    ∀ (pos child : Nat) (v : Vec α) (s : σ) (r : Option (Nat × Nat)) (t : Vec α × σ),
      Unwind.siftDownLoop cmp end_ fuel pos child (v, s) = (.ok r, t) →
      BHeap.siftDownLoop ord end_ fuel v pos child = .ok (r.map fun p => (t.1, p)) := by
  induction fuel with
  | zero =>
    intro pos child v s r t h
    obtain ⟨rfl, rfl⟩ := pure_ok.1 h
    rfl
  | succ fuel ih =>
    intro pos child v s r t h
    unfold Unwind.siftDownLoop at h
    unfold BHeap.siftDownLoop
    by_cases h0 : child ≤ end_ - 2
    · rw [if_pos h0] at h ⊢
      obtain ⟨_, _, h1, h⟩ := bind_ok.1 h
      obtain ⟨rfl, rfl⟩ := get_ok.1 h1
      obtain ⟨a, _, h1, h⟩ := bind_ok.1 h
      obtain ⟨h2, rfl⟩ := Unwind.lift_ok.1 h1
      obtain ⟨b, _, h1, h⟩ := bind_ok.1 h
      obtain ⟨h3, rfl⟩ := Unwind.lift_ok.1 h1
      obtain ⟨o, _, h1, h⟩ := bind_ok.1 h
      obtain ⟨s1, h4, rfl⟩ := call_ok.1 h1
      have ho := hc _ _ _ _ _ h4
      subst ho
      obtain ⟨w, _, h1, h⟩ := bind_ok.1 h
      obtain ⟨h5, rfl⟩ := Unwind.lift_ok.1 h1
      obtain ⟨_, _, h1, h⟩ := bind_ok.1 h
      have := put_ok.1 h1
      subst this
      simp only [h2, h3, h5, Go.bind_ok]
      exact ih _ _ _ _ _ _ h
    · rw [if_neg h0] at h ⊢
      obtain ⟨rfl, rfl⟩ := pure_ok.1 h
      rfl

theorem siftDownToBottom_answers (hc : Answers cmp ord) {pos : Nat} {v : Vec α} {s : σ} {r : Option Unit}
    {t : Vec α × σ} (h : Unwind.siftDownToBottom cmp pos (v, s) = (.ok r, t)) :
    BHeap.siftDownToBottom ord v pos = .ok (r.map fun _ => t.1) := by
  unfold Unwind.siftDownToBottom at h
  obtain ⟨_, _, h1, h⟩ := bind_ok.1 h
  obtain ⟨rfl, rfl⟩ := get_ok.1 h1
  obtain ⟨p, _, h1, h⟩ := bind_ok.1 h
  obtain ⟨h2, rfl⟩ := Unwind.lift_ok.1 h1
  obtain ⟨r', t', h1, h⟩ := bind_ok.1 h
  have hd := siftDownLoop_answers hc _ _ _ _ _ _ _ _ h1
  unfold BHeap.siftDownToBottom
  simp only [h2, hd, Go.bind_ok]
  match r' with
  | none =>
    obtain ⟨rfl, rfl⟩ := pure_ok.1 h
    rfl
  | some (hole, child) =>
    simp only [Option.map_some] at h ⊢
    obtain ⟨w, s'⟩ := t'
    by_cases hb : child = v.len - 1
    · rw [if_pos hb] at h ⊢
      obtain ⟨_, _, h1, h⟩ := bind_ok.1 h
      obtain ⟨rfl, rfl⟩ := get_ok.1 h1
      obtain ⟨w', _, h1, h⟩ := bind_ok.1 h
      obtain ⟨h3, rfl⟩ := Unwind.lift_ok.1 h1
      obtain ⟨_, _, h1, h⟩ := bind_ok.1 h
      have := put_ok.1 h1
      subst this
      obtain ⟨r', t', h1, h⟩ := bind_ok.1 h
      obtain ⟨rfl, rfl⟩ := pure_ok.1 h
      have := siftUp_answers hc h1
      simp only [h3, this, Go.bind_ok]
      cases r' <;> rfl
    · rw [if_neg hb] at h ⊢
      obtain ⟨r', t', h1, h⟩ := bind_ok.1 h
      obtain ⟨rfl, rfl⟩ := pure_ok.1 h
      have := siftUp_answers hc h1
      simp only [this, Go.bind_ok]
      cases r' <;> rfl

theorem pop_answers (hc : Answers cmp ord) {v : Vec α} {s : σ} {r : Option (Opt α)} {t : Vec α × σ}
    (h : Unwind.pop cmp (v, s) = (.ok r, t)) :
    BHeap.pop ord ⟨v⟩ = .ok (r.map fun o => (⟨t.1⟩, o)) := by
  unfold Unwind.pop at h
  obtain ⟨_, _, h1, h⟩ := bind_ok.1 h
  obtain ⟨rfl, rfl⟩ := get_ok.1 h1
  obtain ⟨⟨w, o⟩, _, h1, h⟩ := bind_ok.1 h
  obtain ⟨h2, rfl⟩ := Unwind.lift_ok.1 h1
  obtain ⟨_, _, h1, h⟩ := bind_ok.1 h
  have := put_ok.1 h1
  subst this
  unfold BHeap.pop
  simp only [h2, Go.bind_ok]
  by_cases ho : o.isNone = true
  · rw [if_pos ho] at h ⊢
    obtain ⟨rfl, rfl⟩ := pure_ok.1 h
    rfl
  · rw [if_neg ho] at h ⊢
    obtain ⟨item, _, h1, h⟩ := bind_ok.1 h
    obtain ⟨h3, rfl⟩ := Unwind.lift_ok.1 h1
    simp only [h3, Go.bind_ok]
    by_cases he : (!w.isEmpty) = true
    · rw [if_pos he] at h ⊢
      obtain ⟨x, _, h1, h⟩ := bind_ok.1 h
      obtain ⟨h4, rfl⟩ := Unwind.lift_ok.1 h1
      obtain ⟨w', _, h1, h⟩ := bind_ok.1 h
      obtain ⟨h5, rfl⟩ := Unwind.lift_ok.1 h1
      obtain ⟨_, _, h1, h⟩ := bind_ok.1 h
      have := put_ok.1 h1
      subst this
      obtain ⟨r', t', h1, h⟩ := bind_ok.1 h
      obtain ⟨rfl, rfl⟩ := pure_ok.1 h
      have := siftDownToBottom_answers hc h1
      simp only [h4, h5, this, Go.bind_ok]
      cases r' <;> rfl
    · rw [if_neg he] at h ⊢
      obtain ⟨rfl, rfl⟩ := pure_ok.1 h
      rfl

/-- C132: an operation whose comparisons all return, with the answers of a total order, does on a heap in order what C66
says, whatever effects the comparisons have, and leaves the heap in order. -/
theorem C132_heap_answered (g : Growth) (hc : Answers cmp ord) (ht : TotalCmp ord) (o : HeapOp α) (v v' : Vec α)
    (s s' : σ) (r : Option (Obs α)) (hv : IsHeap ord v.data) (h : Unwind.step g cmp o (v, s) = (.ok r, (v', s'))) :
    ∃ obs, r = some obs ∧ HeapStep ord o v.data obs v'.data ∧ IsHeap ord v'.data := by
  cases o with
  | push x =>
    obtain ⟨r', t', h1, h⟩ := bind_ok.1 h
    obtain ⟨rfl, rfl⟩ := pure_ok.1 h
    have e := push_answers hc h1
    obtain ⟨s1, e1, e2, e3⟩ := BHeap.push_eq g ord ht ⟨v⟩ hv x
    rw [e] at e1
    cases r' with
    | none => cases e1
    | some u =>
      injection e1 with e1
      injection e1 with e1
      subst e1
      exact ⟨_, rfl, .push e3, e2⟩
  | pop =>
    obtain ⟨r', t', h1, h⟩ := bind_ok.1 h
    obtain ⟨rfl, rfl⟩ := pure_ok.1 h
    have e := pop_answers hc h1
    rcases BHeap.pop_eq ord ht ⟨v⟩ hv with ⟨e1, e2⟩ | ⟨s1, m, e1, e2, e3, e4⟩
    · rw [e] at e2
      cases r' with
      | none => cases e2
      | some u =>
        injection e2 with e2
        injection e2 with e2
        injection e2 with e2 e3
        injection e2 with e2
        have e2 : v' = v := e2
        subst e2 e3
        have e1 : v'.data = [] := e1
        refine ⟨_, rfl, ?_, hv⟩
        rw [e1]
        exact .popNone
    · rw [e] at e1
      cases r' with
      | none => cases e1
      | some u =>
        injection e1 with e1
        injection e1 with e1
        injection e1 with e1 e5
        subst e1 e5
        exact ⟨_, rfl, .popSome e3 e4, e2⟩
  | clear =>
    obtain ⟨_, _, h1, h⟩ := bind_ok.1 h
    obtain ⟨rfl, rfl⟩ := get_ok.1 h1
    obtain ⟨_, _, h1, h⟩ := bind_ok.1 h
    have := put_ok.1 h1
    subst this
    obtain ⟨h4, h5⟩ := pure_ok.1 h
    subst h4
    injection h5 with h6 _
    subst h6
    refine ⟨_, rfl, .clear, ?_⟩
    intro i x y _ hx
    simp [Vec.clear, Vec.new] at hx
  | len =>
    obtain ⟨_, _, h1, h⟩ := bind_ok.1 h
    obtain ⟨rfl, rfl⟩ := get_ok.1 h1
    obtain ⟨h4, h5⟩ := pure_ok.1 h
    subst h4
    injection h5 with h6 _
    subst h6
    exact ⟨_, rfl, .len, hv⟩
  | isEmpty =>
    obtain ⟨_, _, h1, h⟩ := bind_ok.1 h
    obtain ⟨rfl, rfl⟩ := get_ok.1 h1
    obtain ⟨h4, h5⟩ := pure_ok.1 h
    subst h4
    injection h5 with h6 _
    subst h6
    refine ⟨_, rfl, ?_, hv⟩
    rw [Vec.isEmpty_data]
    exact .isEmpty
  | asSlice =>
    obtain ⟨_, _, h1, h⟩ := bind_ok.1 h
    obtain ⟨rfl, rfl⟩ := get_ok.1 h1
    obtain ⟨h4, h5⟩ := pure_ok.1 h
    subst h4
    injection h5 with h6 _
    subst h6
    exact ⟨_, rfl, .asSlice (.refl _), hv⟩
end

/-! ### The order after a panic -/

theorem Unwind.Triple.call_bind_ok {γ : Type} {E : Panic → Prop} {P : c → Prop} {Q : β → c → Prop} {X : c → Prop}
    {x : Eff σ γ} {f : γ → Eff (c × σ) β} (hx : ∀ s e, (x s).1 = .error e → E e)
    (hX : ∀ v, P v → X v) (h : ∀ b s s', x s = (.ok b, s') → Triple E P (f b) Q X) :
    Triple E P (call x >>= f) Q X := by
  intro v s hp
  rw [Eff.bind_run]
  unfold call
  rcases hr : x s with ⟨e | b, s'⟩
  · simp only
    exact ⟨hx s e (by rw [hr]), hX v hp⟩
  · simp only
    exact h b s s' hr v s' hp

/-- One step up of an element that is greater than its parent. -/
theorem UpInv.stepV {ord : α → α → Ordering} (hc : TotalCmp ord) {v v1 : Vec α} {pos : Nat} {elt : α} (h0 : 0 < pos)
    (hp : v.data[pos]? = some elt) (hu : UpInv ord v.data pos) (hpar : (pos - 1) / 2 < v.data.length)
    (hgt : ord elt v.data[(pos - 1) / 2] = .gt) (e1 : v.swap pos ((pos - 1) / 2) = .ok v1) :
    UpInv ord v1.data ((pos - 1) / 2) ∧ v1.data[(pos - 1) / 2]? = some elt := by
  have hpos : pos < v.data.length := (List.getElem?_eq_some_iff.1 hp).1
  have hle : cmpLe ord v.data[(pos - 1) / 2] elt := by
    rcases hc.total elt v.data[(pos - 1) / 2] with h | h
    · exact absurd hgt h
    · exact h
  obtain ⟨v1', e1', e2, e3, e4, e5⟩ := v.swap_ok pos ((pos - 1) / 2) hpos hpar
  rw [e1] at e1'
  injection e1' with e1'
  subst e1'
  have hget : ∀ k, v1.data[k]? = if k = pos then some v.data[(pos - 1) / 2] else
      if k = (pos - 1) / 2 then some elt else v.data[k]? := by
    intro k
    rw [e5 k, hp, List.getElem?_eq_getElem hpar]
  refine ⟨⟨?_, ?_⟩, by rw [hget, if_neg (by omega), if_pos rfl]⟩
  · intro i x y hi hne hx hy
    rw [hget] at hx hy
    rw [if_neg hne] at hx
    by_cases hip : i = pos
    · subst hip
      rw [if_pos rfl] at hx
      rw [if_neg (by omega), if_pos rfl] at hy
      cases hx; cases hy
      exact hle
    · rw [if_neg hip] at hx
      by_cases hpi : (i - 1) / 2 = pos
      · rw [if_pos hpi] at hy
        cases hy
        exact hu.2 i x _ h0 hi hpi hx (List.getElem?_eq_getElem hpar)
      · rw [if_neg hpi] at hy
        by_cases hpq : (i - 1) / 2 = (pos - 1) / 2
        · rw [if_pos hpq] at hy
          cases hy
          refine hc.trans _ _ _ ?_ hle
          exact hu.1 i x _ hi hip hx (by rw [hpq, List.getElem?_eq_getElem hpar])
        · rw [if_neg hpq] at hy
          exact hu.1 i x y hi hip hx hy
  · intro i x y hq hi hpi hx hy
    rw [hget] at hx hy
    rw [if_neg (by omega), if_neg (by omega)] at hy
    have hqy : cmpLe ord v.data[(pos - 1) / 2] y :=
      hu.1 ((pos - 1) / 2) _ y hq (by omega) (List.getElem?_eq_getElem hpar) hy
    by_cases hip : i = pos
    · rw [if_pos hip] at hx
      cases hx
      exact hqy
    · rw [if_neg hip, if_neg (by omega)] at hx
      refine hc.trans _ _ _ (hu.1 i x _ hi hip hx ?_) hqy
      rw [hpi, List.getElem?_eq_getElem hpar]

section
variable {cmp : α → α → Eff σ Ordering} {ord : α → α → Ordering}

theorem siftUpLoop_order (hc : Answers cmp ord) (ht : TotalCmp ord) (fuel : Nat) :
    ∀ (elt : α) (pos : Nat), Triple (fun _ => True) (fun v => v.data[pos]? = some elt ∧ UpInv ord v.data pos)
      (Unwind.siftUpLoop cmp 0 fuel elt pos) (fun _ _ => True)
      (fun v => ∃ q, 0 < q ∧ v.data[q]? = some elt ∧ UpInv ord v.data q) := by
  induction fuel with
  | zero => intro elt pos; exact Triple.pure fun _ _ => trivial
  | succ fuel ih =>
    intro elt pos
    unfold Unwind.siftUpLoop
    by_cases h0 : pos > 0
    · rw [if_pos h0]
      refine Triple.get_bind fun v hv => ?_
      have hpos : pos < v.data.length := (List.getElem?_eq_some_iff.1 hv.1).1
      have hpar : (pos - 1) / 2 < v.data.length := by omega
      refine Triple.lift_bind (index_lt hpar) ?_
      refine Triple.call_bind_ok (fun _ _ _ => trivial) (by rintro w rfl; exact ⟨pos, h0, hv⟩) fun o s s' hs => ?_
      have ho := hc _ _ _ _ _ hs
      subst ho
      by_cases ho : ord elt v.data[(pos - 1) / 2] = .lt ∨ ord elt v.data[(pos - 1) / 2] = .eq
      · rw [if_pos ho]
        exact Triple.pure fun _ _ => trivial
      · rw [if_neg ho]
        obtain ⟨w, e, _⟩ := v.swap_ok pos ((pos - 1) / 2) hpos hpar
        refine Triple.lift_bind e (Triple.put_bind ?_)
        have := hv.2.stepV ht h0 hv.1 hpar (gt_of_not ho) e
        exact (ih elt _).weaken (by rintro u rfl; exact ⟨this.2, this.1⟩)
    · rw [if_neg h0]
      exact Triple.pure fun _ _ => trivial

/-- C132: after a Push that panicked, on a heap that was in order, the heap order holds except perhaps between the pushed
element and its parent; so it holds iff the pushed element is not greater than its parent there. -/
theorem C132_push_order (g : Growth) (hc : Answers cmp ord) (ht : TotalCmp ord) (v v' : Vec α) (s s' : σ) (x : α)
    (e : Panic) (hv : IsHeap ord v.data) (h : Unwind.push g cmp x (v, s) = (.error e, (v', s'))) :
    ∃ q p, 0 < q ∧ v'.data[q]? = some x ∧ v'.data[(q - 1) / 2]? = some p ∧
      (∀ i a b, 0 < i → i ≠ q → v'.data[i]? = some a → v'.data[(i - 1) / 2]? = some b → cmpLe ord a b) ∧
      (IsHeap ord v'.data ↔ cmpLe ord x p) := by
  have key : Triple (σ := σ) (fun _ => True) (fun w => w = v) (Unwind.push g cmp x) (fun _ _ => True)
      (fun w => ∃ q, 0 < q ∧ w.data[q]? = some x ∧ UpInv ord w.data q) := by
    unfold Unwind.push
    refine Triple.get_bind fun w hw => Triple.put_bind ?_
    subst hw
    refine Triple.bind (R := fun _ _ => True) ?_ fun r => Triple.pure fun _ _ => trivial
    unfold Unwind.siftUp
    refine Triple.get_bind ?_
    rintro u rfl
    have hp : (w.push g x).data[w.len]? = some x := by simp [Vec.push, Vec.goAppend, Vec.len]
    obtain ⟨hl, hx⟩ := List.getElem?_eq_some_iff.1 hp
    refine Triple.lift_bind (index_lt hl) ?_
    rw [hx]
    refine (siftUpLoop_order hc ht _ x _).weaken ?_
    rintro u rfl
    refine ⟨hp, ?_, ?_⟩
    · intro i a b hi hne ha hb
      simp only [Vec.push, Vec.goAppend] at ha hb
      have h1 := (List.getElem?_eq_some_iff.1 ha).1
      simp only [List.length_append, List.length_singleton, Vec.len] at h1 hne
      rw [List.getElem?_append_left (by omega)] at ha hb
      exact hv i a b hi ha hb
    · intro i a b hp hi hpi ha hb
      simp only [Vec.push, Vec.goAppend] at ha
      have h1 := (List.getElem?_eq_some_iff.1 ha).1
      simp only [List.length_append, List.length_singleton, Vec.len] at h1 hpi
      omega
  have := key v s rfl
  rw [h] at this
  obtain ⟨_, q, hq, hx, hu⟩ := this
  have hl : q < v'.data.length := (List.getElem?_eq_some_iff.1 hx).1
  have hpl : (q - 1) / 2 < v'.data.length := by omega
  have hpp := List.getElem?_eq_getElem hpl
  refine ⟨q, _, hq, hx, hpp, hu.1, fun hh => hh q _ _ hq hx hpp, fun hle i a b hi ha hb => ?_⟩
  by_cases hiq : i = q
  · subst hiq
    rw [hx] at ha
    rw [hpp] at hb
    cases ha; cases hb
    exact hle
  · exact hu.1 i a b hi hiq ha hb
end

/-- C132 is violated by Push: when the first comparison of a Push panics and the pushed element is greater than the
greatest one, the heap contains it, but the next Pop - with a comparison that behaves in any way, in particular one that
has been repaired - returns the old root and keeps the greater one. -/
theorem C132_push_fails (g : Growth) (cmp cmp' : α → α → Eff σ Ordering) (ord : α → α → Ordering) (v : Vec α) (s : σ)
    (x r : α) (e : Panic) (hr : v.data[0]? = some r) (hx : ord x r = .gt) (hp : ∀ p, (cmp x p s).1 = .error e) :
    ∃ v' s', Unwind.push g cmp x (v, s) = (.error e, (v', s')) ∧ ¬ (∀ y ∈ v'.data, cmpLe ord y r) ∧
      ∀ s1 o v2 s2, Unwind.pop cmp' (v', s1) = (.ok o, (v2, s2)) → o = some (Opt.some r) ∧ x ∈ v2.data := by
  have hl := (List.getElem?_eq_some_iff.1 hr).1
  have hpx : (v.push g x).data[v.len]? = some x := by simp [Vec.push, Vec.goAppend, Vec.len]
  obtain ⟨hlx, hxx⟩ := List.getElem?_eq_some_iff.1 hpx
  have hpar : (v.len - 1) / 2 < (v.push g x).data.length := by
    simp only [Vec.push, Vec.goAppend, List.length_append, List.length_singleton, Vec.len]; omega
  have hpush : ∃ s', Unwind.push g cmp x (v, s) = (.error e, (v.push g x, s')) := by
    refine ⟨(cmp x ((v.push g x).data[(v.len - 1) / 2]) s).2, ?_⟩
    have hg : Vec.getUnchecked (v.push g x) v.len = .ok x := by
      unfold Vec.getUnchecked; rw [index_lt hlx, hxx]
    simp only [Unwind.push, Unwind.siftUp, Eff.bind_run, Unwind.get, Unwind.put, Eff.lift_run, hg]
    unfold Unwind.siftUpLoop
    rw [if_pos (by unfold Vec.len; omega)]
    simp only [Eff.bind_run, Unwind.get, Eff.lift_run, index_lt hpar, Unwind.call, hp]
  obtain ⟨s', h⟩ := hpush
  refine ⟨_, s', h, fun hh => hh x (List.mem_of_getElem? hpx) hx, ?_⟩
  intro s1 o v2 s2 ho
  have := pop_triple cmp' (v.push g x) _ s1 rfl
  rw [ho] at this
  rcases this with ⟨h1, _⟩ | ⟨y, l, h1, h2, h3⟩
  · simp [Vec.push, Vec.goAppend] at h1
  · simp only [Vec.push, Vec.goAppend] at h1
    obtain ⟨a, d, hd⟩ : ∃ a d, v.data = a :: d := by
      cases hvd : v.data with
      | nil => rw [hvd] at hl; simp at hl
      | cons a d => exact ⟨a, d, rfl⟩
    rw [hd] at h1 hr
    simp only [List.cons_append, List.cons.injEq] at h1
    obtain ⟨rfl, rfl⟩ := h1
    simp only [List.getElem?_cons_zero, Option.some.injEq] at hr
    subst hr
    exact ⟨h2, h3.mem_iff.2 (by simp)⟩

/-- C132 is violated by Pop: a Pop that panics has removed a greatest element, which is returned to nobody and is in the
heap no more. -/
theorem C132_pop_fails (cmp : α → α → Eff σ Ordering) (ord : α → α → Ordering) (ht : TotalCmp ord) (v v' : Vec α)
    (s s' : σ) (e : Panic) (hv : IsHeap ord v.data) (h : Unwind.pop cmp (v, s) = (.error e, (v', s'))) :
    ∃ m, v.data.Perm (m :: v'.data) ∧ ∀ x ∈ v.data, cmpLe ord x m := by
  have := pop_triple cmp v v s rfl
  rw [h] at this
  obtain ⟨_, x, l, h1, h2⟩ := this
  refine ⟨x, ?_, hv.root ht x (by rw [h1]; rfl)⟩
  rw [h1]
  exact (List.Perm.cons x h2).symm

theorem Unwind.Triple.call_panics {γ : Type} {P : c → Prop} {x : Eff σ γ} {f : γ → Eff (c × σ) β}
    (hx : ∀ s, ∃ e, (x s).1 = .error e) :
    Triple (fun _ => True) P (call x >>= f) (fun _ _ => False) (fun _ => True) := by
  intro v s _
  obtain ⟨e, he⟩ := hx s
  rw [Eff.bind_run]
  unfold call
  rw [he]
  exact ⟨trivial, trivial⟩

/-- C132: such panics happen: if every comparison panics, every Pop on a heap of three or more elements does. -/
theorem C132_pop_panics (cmp : α → α → Eff σ Ordering) (hp : ∀ a b s, ∃ e, (cmp a b s).1 = .error e) (v : Vec α) (s : σ)
    (h3 : 3 ≤ v.data.length) : ∃ e t, Unwind.pop cmp (v, s) = (.error e, t) := by
  have up : ∀ pos : Nat, 0 < pos → Triple (σ := σ) (fun _ => True) (fun w : Vec α => pos < w.data.length)
      (Unwind.siftUp cmp 0 pos) (fun _ _ => False) (fun _ => True) := by
    intro pos h0
    unfold Unwind.siftUp
    refine Triple.get_bind fun w hw => Triple.lift_bind (index_lt hw) ?_
    unfold Unwind.siftUpLoop
    rw [if_pos h0]
    refine Triple.get_bind fun u hu => Triple.lift_bind (index_lt (by subst hu; omega)) ?_
    exact Triple.call_panics (hp _ _)
  have down : Triple (σ := σ) (fun _ => True) (fun w : Vec α => 2 ≤ w.data.length)
      (Unwind.siftDownToBottom cmp 0) (fun _ _ => False) (fun _ => True) := by
    unfold Unwind.siftDownToBottom
    refine Triple.get_bind fun w hw => Triple.lift_bind (index_lt (by omega)) ?_
    by_cases h2 : 2 < w.data.length
    · refine Triple.bind (R := fun _ _ => False) ?_ (fun b v s h => h.elim)
      unfold Unwind.siftDownLoop
      rw [if_pos (by unfold Vec.len; omega)]
      refine Triple.get_bind fun u hu => ?_
      subst hu
      refine Triple.lift_bind (index_lt (by omega)) (Triple.lift_bind (index_lt (by omega)) ?_)
      exact Triple.call_panics (hp _ _)
    · have hl : w.len = 2 := by unfold Vec.len; omega
      rw [hl]
      refine Triple.bind (R := fun r u => r = some (0, 1) ∧ u = w) ?_ (fun r => ?_)
      · unfold Unwind.siftDownLoop
        rw [if_neg (by omega)]
        exact Triple.pure (by rintro u rfl; exact ⟨rfl, rfl⟩)
      · intro u t hu
        obtain ⟨rfl, rfl⟩ := hu
        have : Triple (σ := σ) (fun _ => True) (fun z : Vec α => z = u)
            (do let v ← Unwind.get; let v ← Eff.lift (v.swap 0 1); Unwind.put v; let r ← Unwind.siftUp cmp 0 1
                pure (r.map fun _ => ())) (fun _ _ => False) (fun _ => True) := by
          refine Triple.get_bind fun z hz => ?_
          subst hz
          obtain ⟨y, e, _, _, hy, _⟩ := z.swap_ok 0 1 (by omega) (by omega)
          refine Triple.lift_bind e (Triple.put_bind ?_)
          refine Triple.bind (R := fun _ _ => False) ((up 1 (by omega)).weaken ?_) (fun b v s h => h.elim)
          rintro x rfl
          omega
        exact this u t rfl
  have all : Triple (σ := σ) (fun _ => True) (fun w : Vec α => w = v) (Unwind.pop cmp) (fun _ _ => False)
      (fun _ => True) := by
    unfold Unwind.pop
    refine Triple.get_bind fun w hw => ?_
    subst hw
    have e : w.pop = .ok (⟨w.data.take (w.data.length - 1), w.cap⟩,
        Opt.some (w.data[w.data.length - 1]'(by omega))) := by
      unfold Vec.pop
      rw [if_neg (by omega), index_lt (by omega)]
      rfl
    refine Triple.lift_bind e (Triple.put_bind ?_)
    rw [if_neg (by simp [Opt.isNone, Opt.some])]
    refine Triple.lift_bind (b := w.data[w.data.length - 1]'(by omega)) rfl ?_
    have hl : (w.data.take (w.data.length - 1)).length = w.data.length - 1 := by rw [List.length_take]; omega
    rw [if_pos (by simp only [Vec.isEmpty, Vec.len, hl, Bool.not_eq_true']; exact beq_eq_false_iff_ne.2 (by omega))]
    refine Triple.lift_bind (index_lt (by rw [hl]; omega)) ?_
    refine Triple.lift_bind (b := ⟨(w.data.take (w.data.length - 1)).set 0 _, w.cap⟩)
      (by unfold Vec.setUnchecked; rw [setIndex_lt (show 0 < (w.data.take (w.data.length - 1)).length by rw [hl]; omega)]; rfl) (Triple.put_bind ?_)
    refine Triple.bind (R := fun _ _ => False) (down.weaken ?_) (fun b v s h => h.elim)
    rintro x rfl
    simp only [List.length_set, hl]
    omega
  have := all v s rfl
  split at this
  · exact this.elim
  · next e t h => exact ⟨e, t, h⟩

/-! ### Append and IntoSortedVec -/

theorem pushAll_triple (g : Growth) (cmp : α → α → Eff σ Ordering) (items : List α) : ∀ (l : List α),
    Triple (Raises cmp) (Holds l) (Unwind.pushAll g cmp items)
      (fun r v => r = some () ∧ Holds (l ++ items) v)
      (fun v => ∃ k, 0 < k ∧ k ≤ items.length ∧ Holds (l ++ items.take k) v) := by
  induction items with
  | nil =>
    intro l
    exact Triple.pure fun v hv => ⟨rfl, by simpa using hv⟩
  | cons x items ih =>
    intro l
    unfold Unwind.pushAll
    have h1 := push_triple g cmp l x
    intro v s hv
    have hm : ∀ m : List α, ((x :: l) ++ m).Perm (l ++ x :: m) := fun m =>
      (List.perm_middle (a := x) (l₁ := l) (l₂ := m)).symm
    have h := h1 v s hv
    rw [Eff.bind_run]
    rcases hr : Unwind.push g cmp x (v, s) with ⟨e | r, w, s'⟩
    · rw [hr] at h
      refine ⟨h.1, 1, by omega, by simp, ?_⟩
      exact List.Perm.trans h.2 ((hm []).symm.trans (by simp) |>.symm)
    · rw [hr] at h
      obtain ⟨rfl, hw⟩ := h
      have h2 := ih (x :: l) w s' hw
      simp only
      rcases hr2 : Unwind.pushAll g cmp items (w, s') with ⟨e | r, u, s''⟩
      · rw [hr2] at h2
        obtain ⟨h3, k, h4, h5, h6⟩ := h2
        refine ⟨h3, k + 1, by omega, by simp; omega, ?_⟩
        rw [List.take_succ_cons]
        exact List.Perm.trans h6 (hm _)
      · rw [hr2] at h2
        exact ⟨h2.1, List.Perm.trans h2.2 (hm _)⟩

/-- C132: an Append (to a heap with room enough, C68) that panics has added a nonempty part of the other heap's elements,
in the order of its AsSlice; all of them if it does not panic. -/
theorem C132_append [Inhabited α] (g : Growth) (cmp : α → α → Eff σ Ordering) (v other v' : Vec α) (s s' : σ)
    (r : Except Panic (Option Unit)) (hsm : v.len + (v.len + other.len) < 2 ^ 63)
    (hroom : v.len + (v.len + other.len) ≤ v.capacity)
    (h : Unwind.append g cmp other (v, s) = (r, (v', s'))) :
    (r = .ok (some ()) ∧ v'.data.Perm (v.data ++ other.data)) ∨
    ∃ e k, r = .error e ∧ Raises cmp e ∧ 0 < k ∧ k ≤ other.len ∧ v'.data.Perm (v.data ++ other.data.take k) := by
  have hres : v.reserve g (usize (v.len + other.len)) = .ok v := by
    have h1 : usize (v.len + other.len) = v.len + other.len := by unfold usize; omega
    have h2 : usize (v.len + (v.len + other.len)) = v.len + (v.len + other.len) := by unfold usize; omega
    unfold Vec.reserve
    rw [h1, h2, if_neg (by omega)]
  have key := pushAll_triple g cmp other.data v.data v s (List.Perm.refl _)
  have hrun : Unwind.append g cmp other (v, s) = Unwind.pushAll g cmp other.data (v, s) := by
    simp only [Unwind.append, Eff.bind_run, Unwind.get, Eff.lift_run, hres, Unwind.put]
  rw [← hrun, h] at key
  cases r with
  | error e =>
    obtain ⟨h1, k, h2, h3, h4⟩ := key
    exact .inr ⟨e, k, rfl, h1, h2, h3, h4⟩
  | ok r => exact .inl ⟨by rw [key.1], key.2⟩

theorem sortedLoop_triple (cmp : α → α → Eff σ Ordering) (N : Nat) (hN : N < 2 ^ 64) (fuel : Nat) :
    ∀ (done rest : List α) (w : Vec α) (idx : Nat), rest.length < fuel → done.length + rest.length = N →
      w.data.length = N → w.data.drop rest.length = done → (rest ≠ [] → idx = rest.length - 1) →
      Triple (Raises cmp) (Holds rest) (Unwind.sortedLoop cmp fuel w idx)
        (fun r v => ∃ w', r = some w' ∧ v.data = [] ∧ w'.data.Perm (done ++ rest))
        (fun v => ∃ lost, lost ≠ [] ∧ (v.data ++ lost).Perm (done ++ rest)) := by
  induction fuel with
  | zero => intro done rest w idx h; omega
  | succ fuel ih =>
    intro done rest w idx hf hn hw hd hi
    unfold Unwind.sortedLoop
    refine Triple.get_bind fun v hv => ?_
    by_cases he : rest = []
    · subst he
      have hv0 : v.data = [] := hv.eq_nil
      rw [if_neg (by simp [Vec.isEmpty_data, hv0])]
      refine Triple.pure ?_
      rintro u rfl
      exact ⟨w, rfl, hv0, by rw [← hd]; simp⟩
    · have hpos : 0 < rest.length := List.length_pos_iff.2 he
      have hv0 : v.data ≠ [] := fun h => he (by unfold Holds at hv; rw [h] at hv; exact hv.nil_eq.symm)
      rw [if_pos (by simp [Vec.isEmpty_data, hv0])]
      obtain ⟨m, tl, hmt⟩ : ∃ m tl, v.data = m :: tl := by
        cases hvd : v.data with
        | nil => exact absurd hvd hv0
        | cons a d => exact ⟨a, d, rfl⟩
      have hrest : rest.Perm (m :: tl) := by rw [← hmt]; exact hv.symm
      have hlen : rest.length = tl.length + 1 := by rw [hrest.length_eq]; rfl
      have hperm : ((m :: done) ++ tl).Perm (done ++ rest) :=
        (List.perm_middle (a := m) (l₁ := done) (l₂ := tl)).symm.trans (hrest.symm.append_left done)
      intro u s hu
      subst hu
      have hpop := pop_triple cmp u u s rfl
      rw [Eff.bind_run]
      rcases hr : Unwind.pop cmp (u, s) with ⟨e | r, u', s'⟩
      · rw [hr] at hpop
        obtain ⟨h1, x, l, h2, h3⟩ := hpop
        rw [hmt] at h2
        obtain ⟨rfl, rfl⟩ := List.cons.inj h2
        refine ⟨h1, m :: done, by simp, ?_⟩
        refine List.Perm.trans List.perm_append_comm (List.Perm.trans (List.Perm.append_left _ h3) hperm)
      · rw [hr] at hpop
        rcases hpop with ⟨h1, _⟩ | ⟨x, l, h1, h2, h3⟩
        · exact absurd h1 hv0
        · rw [hmt] at h1
          obtain ⟨rfl, rfl⟩ := List.cons.inj h1
          subst h2
          have hidx := hi he
          have hidx' : idx < w.data.length := by omega
          have hset : w.setUnchecked idx m = .ok ⟨w.data.set idx m, w.cap⟩ := by
            unfold Vec.setUnchecked; rw [setIndex_lt hidx']; rfl
          have hun : (Opt.some m).unwrap = .ok m := rfl
          simp only [Eff.bind_run, hun, Eff.lift_run, hset]
          have h4 : (w.data.set idx m).drop tl.length = m :: done := by
            have : idx = tl.length := by omega
            subst this
            rw [List.drop_set, if_neg (by omega), Nat.sub_self]
            rw [List.drop_eq_getElem_cons hidx', List.set_cons_zero, ← hd, hlen]
          have := ih (m :: done) tl ⟨w.data.set idx m, w.cap⟩ (usizeSub idx 1) (by omega)
            (by simp; omega) (by simpa using hw) h4
            (fun hne => by
              have : 0 < tl.length := List.length_pos_iff.2 hne
              unfold usizeSub; omega) u' s' h3
          split at this
          · next b t hb =>
            rw [hb]
            obtain ⟨w', h5, h6, h7⟩ := this
            exact ⟨w', h5, h6, h7.trans hperm⟩
          · next b t hb =>
            rw [hb]
            obtain ⟨h5, lost, h6, h7⟩ := this
            exact ⟨h5, lost, h6, h7.trans hperm⟩

/-- C132: IntoSortedVec with an arbitrary comparison: if it returns, the heap is empty and the result has its elements;
if it panics - which is a violation - some elements are neither in the heap nor anywhere else. -/
theorem C132_intoSorted_fails [Inhabited α] (cmp : α → α → Eff σ Ordering) (v v' : Vec α) (s s' : σ)
    (r : Except Panic (Option (Vec α))) (hsm : v.len < 2 ^ 63)
    (h : Unwind.intoSortedVec cmp (v, s) = (r, (v', s'))) :
    (∃ w, r = .ok (some w) ∧ v'.data = [] ∧ w.data.Perm v.data) ∨
    ∃ e lost, r = .error e ∧ Raises cmp e ∧ lost ≠ [] ∧ (v'.data ++ lost).Perm v.data := by
  have hw : (Vec.withLen v.len : Go (Vec α)) = .ok ⟨List.replicate v.len default, v.len⟩ := by
    simp only [Vec.withLen, makeLen, hsm, if_true]
    rfl
  have hlen : v.len = v.data.length := rfl
  have key := sortedLoop_triple cmp v.len (by omega) (v.len + 1) [] v.data ⟨List.replicate v.len default, v.len⟩
    (usizeSub v.len 1) (by omega) (by simp) (by simp) (by simp)
    (fun hne => by
      have : 0 < v.data.length := List.length_pos_iff.2 hne
      unfold usizeSub; omega) v s (List.Perm.refl _)
  have hrun : Unwind.intoSortedVec cmp (v, s) = Unwind.sortedLoop cmp (v.len + 1) ⟨List.replicate v.len default, v.len⟩
      (usizeSub v.len 1) (v, s) := by
    simp only [Unwind.intoSortedVec, Eff.bind_run, Unwind.get, Eff.lift_run, hw]
  rw [← hrun, h] at key
  cases r with
  | error e =>
    obtain ⟨h1, lost, h2, h3⟩ := key
    exact .inr ⟨e, lost, rfl, h1, h2, by simpa using h3⟩
  | ok r =>
    obtain ⟨w, h1, h2, h3⟩ := key
    exact .inl ⟨w, by rw [h1], h2, by simpa using h3⟩

/-! ### Examples -/

/-- A comparison that counts its calls and panics in the k-th. -/
def panicAt (k : Nat) (a b : Nat) : Eff Nat Ordering := fun n =>
  if n = k then (.error (.explicit), n + 1) else (.ok (compare a b), n + 1)

theorem panicAt_answers (k : Nat) : Answers (panicAt k) compare := by
  intro a b s o s' h
  unfold panicAt at h
  by_cases hk : s = k
  · rw [if_pos hk] at h; cases h
  · rw [if_neg hk] at h
    injection h with h _
    injection h with h
    exact h.symm


/-- The comparison of the second Push panics: 9 is in the heap (C132_heap_bag: two elements), but the next Pop gives 7
(C132_push_fails). -/
example : runRecover (Unwind.step doubling (panicAt 0)) [.push 7, .push 9, .asSlice, .pop, .asSlice] (⟨[], 0⟩, 0) =
    ([.ok (some .unit), .error .explicit, .ok (some (.other [7, 9])), .ok (some (.opt (some 7))),
      .ok (some (.other [9]))], (⟨[9], 2⟩, 1)) := by decide +kernel
example : ∀ p, (panicAt 0 9 p 0).1 = .error .explicit := fun _ => rfl
/-- A Pop that panics loses 9 (C132_pop_fails), and a Push that panics half way up (C132_push_order). -/
example : runRecover (Unwind.step doubling (panicAt 3)) [.push 9, .push 7, .push 4, .pop, .asSlice] (⟨[], 0⟩, 1) =
    ([.ok (some .unit), .ok (some .unit), .ok (some .unit), .error .explicit, .ok (some (.other [7, 4]))],
      (⟨[7, 4], 4⟩, 4)) := by decide +kernel
example : IsHeap compare heap5.vec.data ∧ (Unwind.push doubling (panicAt 1) 8 (heap5.vec, 0)).1 = .error .explicit ∧
    (Unwind.push doubling (panicAt 1) 8 (heap5.vec, 0)).2.1.data = [9, 7, 8, 1, 3, 4] ∧
    (Unwind.push doubling (panicAt 1) 10 (heap5.vec, 0)).2.1.data = [9, 7, 10, 1, 3, 4] :=
  ⟨heap5_isHeap, by decide +kernel, by decide +kernel, by decide +kernel⟩
/-- Without a panic (C132_heap_answered). -/
example : Answers (panicAt 9) compare ∧ TotalCmp (compare : Nat → Nat → Ordering) ∧
    (Unwind.step doubling (panicAt 9) .pop (heap5.vec, 0)).1 = .ok (some (.opt (some 9))) :=
  ⟨panicAt_answers 9, natTotal, by decide +kernel⟩
example : 3 ≤ heap5.vec.data.length ∧ (Unwind.pop (fun _ _ s => (.error .explicit, s) : Nat → Nat → Eff Nat Ordering)
    (heap5.vec, 0)).1 = .error .explicit := ⟨by decide, by decide +kernel⟩
/-- Append adds one of two elements (C132_append). -/
example : (Unwind.append doubling (panicAt 0) ⟨[5, 2], 2⟩ (⟨[9, 7, 4], 8⟩, 0)).1 = .error .explicit ∧
    (Unwind.append doubling (panicAt 0) ⟨[5, 2], 2⟩ (⟨[9, 7, 4], 8⟩, 0)).2.1.data = [9, 7, 4, 5] := by decide +kernel
/-- IntoSortedVec loses 9 and 7 (C132_intoSorted_fails). -/
example : (Unwind.intoSortedVec (panicAt 3) (heap5.vec, 0)).1 = .error .explicit ∧
    (Unwind.intoSortedVec (panicAt 3) (heap5.vec, 0)).2.1.data = [1, 3, 4] := by decide +kernel

end Gost
