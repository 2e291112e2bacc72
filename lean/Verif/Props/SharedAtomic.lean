import Verif.Props.SharedObject
import Verif.Props.BinaryHeap
import Verif.Props.HashMap
/-
Property C168: a BinaryHeap behind a Mutex is a priority queue, a HashMap behind a Mutex a table of claims.
-/
namespace Gost
open Conc Tx Spec
namespace Shared
variable {S A O R : Type}

/-! ### Specification -/

/-- Calls of an object that is specified by `sp` (which results and next values a call may have), executed one at a time: which goroutine
called what, and the result. -/
inductive Atomic (sp : O → A → R → A → Prop) (cs : List (Caller O R)) (a : A) : List (Nat × O × R) → List (Caller O R) → A → Prop
  | nil : Atomic sp cs a [] cs a
  | call {calls : List (Nat × O × R)} {cs' : List (Caller O R)} {a' a'' : A} {i : Nat} {o : O} {k : R → Caller O R} {r : R}
      (h : Atomic sp cs a calls cs' a') (hi : cs'[i]? = some (.call o k)) (ho : sp o a' r a'') :
      Atomic sp cs a (calls ++ [(i, o, r)]) (cs'.set i (k r)) a''

/-- What the program shows of a call that returned. -/
def returned (c : Nat × O × R) : Nat × Val S R := (c.1, .inr (some c.2.2))

theorem OneByOne.atomic {step : O → S → Option (S × R)} {sp : O → A → R → A → Prop} {Abs : Nat → S → A → Prop}
    (hstep : ∀ n s a o, Abs (n + 1) s a → ∃ s' r a', step o s = some (s', r) ∧ sp o a r a' ∧ Abs n s' a')
    {cs cs' : List (Caller O R)} {s s' : S} {calls : List (Nat × O × Option R)} (h : OneByOne step cs s calls cs' s') :
    ∀ n a, Abs (calls.length + n) s a → ∃ calls' a', Atomic sp cs a calls' cs' a' ∧
      calls.map (shown (S := S)) = calls'.map returned ∧ Abs n s' a' := by
  induction h with
  | nil => exact fun n a ha => ⟨[], a, .nil, rfl, by simpa using ha⟩
  | @returns calls cs1 s1 s2 i o k r _ hi ho ih =>
    intro n a ha
    obtain ⟨c', a1, h1, h2, h3⟩ := ih (n + 1) a (by
      rw [List.length_append, List.length_singleton] at ha
      rwa [show calls.length + (n + 1) = calls.length + 1 + n from by omega])
    obtain ⟨s', r', a', e1, e2, e3⟩ := hstep n _ _ o h3
    rw [e1] at ho
    cases ho
    exact ⟨_, a', .call h1 hi e2, by simp [h2, shown, returned], e3⟩
  | @panics calls cs1 s1 i o k _ hi ho ih =>
    intro n a ha
    obtain ⟨c', a1, h1, h2, h3⟩ := ih (n + 1) a (by
      rw [List.length_append, List.length_singleton] at ha
      rwa [show calls.length + (n + 1) = calls.length + 1 + n from by omega])
    obtain ⟨s', r', a', e1, e2, e3⟩ := hstep n _ _ o h3
    rw [e1] at ho
    cases ho

end Shared
open Shared
variable {S A O R : Type}

/-- **C168.** Let every method of a collection do what `sp` says, and not panic, as long as some calls are left (`Abs n s a`: the
collection `s` stands for the value `a`, and this will be so for `n` more calls).  Then behind a Mutex it is an atomic object with that
specification: under every schedule the results are those of executing the calls one at a time as `sp` says, each goroutine's in its order,
and whenever nobody holds the Mutex the collection stands for the value after these calls. -/
theorem C168_atomic (step : O → S → Option (S × R)) (sp : O → A → R → A → Prop) (Abs : Nat → S → A → Prop)
    (hstep : ∀ n s a o, Abs (n + 1) s a → ∃ s' r a', step o s = some (s', r) ∧ sp o a r a' ∧ Abs n s' a')
    (s0 : S) (a0 : A) (cs : List (Caller O R)) {tr : List (Nat × Val S R)} {s : Config (Val S R) (Nat × Val S R)}
    (h : Run (shared step s0 cs) tr s) (h0 : Abs tr.length s0 a0) :
    s.crashed = false ∧ ∃ calls cs' a', Atomic sp cs a0 calls cs' a' ∧ tr = calls.map returned ∧
      (s.locks 0 = false → ∃ s', s.vars 0 = .inl s' ∧ Abs 0 s' a') := by
  obtain ⟨hc, calls, cs', s', h1, rfl, h3⟩ := C160_linearizable _ _ _ h
  obtain ⟨calls', a', b1, b2, b3⟩ := h1.atomic hstep 0 a0 (by simpa using h0)
  exact ⟨hc, calls', cs', a', b1, b2, fun hl => ⟨s', h3 hl, b3⟩⟩

/-! ### A BinaryHeap as a priority queue -/

variable {α : Type}

/-- The values pushed by the calls, in order. -/
def Spec.heapPushes (calls : List (Nat × HeapOp α × Obs α)) : List α :=
  calls.filterMap fun c => match c.2.1 with | .push v => some v | _ => none

/-- The values returned by Pop, in order. -/
def Spec.heapPops (calls : List (Nat × HeapOp α × Obs α)) : List α :=
  calls.filterMap fun c => match c.2.1, c.2.2 with | .pop, .opt (some v) => some v | _, _ => none

theorem Spec.heapPushes_append (a b : List (Nat × HeapOp α × Obs α)) : heapPushes (a ++ b) = heapPushes a ++ heapPushes b := by
  simp [heapPushes]

theorem Spec.heapPops_append (a b : List (Nat × HeapOp α × Obs α)) : heapPops (a ++ b) = heapPops a ++ heapPops b := by
  simp [heapPops]

/-- The calls of an atomic heap are a run of `HeapStep`. -/
inductive Spec.HeapCalls (cmp : α → α → Ordering) : List α → List (Nat × HeapOp α × Obs α) → List α → Prop
  | nil {bag : List α} : HeapCalls cmp bag [] bag
  | cons {bag bag1 bag2 : List α} {i : Nat} {o : HeapOp α} {r : Obs α} {cs : List (Nat × HeapOp α × Obs α)} :
      HeapStep cmp o bag r bag1 → HeapCalls cmp bag1 cs bag2 → HeapCalls cmp bag ((i, o, r) :: cs) bag2

theorem Spec.HeapCalls.snoc {cmp : α → α → Ordering} {bag bag1 bag2 : List α} {cs : List (Nat × HeapOp α × Obs α)} {i : Nat} {o : HeapOp α}
    {r : Obs α} (h : HeapCalls cmp bag cs bag1) (hs : HeapStep cmp o bag1 r bag2) : HeapCalls cmp bag (cs ++ [(i, o, r)]) bag2 := by
  induction h with
  | nil => exact .cons hs .nil
  | cons h1 _ ih => exact .cons h1 (ih hs)

theorem Shared.Atomic.heapCalls {cmp : α → α → Ordering} {cs cs' : List (Caller (HeapOp α) (Obs α))} {bag bag' : List α}
    {calls : List (Nat × HeapOp α × Obs α)} (h : Atomic (HeapStep cmp) cs bag calls cs' bag') : HeapCalls cmp bag calls bag' := by
  induction h with
  | nil => exact .nil
  | call _ _ ho ih => exact ih.snoc ho

theorem Spec.HeapCalls.split {cmp : α → α → Ordering} {a b : List (Nat × HeapOp α × Obs α)} {bag bag' : List α}
    (h : HeapCalls cmp bag (a ++ b) bag') : ∃ bag1, HeapCalls cmp bag a bag1 ∧ HeapCalls cmp bag1 b bag' := by
  induction a generalizing bag with
  | nil => exact ⟨bag, .nil, h⟩
  | cons c a ih =>
    cases h with
    | cons h1 h2 =>
      obtain ⟨bag1, h3, h4⟩ := ih h2
      exact ⟨bag1, .cons h1 h3, h4⟩

/-- Nothing is lost and nothing returned twice. -/
theorem Spec.HeapCalls.conserve {cmp : α → α → Ordering} {calls : List (Nat × HeapOp α × Obs α)} {bag bag' : List α}
    (h : HeapCalls cmp bag calls bag') (hn : ∀ c ∈ calls, c.2.1 ≠ .clear) :
    (bag ++ heapPushes calls).Perm (heapPops calls ++ bag') := by
  induction h with
  | nil => simp [heapPushes, heapPops]
  | @cons bag bag1 bag2 i o r cs h1 _ ih =>
    have ih := ih fun c hc => hn c (List.mem_cons_of_mem _ hc)
    have ho := hn _ List.mem_cons_self
    rw [show (i, o, r) :: cs = [(i, o, r)] ++ cs from rfl, heapPushes_append, heapPops_append]
    cases h1 with
    | @push v _ _ hp =>
      have e1 : heapPushes [(i, HeapOp.push v, Obs.unit)] = [v] := rfl
      have e2 : heapPops [(i, HeapOp.push v, Obs.unit)] = [] := rfl
      rw [e1, e2, List.nil_append]
      refine List.Perm.trans ?_ ih
      rw [← List.append_assoc]
      exact List.Perm.append_right _ ((List.perm_append_comm).trans hp.symm)
    | popNone => exact ih
    | @popSome m _ _ hp hm =>
      have e1 : heapPushes [(i, (HeapOp.pop : HeapOp α), Obs.opt (some m))] = [] := rfl
      have e2 : heapPops [(i, HeapOp.pop, Obs.opt (some m))] = [m] := rfl
      rw [e1, e2, List.nil_append]
      refine (List.Perm.append_right _ hp).trans ?_
      exact List.Perm.cons m ih
    | clear => exact absurd rfl ho
    | len => exact ih
    | isEmpty => exact ih
    | asSlice _ => exact ih

/-- As long as nothing is pushed, what is in the heap was there, and what is popped comes in descending order. -/
theorem Spec.HeapCalls.descending {cmp : α → α → Ordering} {calls : List (Nat × HeapOp α × Obs α)} {bag bag' : List α}
    (h : HeapCalls cmp bag calls bag') (hn : heapPushes calls = []) :
    (∀ x ∈ heapPops calls, x ∈ bag) ∧ (heapPops calls).Pairwise fun x y => cmpLe cmp y x := by
  induction h with
  | nil => simp [heapPops]
  | @cons bag bag1 bag2 i o r cs h1 _ ih =>
    rw [show (i, o, r) :: cs = [(i, o, r)] ++ cs from rfl, heapPushes_append, List.append_eq_nil_iff] at hn
    obtain ⟨i1, i2⟩ := ih hn.2
    rw [show (i, o, r) :: cs = [(i, o, r)] ++ cs from rfl, heapPops_append]
    cases h1 with
    | push hp => exact absurd hn.1 (by simp [heapPushes])
    | popNone => exact ⟨fun x hx => i1 x hx, i2⟩
    | @popSome m _ _ hp hm =>
      have e2 : heapPops [(i, HeapOp.pop, Obs.opt (some m))] = [m] := rfl
      rw [e2, List.singleton_append]
      have hsub : ∀ x ∈ heapPops cs, x ∈ bag := fun x hx => hp.symm.subset (List.mem_cons_of_mem _ (i1 x hx))
      refine ⟨fun x hx => ?_, List.pairwise_cons.2 ⟨fun x hx => hm x (hsub x hx), i2⟩⟩
      rcases List.mem_cons.1 hx with rfl | hx
      · exact hp.symm.subset List.mem_cons_self
      · exact hsub x hx
    | clear => exact ⟨fun x hx => absurd (i1 x hx) (by simp), i2⟩
    | len => exact ⟨i1, i2⟩
    | isEmpty => exact ⟨i1, i2⟩
    | asSlice _ => exact ⟨i1, i2⟩

/-- One call on a heap, whatever the others have done. -/
theorem BHeap.step_heap (g : Growth) (cmp : α → α → Ordering) (hc : TotalCmp cmp) (o : HeapOp α) (s : BHeap α)
    (hs : IsHeap cmp s.vec.data) : ∃ s' r, BHeap.step g cmp o s = some (s', r) ∧ HeapStep cmp o s.vec.data r s'.vec.data ∧
      IsHeap cmp s'.vec.data := by
  obtain ⟨rs, s', h1, h2, h3⟩ := C66_heap_history g cmp hc [o] s hs
  simp only [Spec.runOps] at h1
  split at h1
  · cases h1
  · next s1 r he =>
    simp only [Prod.mk.injEq, Option.some.injEq] at h1
    obtain ⟨rfl, rfl⟩ := h1
    cases h3 with
    | cons h4 h5 =>
      cases h5
      exact ⟨s1, r, he, h4, h2⟩

/-- **C168.** A BinaryHeap behind a Mutex is a priority queue for any number of producers and consumers, whatever the schedule: no call
panics, and there is one order of all calls, consistent with each goroutine's own, such that, as long as nobody calls Clear,
* the values popped and those left are the values that were in the heap and those pushed: none is lost and none returned twice;
* every Pop that returned a value returned one that was in the heap at that moment and not less than any other there;
* Pop returned None only when everything pushed before had been taken;
* between two pushes the values popped, by whomever, come in descending order;
* whenever nobody holds the Mutex the heap has exactly the values left (and is a heap, so that all this goes on). -/
theorem C168_priority_queue (g : Growth) (cmp : α → α → Ordering) (hc : TotalCmp cmp) (q : BHeap α) (hq : IsHeap cmp q.vec.data)
    (cs : List (Caller (HeapOp α) (Obs α))) {tr : List (Nat × Val (BHeap α) (Obs α))}
    {s : Config (Val (BHeap α) (Obs α)) (Nat × Val (BHeap α) (Obs α))} (h : Run (shared (BHeap.step g cmp) q cs) tr s) :
    s.crashed = false ∧ ∃ calls cs' bag, Atomic (HeapStep cmp) cs q.vec.data calls cs' bag ∧ tr = calls.map returned ∧
      (s.locks 0 = false → ∃ q', s.vars 0 = .inl q' ∧ q'.vec.data = bag ∧ IsHeap cmp q'.vec.data) ∧
      ((∀ c ∈ calls, c.2.1 ≠ .clear) →
        (q.vec.data ++ heapPushes calls).Perm (heapPops calls ++ bag) ∧
        (∀ a b i m, calls = a ++ (i, .pop, .opt (some m)) :: b → ∃ now, (q.vec.data ++ heapPushes a).Perm (heapPops a ++ now) ∧
          m ∈ now ∧ ∀ x ∈ now, cmpLe cmp x m) ∧
        (∀ a b i, calls = a ++ (i, .pop, .opt none) :: b → (q.vec.data ++ heapPushes a).Perm (heapPops a)) ∧
        (∀ a b c, calls = a ++ b ++ c → heapPushes b = [] → (heapPops b).Pairwise fun x y => cmpLe cmp y x)) := by
  obtain ⟨h0, calls, cs', bag, h1, h2, h3⟩ := C168_atomic (BHeap.step g cmp) (HeapStep cmp)
    (fun _ (t : BHeap α) bag => t.vec.data = bag ∧ IsHeap cmp t.vec.data) (fun n t bag o ht => by
      obtain ⟨rfl, ht⟩ := ht
      obtain ⟨t', r, e1, e2, e3⟩ := BHeap.step_heap g cmp hc o t ht
      exact ⟨t', r, _, e1, e2, rfl, e3⟩) q q.vec.data cs h ⟨rfl, hq⟩
  have hr := h1.heapCalls
  refine ⟨h0, calls, cs', bag, h1, h2, h3, fun hn => ⟨hr.conserve hn, ?_, ?_, ?_⟩⟩
  · rintro a b i m rfl
    obtain ⟨now, r1, r2⟩ := hr.split
    refine ⟨now, r1.conserve fun c hc => hn c (List.mem_append_left _ hc), ?_⟩
    cases r2 with
    | cons hs _ =>
      cases hs with
      | popSome hp hm => exact ⟨hp.symm.subset List.mem_cons_self, hm⟩
  · rintro a b i rfl
    obtain ⟨now, r1, r2⟩ := hr.split
    have := r1.conserve fun c hc => hn c (List.mem_append_left _ hc)
    cases r2 with
    | cons hs _ =>
      cases hs with
      | popNone => simpa using this
  · rintro a b c rfl hb
    obtain ⟨_, r1, _⟩ := hr.split
    obtain ⟨_, _, r2⟩ := r1.split
    exact (r2.descending hb).2

/-! ### A HashMap as a table -/

variable {κ ν : Type} [GoKey κ]

/-- What is stored for the key after the calls, when `x` was stored before: the value of the last Insert for an equal key, unless it was
removed since. -/
def Spec.latest (key : κ) (x : Option ν) (calls : List (Nat × HOp κ ν × Obs ν)) : Option ν :=
  calls.foldl (fun x c => match c.2.1 with
    | .insert k v => if GoKey.eq key k then some v else x
    | .remove k => if GoKey.eq key k then none else x
    | .clear => none
    | _ => x) x

/-- What a call returns that finds `x` for its key. -/
def Spec.answers (x : Option ν) : HOp κ ν → Obs ν → Prop
  | .insert _ _, r => r = .opt x
  | .remove _, r => r = .opt x
  | .get _, r => r = .opt x
  | .containsKey _, r => r = .bool x.isSome
  | _, _ => True

/-- The key a call is about. -/
def HOp.key : HOp κ ν → Option κ
  | .insert k _ => some k
  | .remove k => some k
  | .get k => some k
  | .containsKey k => some k
  | _ => none

/-- The library's HashMap operations, with panics as `none`. -/
def HMap.stepOpt (o : HOp κ ν) (s : MapHeap κ ν × HMap) : Option ((MapHeap κ ν × HMap) × Obs ν) := Go.toOption (HMap.step o s)

theorem Shared.Atomic.mapCalls {cs cs' : List (Caller (HOp κ ν) (Obs ν))} {f f' : FMap κ ν}
    {calls : List (Nat × HOp κ ν × Obs ν)}
    (h : Atomic (fun o f r f' => (f', r) = Spec.mapStep o f) cs f calls cs' f') :
    (∀ k, f'.get k = latest k (f.get k) calls) ∧
    ∀ a b i o r, calls = a ++ (i, o, r) :: b → ∀ k, o.key = some k → answers (latest k (f.get k) a) o r := by
  induction h with
  | nil => exact ⟨fun k => rfl, by simp⟩
  | @call calls cs1 f1 f2 i o k r _ hi ho ih =>
    obtain ⟨i1, i2⟩ := ih
    refine ⟨fun key => ?_, ?_⟩
    · simp only [latest, List.foldl_append, List.foldl_cons, List.foldl_nil] at i1 ⊢
      rw [← i1 key]
      cases o <;> simp only [Spec.mapStep, Prod.mk.injEq] at ho <;> obtain ⟨rfl, rfl⟩ := ho <;> rfl
    · intro a b j o' r' hab key hk
      rcases List.eq_nil_or_concat b with rfl | ⟨b', z, rfl⟩
      · obtain ⟨rfl, h2⟩ := List.append_inj' hab rfl
        simp only [List.cons.injEq, Prod.mk.injEq, and_true] at h2
        obtain ⟨rfl, rfl, rfl⟩ := h2
        rw [← i1 key]
        cases o <;> simp only [Spec.mapStep, Prod.mk.injEq] at ho <;> obtain ⟨rfl, rfl⟩ := ho <;>
          simp only [HOp.key, Option.some.injEq, reduceCtorEq] at hk <;> subst hk <;> rfl
      · rw [List.concat_eq_append, ← List.cons_append, ← List.append_assoc] at hab
        exact i2 a b' j o' r' (List.append_inj' hab rfl).1 key hk

variable [LawfulGoKey κ]

/-- **C168.** A HashMap behind a Mutex is an atomic table: whatever the schedule, as long as there are fewer than 2^64 entries and calls, no
call panics, and there is one order of all calls, consistent with each goroutine's own, such that every Insert, Remove, Get and ContainsKey
returns what the last Insert before it, by whichever goroutine, stored for an equal key, unless that was removed since; whenever nobody holds
the Mutex the map has exactly these entries. -/
theorem C168_map (h : MapHeap κ ν) (m : HMap) (f : FMap κ ν) (hm : m.Rep h f) (cs : List (Caller (HOp κ ν) (Obs ν)))
    {tr : List (Nat × Val (MapHeap κ ν × HMap) (Obs ν))}
    {s : Config (Val (MapHeap κ ν × HMap) (Obs ν)) (Nat × Val (MapHeap κ ν × HMap) (Obs ν))}
    (hr : Run (shared HMap.stepOpt (h, m) cs) tr s) (hsz : f.size + tr.length < 2 ^ 64) :
    s.crashed = false ∧ ∃ calls cs' f', Atomic (fun o f r f' => (f', r) = Spec.mapStep o f) cs f calls cs' f' ∧ tr = calls.map returned ∧
      (∀ a b i o r, calls = a ++ (i, o, r) :: b → ∀ k, o.key = some k → answers (latest k (f.get k) a) o r) ∧
      (∀ k, f'.get k = latest k (f.get k) calls) ∧
      (s.locks 0 = false → ∃ h' m', s.vars 0 = .inl (h', m') ∧ m'.Rep h' f') := by
  obtain ⟨h0, calls, cs', f', h1, h2, h3⟩ := C168_atomic (HMap.stepOpt (κ := κ) (ν := ν)) (fun o f r f' => (f', r) = Spec.mapStep o f)
    (fun n t f => t.2.Rep t.1 f ∧ f.size + n < 2 ^ 64) (fun n t f o ht => by
      obtain ⟨ht, hs⟩ := ht
      obtain ⟨h', m', e1, e2, -⟩ := HMap.step_refines o t.1 t.2 f ht (by omega)
      refine ⟨(h', m'), _, _, by rw [HMap.stepOpt, e1]; rfl, rfl, e2, ?_⟩
      have : (Spec.mapStep o f).1.size ≤ f.size + 1 := by
        cases o <;> simp only [Spec.mapStep, FMap.insert, FMap.remove, FMap.empty] <;> try split <;> omega
        all_goals omega
      show (Spec.mapStep o f).1.size + n < 2 ^ 64
      omega) (h, m) f cs hr ⟨hm, hsz⟩
  obtain ⟨k1, k2⟩ := h1.mapCalls
  exact ⟨h0, calls, cs', f', h1, h2, k2, k1, fun hl => by
    obtain ⟨⟨h', m'⟩, e1, e2, -⟩ := h3 hl
    exact ⟨h', m', e1, e2⟩⟩

omit [LawfulGoKey κ] in
theorem Spec.latest_claims {key : κ} {calls : List (Nat × HOp κ ν × Obs ν)}
    (hn : ∀ c ∈ calls, c.2.1 ≠ .clear ∧ ∀ k, c.2.1 = .remove k → GoKey.eq key k = false) (x : Option ν) :
    latest key x calls = none ↔ x = none ∧ ∀ c ∈ calls, ∀ k v, c.2.1 = .insert k v → GoKey.eq key k = false := by
  induction calls generalizing x with
  | nil => simp [latest]
  | cons c calls ih =>
    have ih := ih fun d hd => hn d (List.mem_cons_of_mem _ hd)
    have hc := hn c List.mem_cons_self
    have e : latest key x (c :: calls) = latest key (latest key x [c]) calls := rfl
    rw [e, ih, List.forall_mem_cons]
    obtain ⟨i, o, r⟩ := c
    cases o with
    | insert k v =>
      simp only [latest, List.foldl_cons, List.foldl_nil, HOp.insert.injEq]
      cases hk : GoKey.eq key k with
      | true =>
        rw [if_pos rfl]
        constructor
        · rintro ⟨h, _⟩; cases h
        · rintro ⟨_, h, _⟩
          have := h k v ⟨rfl, rfl⟩
          rw [hk] at this; cases this
      | false =>
        rw [if_neg (by simp)]
        exact ⟨fun ⟨a, b⟩ => ⟨a, fun k' v' h => by rw [← h.1]; exact hk, b⟩, fun ⟨a, _, b⟩ => ⟨a, b⟩⟩
    | remove k =>
      have := hc.2 k rfl
      simp [latest, this]
    | clear => exact absurd rfl hc.1
    | get k => simp [latest]
    | containsKey k => simp [latest]
    | len => simp [latest]
    | isEmpty => simp [latest]

/-- **C168.** Claims.  When a key is not in the map and nobody calls Remove for it or Clear, then of all Inserts for the key (or an equal
one), by however many goroutines and under every schedule, exactly the first gets None: exactly one goroutine wins the key. -/
theorem C168_claim (h : MapHeap κ ν) (m : HMap) (f : FMap κ ν) (hm : m.Rep h f) (cs : List (Caller (HOp κ ν) (Obs ν)))
    {tr : List (Nat × Val (MapHeap κ ν × HMap) (Obs ν))}
    {s : Config (Val (MapHeap κ ν × HMap) (Obs ν)) (Nat × Val (MapHeap κ ν × HMap) (Obs ν))}
    (hr : Run (shared HMap.stepOpt (h, m) cs) tr s) (hsz : f.size + tr.length < 2 ^ 64) :
    ∃ calls cs' f', Atomic (fun o f r f' => (f', r) = Spec.mapStep o f) cs f calls cs' f' ∧ tr = calls.map returned ∧
      ∀ key, f.get key = none → (∀ c ∈ calls, c.2.1 ≠ .clear ∧ ∀ k, c.2.1 = .remove k → GoKey.eq key k = false) →
        ∀ a b i k v r, calls = a ++ (i, .insert k v, r) :: b → GoKey.eq key k = true →
          (r = .opt none ↔ ∀ c ∈ a, ∀ k' v', c.2.1 = .insert k' v' → GoKey.eq key k' = false) := by
  obtain ⟨_, calls, cs', f', h1, h2, h3, _, _⟩ := C168_map h m f hm cs hr hsz
  refine ⟨calls, cs', f', h1, h2, ?_⟩
  rintro key hf hn a b i k v r rfl hk
  have hans := h3 a b i _ r rfl k rfl
  simp only [answers] at hans
  have he : ∀ x, GoKey.eq k x = GoKey.eq key x := fun x => by
    apply Bool.eq_iff_iff.2
    exact ⟨fun h => LawfulGoKey.trans _ _ _ hk h, fun h => LawfulGoKey.trans _ _ _ (LawfulGoKey.symm _ _ hk) h⟩
  have hfk : f.get k = none := by
    obtain ⟨_, es, _, _, hen⟩ := hm
    cases hg : f.get k with
    | none => rfl
    | some w =>
      obtain ⟨e, e1, e2, e3⟩ := (hen.entries k w).1 hg
      rw [(hen.entries key w).2 ⟨e, e1, by rw [← he]; exact e2, e3⟩] at hf
      cases hf
  rw [hans, hfk, Obs.opt.injEq]
  rw [Spec.latest_claims (fun c hc => ⟨(hn c (List.mem_append_left _ hc)).1, fun k' hk' => by
    rw [he]; exact (hn c (List.mem_append_left _ hc)).2 k' hk'⟩)]
  simp only [he, true_and]

/-! Examples: two goroutines push, two pop; two goroutines claim the same key. -/

/-- Pushes the values. -/
def heapProducer : List Nat → Caller (HeapOp Nat) (Obs Nat)
  | [] => .stop
  | v :: vs => .call (.push v) fun _ => heapProducer vs

/-- Pops until the heap is empty, at most `n` times. -/
def heapConsumer : Nat → Caller (HeapOp Nat) (Obs Nat)
  | 0 => .stop
  | n + 1 => .call .pop fun r => match r with | .opt (some _) => heapConsumer n | _ => .stop

/-- The new heap meets the hypothesis, and the greatest value comes first, whoever pushed it. -/
example : IsHeap (compare : Nat → Nat → Ordering) (BHeap.new : BHeap Nat).vec.data ∧
    ∃ calls cs' q', OneByOne (BHeap.step doubling (compare : Nat → Nat → Ordering)) [heapProducer [3, 1], heapProducer [7], heapConsumer 9,
        heapConsumer 9] (BHeap.new : BHeap Nat) calls cs' q' ∧
      calls.map (fun c => (c.1, c.2.2)) = [(0, some .unit), (1, some .unit), (2, some (.opt (some 7))), (3, some (.opt (some 3))),
        (0, some .unit), (3, some (.opt (some 1))), (2, some (.opt none))] :=
  ⟨by intro i x y _ hx; simp [BHeap.new, Vec.new] at hx, _, _, _, .returns (i := 2) (.returns (i := 3) (.returns (i := 0) (.returns (i := 3)
    (.returns (i := 2) (.returns (i := 1) (.returns (i := 0) .nil rfl rfl) rfl rfl) rfl rfl) rfl rfl) rfl rfl) rfl rfl) rfl rfl, rfl⟩

/-- Claims a key with its own number and looks whom it belongs to. -/
def claimer (key n : Int) : Caller (HOp Int Int) (Obs Int) :=
  .call (.insert key n) fun _ => .call (.get key) fun _ => .stop

/-- A new map meets the hypotheses; the second claim finds the first one's number. -/
example : (HMap.new ([] : MapHeap Int Int)).2.Rep (HMap.new ([] : MapHeap Int Int)).1 FMap.empty ∧
    ∃ calls cs' t, OneByOne HMap.stepOpt [claimer 5 10, claimer 5 20] (HMap.new ([] : MapHeap Int Int)) calls cs' t ∧
      calls.map (fun c => (c.1, c.2.2)) = [(1, some (.opt none)), (0, some (.opt (some 20))), (1, some (.opt (some 10))),
        (0, some (.opt (some 10)))] :=
  ⟨HMap.new_rep _, _, _, _, .returns (i := 0) (.returns (i := 1) (.returns (i := 0) (.returns (i := 1) .nil rfl rfl) rfl rfl) rfl rfl) rfl rfl, rfl⟩

end Gost
