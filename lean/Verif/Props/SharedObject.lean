import Verif.Props.Transactions
import Verif.Props.VecDeque
/-
Property C160: a collection behind a Mutex, used by any number of goroutines.
-/
namespace Gost
open Conc Tx
namespace Shared
variable {S O R : Type}

/-! ### Programs -/

/-- A goroutine that calls methods of the shared collection; what it calls next may depend on the results. -/
inductive Caller (O R : Type) where
  | stop
  | call (o : O) (k : R → Caller O R)

/-- What the variables of the program hold: the collection, or the result of a call (`none`: it panicked). -/
abbrev Val (S R : Type) := S ⊕ Option R

/-- One call on `*p`, where `p` was returned by Lock: the method `step o` reads the collection, changes it and gives a result. -/
def callBody (step : O → S → Option (S × R)) (o : O) : Body (Val S R) :=
  .get 0 fun v =>
    match v with
    | .inl s => match step o s with
      | some (s', r) => .put 0 (.inl s') (.ret (.inr (some r)))
      | none => .ret (.inr none)
    | .inr _ => .ret (.inr none)

/-- `p := m.Lock(); r := p.Method(...); m.Unlock()` for each call.  (After a call that panicked nothing of the program goes on; here
only this goroutine stops, so that the executions of the program are among those considered.) -/
def Caller.client (step : O → S → Option (S × R)) : Caller O R → Client (Val S R)
  | .stop => .stop
  | .call o k => .txn ⟨[0], callBody step o, [0]⟩ fun v =>
      match v with
      | .inr (some r) => (k r).client step
      | _ => .stop

/-- The program: a Mutex made with `s0`, and the goroutines. -/
def shared (step : O → S → Option (S × R)) (s0 : S) (cs : List (Caller O R)) : Config (Val S R) (Nat × Val S R) :=
  program (fun _ => .inl s0) (cs.map (Caller.client step))

/-! ### Specification -/

/-- The calls executed one at a time: which goroutine called what, and the result. -/
inductive OneByOne (step : O → S → Option (S × R)) (cs : List (Caller O R)) (s : S) :
    List (Nat × O × Option R) → List (Caller O R) → S → Prop
  | nil : OneByOne step cs s [] cs s
  | returns {calls : List (Nat × O × Option R)} {cs' : List (Caller O R)} {s' s'' : S} {i : Nat} {o : O} {k : R → Caller O R} {r : R}
      (h : OneByOne step cs s calls cs' s') (hi : cs'[i]? = some (.call o k)) (ho : step o s' = some (s'', r)) :
      OneByOne step cs s (calls ++ [(i, o, some r)]) (cs'.set i (k r)) s''
  | panics {calls : List (Nat × O × Option R)} {cs' : List (Caller O R)} {s' : S} {i : Nat} {o : O} {k : R → Caller O R}
      (h : OneByOne step cs s calls cs' s') (hi : cs'[i]? = some (.call o k)) (ho : step o s' = none) :
      OneByOne step cs s (calls ++ [(i, o, none)]) (cs'.set i .stop) s'

/-- What the program shows of a call. -/
def shown (c : Nat × O × Option R) : Nat × Val S R := (c.1, .inr c.2.2)

/-! ### Proofs -/

theorem client_ok (step : O → S → Option (S × R)) (c : Caller O R) :
    (c.client step).All fun t => t.Ok ∧ t.Ordered id := by
  induction c with
  | stop => simp only [Caller.client, Client.All]
  | call o k ih =>
    simp only [Caller.client, Client.All]
    refine ⟨⟨⟨by simp, ⟨by simp, fun v => ?_⟩, List.Perm.refl _⟩, by simp [Txn.Ordered]⟩, fun v => ?_⟩
    · rcases v with s | r
      · simp only
        cases step o s with
        | none => trivial
        | some p => exact ⟨by simp, trivial⟩
      · trivial
    · rcases v with s | _ | r
      · trivial
      · trivial
      · exact ih r

theorem clients_ok (step : O → S → Option (S × R)) (cs : List (Caller O R)) :
    ∀ c ∈ cs.map (Caller.client step), c.All fun t => t.Ok ∧ t.Ordered id := by
  intro c hc
  obtain ⟨d, _, rfl⟩ := List.mem_map.1 hc
  exact client_ok step d

theorem Client.All.imp {V : Type} {P Q : Txn V → Prop} (h : ∀ t, P t → Q t) : ∀ c : Client V, c.All P → c.All Q
  | .stop, _ => trivial
  | .txn _ k, hc => ⟨h _ hc.1, fun v => Client.All.imp h (k v) (hc.2 v)⟩

theorem one_by_one {step : O → S → Option (S × R)} {cs : List (Caller O R)} {s : S} {tr : List (Nat × Val S R)}
    {cl : List (Client (Val S R))} {g : Nat → Val S R} (h : Serial (cs.map (Caller.client step)) (fun _ => .inl s) tr cl g) :
    ∃ calls cs' s', OneByOne step cs s calls cs' s' ∧ tr = calls.map shown ∧ cl = cs'.map (Caller.client step) ∧ g 0 = .inl s' := by
  generalize hcl0 : cs.map (Caller.client step) = cl0 at h
  generalize hg0 : (fun _ : Nat => (.inl s : Val S R)) = g0 at h
  induction h with
  | nil => exact ⟨[], cs, s, .nil, rfl, hcl0.symm, by rw [← hg0]⟩
  | @step c0 f f' tr' i t k _ hi ih =>
    obtain ⟨calls, cs', s', h1, rfl, rfl, h4⟩ := ih hg0
    rw [List.getElem?_map] at hi
    cases hc : cs'[i]? with
    | none => rw [hc] at hi; cases hi
    | some c =>
      rw [hc] at hi
      cases c with
      | stop => simp [Caller.client] at hi
      | call o k' =>
        simp only [Option.map_some, Option.some.injEq, Caller.client, Client.txn.injEq] at hi
        obtain ⟨rfl, rfl⟩ := hi
        cases hs : step o s' with
        | none =>
          have hrun : (callBody step o).run f' = (.inr none, f') := by
            simp only [callBody, Body.run, h4, hs]
          refine ⟨_, _, _, .panics h1 hc hs, by simp [hrun, shown], ?_, ?_⟩
          · simp only [hrun, List.map_set]; rfl
          · simp only [hrun]; exact h4
        | some p =>
          obtain ⟨s'', r⟩ := p
          have hrun : (callBody step o).run f' = (.inr (some r), fun x => if x = 0 then .inl s'' else f' x) := by
            simp only [callBody, Body.run, h4, hs]
          refine ⟨_, _, _, .returns h1 hc hs, by simp [hrun, shown], ?_, ?_⟩
          · simp only [hrun, List.map_set]
          · simp only [hrun, if_true]

theorem serial {step : O → S → Option (S × R)} {cs cs' : List (Caller O R)} {s s' : S} {calls : List (Nat × O × Option R)}
    (h : OneByOne step cs s calls cs' s') :
    ∃ g : Nat → Val S R, Serial (cs.map (Caller.client step)) (fun _ => .inl s) (calls.map shown) (cs'.map (Caller.client step)) g ∧
      g 0 = .inl s' := by
  induction h with
  | nil => exact ⟨_, .nil _ _, rfl⟩
  | @returns calls cs1 s1 s2 i o k r _ hi ho ih =>
    obtain ⟨g, h1, h2⟩ := ih
    have hrun : (callBody step o).run g = (.inr (some r), fun x => if x = 0 then .inl s2 else g x) := by
      simp only [callBody, Body.run, h2, ho]
    have hi' : (cs1.map (Caller.client step))[i]? = some ((Caller.call o k).client step) := by
      rw [List.getElem?_map, hi]; rfl
    simp only [Caller.client] at hi'
    have := Serial.step h1 hi'
    simp only [hrun] at this
    refine ⟨fun x => if x = 0 then .inl s2 else g x, ?_, if_pos rfl⟩
    rw [List.map_append, List.map_set]
    exact this
  | @panics calls cs1 s1 i o k _ hi ho ih =>
    obtain ⟨g, h1, h2⟩ := ih
    have hrun : (callBody step o).run g = (.inr none, g) := by
      simp only [callBody, Body.run, h2, ho]
    have hi' : (cs1.map (Caller.client step))[i]? = some ((Caller.call o k).client step) := by
      rw [List.getElem?_map, hi]; rfl
    simp only [Caller.client] at hi'
    have := Serial.step h1 hi'
    simp only [hrun] at this
    refine ⟨g, ?_, h2⟩
    rw [List.map_append, List.map_set]
    have e : Caller.client step .stop = .stop := by simp only [Caller.client]
    rw [e]
    exact this
end Shared

open Shared
variable {S O R α : Type} [Inhabited α]

/-! ### C160 -/

/-- C160: any collection (any methods `step` on any state) behind a Mutex is linearizable: whatever the schedule, the results that the
goroutines have got are those of executing their calls one at a time, each goroutine's in its order, and whenever nobody holds the
Mutex the collection is as after that. -/
theorem C160_linearizable (step : O → S → Option (S × R)) (s0 : S) (cs : List (Caller O R)) {tr : List (Nat × Val S R)}
    {s : Config (Val S R) (Nat × Val S R)} (h : Run (shared step s0 cs) tr s) :
    s.crashed = false ∧ ∃ calls cs' s', OneByOne step cs s0 calls cs' s' ∧ tr = calls.map shown ∧
      (s.locks 0 = false → s.vars 0 = .inl s') := by
  obtain ⟨h1, cl, g, h2, h3⟩ := C157_serializable _ _
    (fun c hc => Client.All.imp (fun _ h => h.1) c (clients_ok step cs c hc)) h
  obtain ⟨calls, cs', s', h4, h5, h6, h7⟩ := one_by_one h2
  exact ⟨h1, calls, cs', s', h4, h5, fun hl => (h3 0 hl).trans h7⟩

/-- C160: every execution comes to an end, and then all goroutines have done all their calls (a goroutine whose call panicked none
after it). -/
theorem C160_finishes (step : O → S → Option (S × R)) (s0 : S) (cs : List (Caller O R)) :
    Acc (fun t s : Config (Val S R) (Nat × Val S R) => ∃ e, Step s e t) (shared step s0 cs) ∧
    ∀ {tr : List (Nat × Val S R)} {s : Config (Val S R) (Nat × Val S R)}, Run (shared step s0 cs) tr s →
      (∀ e s', ¬ Step s e s') → (∀ p ∈ s.procs, p = .done) ∧
      ∃ calls cs' s', OneByOne step cs s0 calls cs' s' ∧ tr = calls.map shown ∧ s.vars 0 = .inl s' ∧ ∀ c ∈ cs', c = .stop := by
  refine ⟨C157_terminates _ _ (fun c hc => Client.All.imp (fun _ h => h.1) c (clients_ok step cs c hc)), fun h hn => ?_⟩
  obtain ⟨h1, cl, h2, h3⟩ := C157_no_deadlock id _ _ (clients_ok step cs) h hn
  obtain ⟨calls, cs', s', h4, h5, h6, h7⟩ := one_by_one h2
  refine ⟨h1, calls, cs', s', h4, h5, h7, fun c hc => ?_⟩
  have := h3 (c.client step) (h6 ▸ List.mem_map_of_mem hc)
  cases c with
  | stop => rfl
  | call o k => simp [Caller.client] at this

theorem Shared.runOps_snoc (step : O → S → Option (S × R)) (os : List O) (o : O) (s s1 s2 : S) (rs : List R) (r : R)
    (h : Spec.runOps step os s = (rs, some s1)) (ho : step o s1 = some (s2, r)) :
    Spec.runOps step (os ++ [o]) s = (rs ++ [r], some s2) := by
  induction os generalizing s rs with
  | nil =>
    simp only [Spec.runOps, Prod.mk.injEq, Option.some.injEq] at h
    obtain ⟨rfl, rfl⟩ := h
    simp [Spec.runOps, ho]
  | cons a os ih =>
    simp only [Spec.runOps, List.cons_append] at h ⊢
    cases hf : step a s with
    | none => rw [hf] at h; simp at h
    | some p =>
      rw [hf] at h
      simp only [Prod.mk.injEq] at h
      obtain ⟨h1, h2⟩ := h
      simp only [ih p.1 _ (Prod.ext rfl h2), ← h1, List.cons_append]

theorem Shared.history {step : O → S → Option (S × R)} {s0 s' : S} {cs cs' : List (Caller O R)} {calls : List (Nat × O × Option R)}
    (h : OneByOne step cs s0 calls cs' s') (hp : ∀ c ∈ calls, c.2.2 ≠ none) :
    ∃ rs, calls.map (·.2.2) = rs.map some ∧ Spec.runOps step (calls.map (·.2.1)) s0 = (rs, some s') := by
  induction h with
  | nil => exact ⟨[], rfl, rfl⟩
  | @returns calls cs1 s1 s2 i o k r _ hi ho ih =>
    obtain ⟨rs, h1, h2⟩ := ih fun c hc => hp c (by simp [hc])
    refine ⟨rs ++ [r], by simp [h1], ?_⟩
    rw [List.map_append]
    exact Shared.runOps_snoc step _ o s0 s1 s2 rs r h2 ho
  | panics _ _ _ _ => exact absurd rfl (hp _ (List.mem_append_right _ (List.mem_singleton.2 rfl)))

/-- C160: so what is proved about histories of calls of one goroutine (C45, C56, C63, C66, C67 and so on) holds of the calls of all of
them: as long as no call panics, the results that have been shown are those of one history of calls, and a Mutex that nobody holds has
the collection after that history. -/
theorem C160_history (step : O → S → Option (S × R)) (s0 : S) (cs : List (Caller O R)) {tr : List (Nat × Val S R)}
    {s : Config (Val S R) (Nat × Val S R)} (h : Run (shared step s0 cs) tr s) (hp : ∀ e ∈ tr, e.2 ≠ .inr none) :
    ∃ (os : List O) (rs : List R) (s' : S), Spec.runOps step os s0 = (rs, some s') ∧ tr.map (·.2) = rs.map (fun r => .inr (some r)) ∧
      (s.locks 0 = false → s.vars 0 = .inl s') := by
  obtain ⟨_, calls, cs', s', h1, rfl, h3⟩ := C160_linearizable step s0 cs h
  obtain ⟨rs, h4, h5⟩ := Shared.history h1 fun c hc hn => hp (shown c) (List.mem_map_of_mem hc) (by simp [shown, hn])
  refine ⟨_, rs, s', h5, ?_, h3⟩
  have := congrArg (List.map (fun r => (.inr r : Val S R))) h4
  simpa [shown, Function.comp_def] using this

/-- C160: every order of the calls is the outcome of some schedule. -/
theorem C160_any_order (step : O → S → Option (S × R)) (s0 : S) {cs cs' : List (Caller O R)} {calls : List (Nat × O × Option R)} {s' : S}
    (h : OneByOne step cs s0 calls cs' s') :
    ∃ s, Run (shared step s0 cs) (calls.map shown) s ∧ s.locks 0 = false ∧ s.vars 0 = .inl s' := by
  obtain ⟨g, h1, h2⟩ := Shared.serial h
  obtain ⟨s, h3, h4, h5⟩ := C157_any_order _ _
    (fun c hc => Client.All.imp (fun _ h => h.1) c (clients_ok step cs c hc)) h1
  exact ⟨s, h3, h5 0, by rw [h4, h2]⟩

/-! A VecDeque as a queue. -/

/-- The calls of producers and consumers. -/
inductive QueueOp (α : Type) where
  | push (v : α)
  | pop

/-- PushBack and PopFront of the library. -/
def VecDeque.queueStep : QueueOp α → VecDeque α → Option (VecDeque α × Option α)
  | .push v, d => Go.toOption (do let d ← d.pushBack v; .ok (d, none))
  | .pop, d => Go.toOption (do let (d, r) ← d.popFront; .ok (d, r.value))

/-- The values pushed, in order. -/
def Spec.pushes (calls : List (Nat × QueueOp α × Option (Option α))) : List α :=
  calls.filterMap fun c => match c.2.1 with | .push v => some v | .pop => none

/-- The values that pops have returned, in order. -/
def Spec.pops (calls : List (Nat × QueueOp α × Option (Option α))) : List α :=
  calls.filterMap fun c => match c.2.1, c.2.2 with | .pop, some (some v) => some v | _, _ => none

theorem Shared.fifo {cs cs' : List (Caller (QueueOp α) (Option α))} {d d' : VecDeque α} {calls : List (Nat × QueueOp α × Option (Option α))}
    (h : OneByOne VecDeque.queueStep cs d calls cs' d') (hd : d.Inv) (hroom : d.toList.length + calls.length < 2 ^ 62) :
    d'.Inv ∧ d'.toList.length ≤ d.toList.length + calls.length ∧ (∀ c ∈ calls, c.2.2 ≠ none) ∧
      d.toList ++ Spec.pushes calls = Spec.pops calls ++ d'.toList ∧
      ∀ a b i, calls = a ++ (i, .pop, some none) :: b → d.toList ++ Spec.pushes a = Spec.pops a := by
  induction h with
  | nil => exact ⟨hd, by simp, by simp, by simp [Spec.pushes, Spec.pops], by simp⟩
  | @returns calls cs1 d1 d2 i o k r _ hi ho ih =>
    simp only [List.length_append, List.length_cons, List.length_nil] at hroom ⊢
    obtain ⟨i1, i2, i3, i4, i5⟩ := ih (by omega)
    have hl := VecDeque.toList_length i1
    cases o with
    | push v =>
      obtain ⟨e, a, b, c, _⟩ := VecDeque.pushBack_eq i1 (by omega) v
      simp only [VecDeque.queueStep, a, Go.bind_ok, Go.toOption_ok, Option.some.injEq, Prod.mk.injEq] at ho
      obtain ⟨rfl, rfl⟩ := ho
      refine ⟨b, by rw [c]; simp; omega, ?_, ?_, ?_⟩
      · intro x hx
        rcases List.mem_append.1 hx with hx | hx
        · exact i3 x hx
        · simp at hx; rw [hx]; simp
      · simp only [Spec.pushes, Spec.pops, List.filterMap_append, List.filterMap_cons, List.filterMap_nil] at i4 ⊢
        rw [c, ← List.append_assoc, i4]; simp
      · intro x y j hxy
        rcases List.eq_nil_or_concat y with rfl | ⟨y', z, rfl⟩
        · have := (List.append_inj' hxy rfl).2
          simp at this
        · rw [List.concat_eq_append, ← List.cons_append, ← List.append_assoc] at hxy
          exact i5 x y' j (List.append_inj' hxy rfl).1
    | pop =>
      obtain ⟨e, a, b, c, _⟩ := VecDeque.popFront_eq i1
      simp only [VecDeque.queueStep, a, Go.bind_ok, Go.toOption_ok, Option.some.injEq, Prod.mk.injEq] at ho
      obtain ⟨rfl, rfl⟩ := ho
      refine ⟨b, by rw [c]; simp; omega, ?_, ?_, ?_⟩
      · intro x hx
        rcases List.mem_append.1 hx with hx | hx
        · exact i3 x hx
        · simp at hx; rw [hx]; simp
      · simp only [Spec.pushes, Spec.pops, List.filterMap_append, List.filterMap_cons, List.filterMap_nil] at i4 ⊢
        rw [c]
        cases hd1 : d1.toList with
        | nil => rw [hd1] at i4; simpa using i4
        | cons x t => rw [hd1] at i4; simpa using i4
      · intro x y j hxy
        rcases List.eq_nil_or_concat y with rfl | ⟨y', z, rfl⟩
        · obtain ⟨rfl, h2⟩ := List.append_inj' hxy rfl
          simp only [List.cons.injEq, Prod.mk.injEq, Option.some.injEq, and_true, true_and] at h2
          rw [List.head?_eq_none_iff.1 h2.2, List.append_nil] at i4
          exact i4
        · rw [List.concat_eq_append, ← List.cons_append, ← List.append_assoc] at hxy
          exact i5 x y' j (List.append_inj' hxy rfl).1
  | @panics calls cs1 d1 i o k _ hi ho ih =>
    simp only [List.length_append, List.length_cons, List.length_nil] at hroom
    obtain ⟨i1, i2, _⟩ := ih (by omega)
    have hl := VecDeque.toList_length i1
    cases o with
    | push v =>
      obtain ⟨e, a, _⟩ := VecDeque.pushBack_eq i1 (by omega) v
      simp [VecDeque.queueStep, a] at ho
    | pop =>
      obtain ⟨e, a, _⟩ := VecDeque.popFront_eq i1
      simp [VecDeque.queueStep, a] at ho

/-- C160: a VecDeque behind a Mutex is a first-in first-out queue for any number of producers and consumers.  Whatever the schedule
(and however what they do depends on what they got), as long as there are fewer than 2^62 elements and calls: no call panics; there is one
order of all calls, consistent with each goroutine's own, in which the values that PopFront returned are the values that were in
the deque and those pushed, in this order, none of them lost or returned twice; PopFront returned None only when everything
pushed before had been taken; and what is left is in the deque whenever nobody holds the Mutex. -/
theorem C160_queue (d : VecDeque α) (hd : d.Inv) (cs : List (Caller (QueueOp α) (Option α)))
    {tr : List (Nat × Val (VecDeque α) (Option α))} {s : Config (Val (VecDeque α) (Option α)) (Nat × Val (VecDeque α) (Option α))}
    (h : Run (shared VecDeque.queueStep d cs) tr s) (hroom : d.toList.length + tr.length < 2 ^ 62) :
    ∃ calls cs' d', OneByOne VecDeque.queueStep cs d calls cs' d' ∧ tr = calls.map shown ∧ (∀ c ∈ calls, c.2.2 ≠ none) ∧
      d.toList ++ Spec.pushes calls = Spec.pops calls ++ d'.toList ∧
      (∀ a b i, calls = a ++ (i, .pop, some none) :: b → d.toList ++ Spec.pushes a = Spec.pops a) ∧
      (s.locks 0 = false → s.vars 0 = .inl d') := by
  obtain ⟨_, calls, cs', d', h1, rfl, h3⟩ := C160_linearizable _ _ _ h
  rw [List.length_map] at hroom
  obtain ⟨_, _, a3, a4, a5⟩ := Shared.fifo h1 hd hroom
  exact ⟨calls, cs', d', h1, rfl, a3, a4, a5, h3⟩

/-! Two producers and a consumer that goes on only if it got something. -/

/-- Pushes the values. -/
def producer : List Nat → Caller (QueueOp Nat) (Option Nat)
  | [] => .stop
  | v :: vs => .call (.push v) fun _ => producer vs

/-- Pops until the deque is empty, at most `n` times. -/
def consumer : Nat → Caller (QueueOp Nat) (Option Nat)
  | 0 => .stop
  | n + 1 => .call .pop fun r => match r with | some _ => consumer n | none => .stop

/-- The values pushed by two producers arrive in the order of the pushes; the consumer stops when it finds nothing. -/
example : ∃ calls cs' d', OneByOne VecDeque.queueStep [producer [1, 2], producer [7], consumer 5] (⟨[0, 0, 0], 0, 0⟩ : VecDeque Nat)
      calls cs' d' ∧ calls.map (fun c => (c.1, c.2.2)) =
        [(0, some none), (1, some none), (2, some (some 1)), (2, some (some 7)), (0, some none), (2, some (some 2)), (2, some none)] ∧
      d'.toList = [] := by
  refine ⟨_, _, _, .returns (i := 2) (.returns (i := 2) (.returns (i := 0) (.returns (i := 2) (.returns (i := 2) (.returns (i := 1)
    (.returns (i := 0) .nil rfl rfl) rfl rfl) rfl rfl) rfl rfl) rfl rfl) rfl rfl) rfl rfl, rfl, rfl⟩

end Gost
