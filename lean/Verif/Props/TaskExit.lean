import Verif.Model.TaskExit
import Verif.Props.Thread
import Verif.Props.Gokio
/-
Property C143: tasks that panic or end their goroutine.
-/
namespace Gost
open Conc
namespace TaskExit
variable {V E : Type}

/-- A function that does `n` internal steps and then `k`. -/
def quit : Nat → Proc V E → Proc V E
  | 0, k => k
  | n + 1, k => .tau (quit n k)

/-- A goroutine that only makes calls on channel 0, shows events that are `P`, and has `m` of them to show, provided that it
receives nothing but the end of the channel, and that only if `closes`. -/
inductive Quiet (P : E → Prop) (closes : Bool) : Nat → Proc V E → Prop
  | done : Quiet P closes 0 .done
  | emit {e : E} {k : Proc V E} {m : Nat} (h : P e) (hk : Quiet P closes m k) : Quiet P closes (m + 1) (.emit e k)
  | go {p k : Proc V E} {m m' : Nat} (hp : Quiet P closes m p) (hk : Quiet P closes m' k) : Quiet P closes (m + m') (.go p k)
  | recv {k : Option V → Proc V E} {m : Nat} (h : closes = true → Quiet P closes m (k none)) (h' : closes = false → m = 0) :
      Quiet P closes m (.recv 0 k)
  | poll {k : Option (Option V) → Proc V E} {m : Nat} (h : Quiet P closes m (k none))
      (h' : closes = true → Quiet P closes m (k (some none))) : Quiet P closes m (.poll 0 k)

/-- What the task does at its end. -/
def last (closes : Bool) (x : Exit) : Proc V E := if closes then .close 0 x.proc else x.proc

/-- Where the task is; whether the channel is closed and the program dead. -/
inductive TaskAt (closes : Bool) (x : Exit) : Proc V E → Bool → Bool → Prop
  | working (n : Nat) : TaskAt closes x (quit n (last closes x)) false false
  | closed (h : closes = true) : TaskAt closes x x.proc true false
  | dead (p : Proc V E) (h : x = .panic) : TaskAt closes x p closes true

/-- What holds from the moment the task is started. -/
structure Inv (P : E → Prop) (closes : Bool) (x : Exit) (total : Nat) (tr : List E) (s : Config V E) : Prop where
  shown : ∀ e ∈ tr, P e
  others : ∃ ms : List Nat, ms.length = s.procs.length ∧ tr.length + ms.sum = total ∧ ms[1]? = some 0 ∧
    ∀ (i : Nat) (p : Proc V E), i ≠ 1 → s.procs[i]? = some p → ∃ m, ms[i]? = some m ∧ Quiet P closes m p
  task : ∃ t c, s.procs[1]? = some t ∧ s.chans = [⟨0, [], c⟩] ∧ TaskAt closes x t c s.crashed
  locks : ∀ m, s.locks m = false

theorem sum_set' {ms : List Nat} {i m m' : Nat} (h : ms[i]? = some m) : (ms.set i m').sum + m = ms.sum + m' := by
  induction ms generalizing i with
  | nil => simp at h
  | cons a ms ih =>
    cases i with
    | zero =>
      simp only [List.getElem?_cons_zero, Option.some.injEq] at h
      subst h
      simp only [List.set_cons_zero, List.sum_cons]; omega
    | succ i =>
      simp only [List.getElem?_cons_succ] at h
      have := ih h
      simp only [List.set_cons_succ, List.sum_cons]; omega

theorem get_set' {α : Type} {l : List α} {i j : Nat} {a b : α} (h : l[i]? = some a) :
    (l.set i b)[j]? = if j = i then some b else l[j]? := by
  rw [List.getElem?_eq_some_iff] at h
  obtain ⟨hlt, _⟩ := h
  by_cases hji : j = i
  · rw [if_pos hji, hji, List.getElem?_set_self hlt]
  · rw [if_neg hji, List.getElem?_set_ne (fun h => hji h.symm)]

variable {P : E → Prop} {closes : Bool} {x : Exit} {total : Nat} {tr : List E} {s : Config V E}

/-- Another goroutine than the task goes on with `q`. -/
theorem Inv.other (h : Inv P closes x total tr s) {i : Nat} {p : Proc V E} (hi : s.procs[i]? = some p) (hne : i ≠ 1)
    (o : Option E) (ho : ∀ e, o = some e → P e) (q : Proc V E)
    (hq : ∀ m, Quiet P closes m p → ∃ m', Quiet P closes m' q ∧ m = m' + o.toList.length) :
    Inv P closes x total (tr ++ o.toList) (s.to i q) := by
  obtain ⟨ms, hl, hsum, h0, hall⟩ := h.others
  obtain ⟨m, hm, hqm⟩ := hall i p hne hi
  obtain ⟨m', hq', rfl⟩ := hq m hqm
  obtain ⟨t, c, ht, hc, hta⟩ := h.task
  refine ⟨?_, ⟨ms.set i m', ?_, ?_, by rw [get_set' hm, if_neg (fun h => hne h.symm)]; exact h0, ?_⟩, ⟨t, c, ?_, hc, hta⟩, h.locks⟩
  · intro e he
    rcases List.mem_append.1 he with he | he
    · exact h.shown e he
    · cases o with
      | none => simp at he
      | some y => simp only [Option.toList_some, List.mem_singleton] at he; exact ho e (by rw [he])
  · simp only [Config.to, List.length_set]; exact hl
  · have := sum_set' (m' := m') hm
    rw [List.length_append]; omega
  · intro j r hj hr
    simp only [Config.to] at hr
    rw [get_set' hi] at hr
    rw [get_set' hm]
    by_cases hji : j = i
    · rw [if_pos hji] at hr ⊢
      cases hr
      exact ⟨m', rfl, hq'⟩
    · rw [if_neg hji] at hr ⊢
      exact hall j r hj hr
  · simp only [Config.to]
    rw [get_set' hi, if_neg (fun h => hne h.symm)]; exact ht

/-- The task goes on. -/
theorem Inv.work (h : Inv P closes x total tr s) {p q : Proc V E} (hi : s.procs[1]? = some p) {c' d' : Bool}
    (hq : TaskAt closes x q c' d') :
    Inv P closes x total tr { s.to 1 q with chans := [⟨0, [], c'⟩], crashed := d' } := by
  obtain ⟨ms, hl, hsum, h0, hall⟩ := h.others
  refine ⟨h.shown, ⟨ms, by simp only [Config.to, List.length_set]; exact hl, hsum, h0, ?_⟩,
    ⟨q, c', by simp only [Config.to]; rw [get_set' hi, if_pos rfl], rfl, hq⟩, h.locks⟩
  intro j r hj hr
  simp only [Config.to] at hr
  rw [get_set' hi, if_neg hj] at hr
  exact hall j r hj hr

/-- One step. -/
theorem Inv.step (h : Inv P closes x total tr s) {o : Option E} {s' : Config V E} (hs : Step s o s') :
    Inv P closes x total (tr ++ o.toList) s' := by
  obtain ⟨t, c, ht, hch, hta⟩ := h.task
  obtain ⟨ms, hl, hsum, h0, hall⟩ := h.others
  -- what the goroutine is that goes on
  have who : ∀ {i : Nat} {p : Proc V E}, s.crashed = false → s.procs[i]? = some p →
      (i = 1 ∧ ((∃ n, p = .tau (quit n (last closes x)) ∧ c = false) ∨ (closes = true ∧ c = false ∧ p = .close 0 x.proc) ∨
        (p = x.proc ∧ c = closes))) ∨ (i ≠ 1 ∧ ∃ m, Quiet P closes m p) := by
    intro i p hcr hp
    by_cases hi : i = 1
    · left
      refine ⟨hi, ?_⟩
      subst hi
      rw [ht] at hp
      cases hp
      rw [hcr] at hta
      cases hta with
      | working n =>
        cases n with
        | zero =>
          cases closes with
          | true => exact .inr (.inl ⟨rfl, rfl, rfl⟩)
          | false => exact .inr (.inr ⟨rfl, rfl⟩)
        | succ n => exact .inl ⟨n, rfl, rfl⟩
      | closed hc => exact .inr (.inr ⟨rfl, hc.symm⟩)
    · exact .inr ⟨hi, by obtain ⟨m, _, hm⟩ := hall i p hi hp; exact ⟨m, hm⟩⟩
  have xp : ∀ {p : Proc V E}, p = x.proc → p = .done ∨ (x = .panic ∧ p = .unlock 1 .done) := by
    intro p hp
    cases x with
    | panic => exact .inr ⟨rfl, hp⟩
    | goexit => exact .inl hp
  have chan : ∀ {c' : Nat} {ch : Chan V}, s.chans[c']? = some ch → c' = 0 ∧ ch = ⟨0, [], c⟩ := by
    intro c' ch hc'
    rw [hch] at hc'
    cases c' with
    | zero => simp only [List.getElem?_cons_zero, Option.some.injEq] at hc'; exact ⟨rfl, hc'.symm⟩
    | succ c' => simp at hc'
  have nosend : ∀ {i c' : Nat} {v : V} {k : Proc V E}, s.crashed = false → SendsAt s i c' v k → False := by
    intro i c' v k hcr hsn
    cases hsn with
    | fresh hp =>
      rcases who hcr hp with ⟨_, ⟨_, e, _⟩ | ⟨_, _, e⟩ | ⟨e, _⟩⟩ | ⟨_, _, hq⟩
      · cases e
      · cases e
      · rcases xp e with e | ⟨_, e⟩ <;> cases e
      · cases hq
    | waiting hp =>
      rcases who hcr hp with ⟨_, ⟨_, e, _⟩ | ⟨_, _, e⟩ | ⟨e, _⟩⟩ | ⟨_, _, hq⟩
      · cases e
      · cases e
      · rcases xp e with e | ⟨_, e⟩ <;> cases e
      · cases hq
  have closedOnly : c = true → closes = true := by
    intro hc
    subst hc
    generalize s.crashed = d at hta
    generalize he : true = b at hta
    cases hta with
    | working n => cases he
    | closed h => exact h
    | dead p h => rfl
  cases hs with
  | emit hc hp =>
    rcases who hc hp with ⟨_, ⟨_, e, _⟩ | ⟨_, _, e⟩ | ⟨e, _⟩⟩ | ⟨hne, _, hq⟩
    · cases e
    · cases e
    · rcases xp e with e | ⟨_, e⟩ <;> cases e
    · cases hq with
      | emit hP hk =>
        refine h.other hp hne _ (by rintro _ ⟨⟩; exact hP) _ ?_
        intro m hm
        cases hm with
        | emit _ hk => exact ⟨_, hk, rfl⟩
  | tau hc hp =>
    rcases who hc hp with ⟨rfl, ⟨n, e, hcf⟩ | ⟨_, _, e⟩ | ⟨e, _⟩⟩ | ⟨_, _, hq⟩
    · cases e
      subst hcf
      have := h.work ht (TaskAt.working (closes := closes) (x := x) n)
      rw [Option.toList_none, List.append_nil]
      have e : s.to 1 (quit n (last closes x)) =
          { s.to 1 (quit n (last closes x)) with chans := [⟨0, [], false⟩], crashed := false } := by
        rw [← hch, ← hc]; rfl
      rw [e]
      exact this
    · cases e
    · rcases xp e with e | ⟨_, e⟩ <;> cases e
    · cases hq
  | @go i p k hc hp =>
    rcases who hc hp with ⟨_, ⟨_, e, _⟩ | ⟨_, _, e⟩ | ⟨e, _⟩⟩ | ⟨hne, m, hq⟩
    · cases e
    · cases e
    · rcases xp e with e | ⟨_, e⟩ <;> cases e
    · obtain ⟨m, hm, hq⟩ := hall _ _ hne hp
      cases hq with
      | @go _ _ m1 m2 h1 h2 =>
        rw [Option.toList_none, List.append_nil]
        have hlen : 2 ≤ s.procs.length := by
          rw [List.getElem?_eq_some_iff] at ht; exact ht.1
        refine ⟨h.shown, ⟨ms.set i m2 ++ [m1], ?_, ?_, ?_, ?_⟩, ⟨t, c, ?_, hch, hta⟩, h.locks⟩
        · simp only [List.length_append, List.length_set, hl]; rfl
        · have := sum_set' (m' := m2) hm
          rw [List.sum_append, List.sum_singleton]; omega
        · rw [List.getElem?_append_left (by rw [List.length_set]; omega), get_set' hm, if_neg (fun h => hne h.symm)]
          exact h0
        · intro j r hj hr
          simp only at hr
          by_cases hjl : j < s.procs.length
          · rw [List.getElem?_append_left (by rw [List.length_set]; exact hjl), get_set' hp] at hr
            rw [List.getElem?_append_left (by rw [List.length_set]; omega), get_set' hm]
            by_cases hji : j = i
            · rw [if_pos hji] at hr ⊢
              cases hr
              exact ⟨m2, rfl, h2⟩
            · rw [if_neg hji] at hr ⊢
              exact hall j r hj hr
          · rw [List.getElem?_append_right (by rw [List.length_set]; omega), List.length_set] at hr
            rw [List.getElem?_append_right (by rw [List.length_set]; omega), List.length_set, hl]
            have : j - s.procs.length = 0 := by
              rw [List.getElem?_eq_some_iff] at hr
              have := hr.1
              simp only [List.length_singleton] at this
              omega
            rw [this] at hr ⊢
            simp only [List.getElem?_cons_zero, Option.some.injEq] at hr
            subst hr
            exact ⟨m1, rfl, h1⟩
        · simp only
          rw [List.getElem?_append_left (by rw [List.length_set]; omega), get_set' hp, if_neg (fun h => hne h.symm)]
          exact ht
  | make hc hp =>
    rcases who hc hp with ⟨_, ⟨_, e, _⟩ | ⟨_, _, e⟩ | ⟨e, _⟩⟩ | ⟨_, _, hq⟩
    · cases e
    · cases e
    · rcases xp e with e | ⟨_, e⟩ <;> cases e
    · cases hq
  | park hc hp => exact (nosend hc (.fresh hp)).elim
  | sendBuf hc hp => exact (nosend hc hp).elim
  | sendClosed hc hp => exact (nosend hc hp).elim
  | meet hc hp => exact (nosend hc hp).elim
  | meetPoll hc hp => exact (nosend hc hp).elim
  | recvBuf hc hp hc' hb => rw [(chan hc').2] at hb; cases hb
  | pollBuf hc hp hc' hb => rw [(chan hc').2] at hb; cases hb
  | recvClosed hc hp hc' hcl =>
    rw [(chan hc').2] at hcl
    rcases who hc hp with ⟨_, ⟨_, e, _⟩ | ⟨_, _, e⟩ | ⟨e, _⟩⟩ | ⟨hne, _, hq⟩
    · cases e
    · cases e
    · rcases xp e with e | ⟨_, e⟩ <;> cases e
    · refine h.other hp hne none (by rintro _ ⟨⟩) _ ?_
      intro m hm
      cases hm with
      | recv hk _ => exact ⟨m, hk (closedOnly hcl), rfl⟩
  | pollClosed hc hp hc' hcl =>
    rw [(chan hc').2] at hcl
    rcases who hc hp with ⟨_, ⟨_, e, _⟩ | ⟨_, _, e⟩ | ⟨e, _⟩⟩ | ⟨hne, _, hq⟩
    · cases e
    · cases e
    · rcases xp e with e | ⟨_, e⟩ <;> cases e
    · refine h.other hp hne none (by rintro _ ⟨⟩) _ ?_
      intro m hm
      cases hm with
      | poll _ hk => exact ⟨m, hk (closedOnly hcl), rfl⟩
  | pollDefault hc hp hc' hcl hb hn =>
    rcases who hc hp with ⟨_, ⟨_, e, _⟩ | ⟨_, _, e⟩ | ⟨e, _⟩⟩ | ⟨hne, _, hq⟩
    · cases e
    · cases e
    · rcases xp e with e | ⟨_, e⟩ <;> cases e
    · refine h.other hp hne none (by rintro _ ⟨⟩) _ ?_
      intro m hm
      cases hm with
      | poll hk _ => exact ⟨m, hk, rfl⟩
  | close hc hp hc' hcl =>
    obtain ⟨rfl, rfl⟩ := chan hc'
    rcases who hc hp with ⟨rfl, ⟨_, e, _⟩ | ⟨hcs, hcf, e⟩ | ⟨e, _⟩⟩ | ⟨_, _, hq⟩
    · cases e
    · cases e
      have := h.work ht (TaskAt.closed (closes := closes) (x := x) hcs)
      rw [Option.toList_none, List.append_nil, hch]
      rw [← hc] at this
      exact this
    · rcases xp e with e | ⟨_, e⟩ <;> cases e
    · cases hq
  | closeClosed hc hp hc' hcl =>
    rw [(chan hc').2] at hcl
    rcases who hc hp with ⟨_, ⟨_, e, _⟩ | ⟨_, hcf, e⟩ | ⟨e, _⟩⟩ | ⟨_, _, hq⟩
    · cases e
    · rw [hcf] at hcl; cases hcl
    · rcases xp e with e | ⟨_, e⟩ <;> cases e
    · cases hq
  | lock hc hp =>
    rcases who hc hp with ⟨_, ⟨_, e, _⟩ | ⟨_, _, e⟩ | ⟨e, _⟩⟩ | ⟨_, _, hq⟩
    · cases e
    · cases e
    · rcases xp e with e | ⟨_, e⟩ <;> cases e
    · cases hq
  | tryLock hc hp =>
    rcases who hc hp with ⟨_, ⟨_, e, _⟩ | ⟨_, _, e⟩ | ⟨e, _⟩⟩ | ⟨_, _, hq⟩
    · cases e
    · cases e
    · rcases xp e with e | ⟨_, e⟩ <;> cases e
    · cases hq
  | tryLockFails hc hp =>
    rcases who hc hp with ⟨_, ⟨_, e, _⟩ | ⟨_, _, e⟩ | ⟨e, _⟩⟩ | ⟨_, _, hq⟩
    · cases e
    · cases e
    · rcases xp e with e | ⟨_, e⟩ <;> cases e
    · cases hq
  | unlock hc hp hlk => rw [h.locks] at hlk; cases hlk
  | unlockFree hc hp =>
    rcases who hc hp with ⟨rfl, ⟨_, e, _⟩ | ⟨_, _, e⟩ | ⟨e, hcc⟩⟩ | ⟨_, _, hq⟩
    · cases e
    · cases e
    · rcases xp e with e | ⟨hx, e⟩
      · cases e
      · rw [Option.toList_none, List.append_nil]
        refine ⟨h.shown, ⟨ms, hl, hsum, h0, hall⟩, ⟨t, c, ht, hch, ?_⟩, h.locks⟩
        rw [hcc]
        exact .dead t hx
    · cases hq
  | load hc hp =>
    rcases who hc hp with ⟨_, ⟨_, e, _⟩ | ⟨_, _, e⟩ | ⟨e, _⟩⟩ | ⟨_, _, hq⟩
    · cases e
    · cases e
    · rcases xp e with e | ⟨_, e⟩ <;> cases e
    · cases hq
  | store hc hp =>
    rcases who hc hp with ⟨_, ⟨_, e, _⟩ | ⟨_, _, e⟩ | ⟨e, _⟩⟩ | ⟨_, _, hq⟩
    · cases e
    · cases e
    · rcases xp e with e | ⟨_, e⟩ <;> cases e
    · cases hq

/-- The moments before the task is started, and the rest of the execution. -/
theorem run_inv {v : V} {task main : Proc V E} {k : Nat → Proc V E} (hk : k 0 = .go task main)
    (ht : ∃ n, task = quit n (last closes x)) (hm : Quiet P closes total main)
    (h : Run (start (fun _ => v) (.make 0 k)) tr s) :
    (tr = [] ∧ ∃ o s', Step s o s') ∨ Inv P closes x total tr s := by
  generalize hs0 : start (fun _ => v) (Proc.make 0 k) = s0 at h
  suffices hh : (tr = [] ∧ s = s0) ∨ (tr = [] ∧ s = ⟨[.go task main], [⟨0, [], false⟩], fun _ => false, fun _ => v, false⟩) ∨
      Inv P closes x total tr s by
    rcases hh with ⟨rfl, rfl⟩ | ⟨rfl, rfl⟩ | h
    · subst hs0
      exact .inl ⟨rfl, _, _, .make (i := 0) rfl rfl⟩
    · exact .inl ⟨rfl, _, _, .go (i := 0) rfl rfl⟩
    · exact .inr h
  induction h with
  | nil => exact .inl ⟨rfl, rfl⟩
  | step h hst ih =>
    rename_i t' u tr o
    rcases ih with ⟨rfl, rfl⟩ | ⟨rfl, rfl⟩ | h
    · subst hs0
      have one : ∀ {i : Nat} {p : Proc V E}, (start (fun _ => v) (Proc.make 0 k)).procs[i]? = some p → i = 0 ∧ p = .make 0 k := by
        intro i p hp
        cases i with
        | zero => simp only [start, List.getElem?_cons_zero, Option.some.injEq] at hp; exact ⟨rfl, hp.symm⟩
        | succ i => simp [start] at hp
      have none : ∀ {i c' : Nat} {v' : V} {k' : Proc V E}, ¬ SendsAt (start (fun _ => v) (Proc.make 0 k)) i c' v' k' := by
        intro i c' v' k' h
        cases h with
        | fresh h => cases (one h).2
        | waiting h => cases (one h).2
      cases hst with
      | make hc hp =>
        obtain ⟨rfl, e⟩ := one hp
        cases e
        refine .inr (.inl ⟨rfl, ?_⟩)
        simp only [start, Config.to, List.length_nil, List.nil_append, List.set_cons_zero, hk]
      | sendBuf hc hp => exact (none hp).elim
      | sendClosed hc hp => exact (none hp).elim
      | meet hc hp => exact (none hp).elim
      | meetPoll hc hp => exact (none hp).elim
      | emit hc hp | tau hc hp | go hc hp | park hc hp | close hc hp | closeClosed hc hp | lock hc hp | tryLock hc hp
      | tryLockFails hc hp | unlock hc hp | unlockFree hc hp | load hc hp | store hc hp | recvBuf hc hp | pollBuf hc hp
      | recvClosed hc hp | pollClosed hc hp | pollDefault hc hp => cases (one hp).2
    · have one : ∀ {i : Nat} {p : Proc V E}, (⟨[.go task main], [⟨0, [], false⟩], fun _ => false, fun _ => v, false⟩ : Config V E).procs[i]? = some p →
          i = 0 ∧ p = .go task main := by
        intro i p hp
        cases i with
        | zero => simp only [List.getElem?_cons_zero, Option.some.injEq] at hp; exact ⟨rfl, hp.symm⟩
        | succ i => simp at hp
      have none : ∀ {i c' : Nat} {v' : V} {k' : Proc V E},
          ¬ SendsAt (⟨[.go task main], [⟨0, [], false⟩], fun _ => false, fun _ => v, false⟩ : Config V E) i c' v' k' := by
        intro i c' v' k' h
        cases h with
        | fresh h => cases (one h).2
        | waiting h => cases (one h).2
      cases hst with
      | go hc hp =>
        obtain ⟨rfl, e⟩ := one hp
        cases e
        refine .inr (.inr ⟨by simp, ⟨[total, 0], rfl, by simp, rfl, ?_⟩, ⟨task, false, rfl, rfl, ?_⟩, fun _ => rfl⟩)
        · intro i p hi hp
          cases i with
          | zero =>
            simp only [List.set_cons_zero, List.cons_append, List.getElem?_cons_zero, Option.some.injEq] at hp
            subst hp
            exact ⟨total, rfl, hm⟩
          | succ i =>
            cases i with
            | zero => exact absurd rfl hi
            | succ i => simp at hp
        · obtain ⟨n, rfl⟩ := ht
          exact .working n
      | sendBuf hc hp => exact (none hp).elim
      | sendClosed hc hp => exact (none hp).elim
      | meet hc hp => exact (none hp).elim
      | meetPoll hc hp => exact (none hp).elim
      | emit hc hp | tau hc hp | make hc hp | park hc hp | close hc hp | closeClosed hc hp | lock hc hp | tryLock hc hp
      | tryLockFails hc hp | unlock hc hp | unlockFree hc hp | load hc hp | store hc hp | recvBuf hc hp | pollBuf hc hp
      | recvClosed hc hp | pollClosed hc hp | pollDefault hc hp => cases (one hp).2
    · exact .inr (.inr (h.step hst))

/-- At the end of an execution: the program is dead, if the task panicked; otherwise the task is over. -/
theorem Inv.stuck (h : Inv P closes x total tr s) (hend : ∀ o s', ¬ Step s o s') :
    (x = .panic ∧ s.crashed = true) ∨
    (x = .goexit ∧ s.crashed = false ∧ s.procs[1]? = some .done ∧ s.chans = [⟨0, [], closes⟩]) := by
  obtain ⟨t, c, ht, hch, hta⟩ := h.task
  cases hcr : s.crashed with
  | true =>
    rw [hcr] at hta
    cases hta with
    | dead p hx => exact .inl ⟨hx, rfl⟩
  | false =>
    have out : x.proc = t → (x = .goexit ∧ t = .done) := by
      intro e
      cases x with
      | goexit => exact ⟨rfl, e.symm⟩
      | panic => exact absurd (Step.unlockFree (i := 1) hcr (by rw [ht, ← e]; rfl) (h.locks 1)) (hend _ _)
    rw [hcr] at hta
    generalize hcc : c = c' at hta
    cases hta with
    | working n =>
      cases n with
      | succ n => exact absurd (Step.tau (i := 1) hcr ht) (hend _ _)
      | zero =>
        cases closes with
        | true =>
          exact absurd (Step.close (i := 1) (c := 0) (ch := ⟨0, [], c⟩) hcr ht (by rw [hch]; rfl) hcc) (hend _ _)
        | false =>
          obtain ⟨hx, hd⟩ := out rfl
          exact .inr ⟨hx, rfl, by rw [ht]; exact congrArg some hd, by rw [hch, hcc]⟩
    | closed hcl =>
      obtain ⟨hx, hd⟩ := out rfl
      exact .inr ⟨hx, rfl, by rw [ht]; exact congrArg some hd, by rw [hch, hcc, hcl]⟩

/-- At the end of an execution in which the program did not die, nobody has anything left to show; goroutines are left behind
only if the channel is not closed, and only in a receive. -/
theorem Inv.nobody (h : Inv P closes x total tr s) (hend : ∀ o s', ¬ Step s o s') (hcr : s.crashed = false)
    (hd : s.procs[1]? = some .done) (hch : s.chans = [⟨0, [], closes⟩]) :
    (∀ p ∈ s.procs, p = .done ∨ (closes = false ∧ ∃ k, p = .recv 0 k)) ∧ tr.length = total := by
  obtain ⟨ms, hl, hsum, h0, hall⟩ := h.others
  have each : ∀ (i : Nat) (p : Proc V E), i ≠ 1 → s.procs[i]? = some p →
      (p = .done ∨ (closes = false ∧ ∃ k, p = .recv 0 k)) ∧ ms[i]? = some 0 := by
    intro i p hi hp
    obtain ⟨m, hm, hq⟩ := hall i p hi hp
    cases hq with
    | done => exact ⟨.inl rfl, hm⟩
    | emit => exact absurd (Step.emit hcr hp) (hend _ _)
    | go => exact absurd (Step.go hcr hp) (hend _ _)
    | recv _ h' =>
      cases closes with
      | true => exact absurd (Step.recvClosed hcr hp (ch := ⟨0, [], true⟩) (by rw [hch]; rfl) rfl rfl) (hend _ _)
      | false => exact ⟨.inr ⟨rfl, _, rfl⟩, by rw [hm, h' rfl]⟩
    | poll =>
      cases closes with
      | true => exact absurd (Step.pollClosed hcr hp (ch := ⟨0, [], true⟩) (by rw [hch]; rfl) rfl rfl) (hend _ _)
      | false =>
        refine absurd (Step.pollDefault hcr hp (ch := ⟨0, [], false⟩) (by rw [hch]; rfl) rfl rfl ?_) (hend _ _)
        intro j v k hj
        by_cases h1 : j = 1
        · rw [h1, hd] at hj; cases hj
        · obtain ⟨_, _, hq⟩ := hall j _ h1 hj
          cases hq
  constructor
  · intro p hp
    obtain ⟨i, hi⟩ := List.mem_iff_getElem?.1 hp
    by_cases h1 : i = 1
    · rw [h1, hd] at hi; cases hi; exact .inl rfl
    · exact (each i p h1 hi).1
  · have zero : ∀ m ∈ ms, m = 0 := by
      intro m hm
      obtain ⟨i, hi⟩ := List.mem_iff_getElem?.1 hm
      by_cases h1 : i = 1
      · rw [h1, h0] at hi; cases hi; rfl
      · have hlt : i < s.procs.length := by
          rw [← hl]; rw [List.getElem?_eq_some_iff] at hi; exact hi.1
        have := (each i _ h1 (List.getElem?_eq_getElem hlt)).2
        rw [hi] at this; cases this; rfl
    have : ms.sum = 0 := by
      clear hl hsum h0 hall each
      induction ms with
      | nil => rfl
      | cons a ms ih =>
        rw [List.sum_cons, ih (fun m hm => zero m (List.mem_cons_of_mem _ hm)), zero a List.mem_cons_self]
    omega

/-- How many calls of IsFinished are made before the first Join. -/
def untilJoin (cs : List Thread.Call) : Nat := (cs.takeWhile (· = .isFinished)).length

/-- The clients of C82 on the handle of a task that never sends: no Join returns, no IsFinished is true. -/
theorem quiet_join (cs : List Thread.Call) :
    Quiet (V := Unit) (fun e => e = Thread.Event.answered false) false (untilJoin cs) (Thread.client ⟨0⟩ cs) := by
  induction cs with
  | nil => exact .done
  | cons c cs ih =>
    cases c with
    | join => exact .recv (fun h => by cases h) (fun _ => rfl)
    | isFinished => exact .poll (.emit rfl ih) (fun h => by cases h)

/-- The clients of C84 on a future whose channel is closed without a value. -/
theorem quiet_await (zero : V) (n : Nat) :
    Quiet (V := V) (fun e => e = Gokio.Event.awaited zero) true n (Gokio.client zero ⟨0⟩ n) := by
  induction n with
  | zero => exact .done
  | succ n ih => exact .recv (fun _ => .emit rfl ih) (fun h => by cases h)

theorem quiet_joins (clients : List (List Thread.Call)) :
    Quiet (V := Unit) (fun e => e = Thread.Event.answered false) false (clients.map untilJoin).sum
      (goAll (clients.map (Thread.client ⟨0⟩)) .done) := by
  induction clients with
  | nil => exact .done
  | cons c clients ih => exact .go (quiet_join c) ih

theorem quiet_awaits (zero : V) (ns : List Nat) :
    Quiet (V := V) (fun e => e = Gokio.Event.awaited zero) true ns.sum (goAll (ns.map (Gokio.client zero ⟨0⟩)) .done) := by
  induction ns with
  | nil => exact .done
  | cons n ns ih => exact .go (quiet_await zero n) ih

/-- The program of C82 with a function that does `n` internal steps and then panics or ends its goroutine. -/
def joins (x : Exit) (n : Nat) (clients : List (List Thread.Call)) : Config Unit Thread.Event :=
  start (fun _ => ()) (Thread.spawnExit () (fun _ exit => quit n (exit x))
    fun h => goAll (clients.map (Thread.client h)) .done)

/-- The program of C84 with a function that does `n` internal steps and then panics or ends its goroutine. -/
def awaits (zero : V) (x : Exit) (n : Nat) (clients : List Nat) : Config V (Gokio.Event V) :=
  start (fun _ => zero) (Gokio.spawnExit (fun _ exit => quit n (exit x))
    fun h => goAll (clients.map (Gokio.client zero h)) .done)

end TaskExit
open TaskExit
variable {V : Type}

/-- Functions that return are those of Model/Thread.lean. -/
theorem C143_returning {V E : Type} (unit : V) (f : Proc V E → Proc V E) (g : (V → Proc V E) → Proc V E)
    (k : Thread.JoinHandle → Proc V E) (l : Gokio.Future → Proc V E) :
    Thread.spawnExit unit (fun ret _ => f ret) k = Thread.spawn unit f k ∧
    Gokio.spawnExit (fun ret _ => g ret) l = Gokio.spawn g l := ⟨rfl, rfl⟩

/-- C143, full property: if the function given to Spawn panics or ends its goroutine, Join returns an error, and the rest of
the program goes on.  Proved: in every execution, whoever calls Join and IsFinished how often, no Join reports success (it
does not return at all) and no IsFinished says true.  Missing: see `C143_join_blocks_fails` and `C143_panic_kills_fails`. -/
theorem C143_join_partial (x : Exit) (n : Nat) (clients : List (List Thread.Call)) {tr : List Thread.Event}
    {s : Config Unit Thread.Event} (h : Run (joins x n clients) tr s) : ∀ e ∈ tr, e = .answered false := by
  rcases run_inv rfl ⟨n, rfl⟩ (quiet_joins clients) h with ⟨rfl, _⟩ | hi
  · simp
  · exact hi.shown

/-- C143 is violated: if the function ends its goroutine by runtime.Goexit, an execution that cannot go on has shown the answers
of all calls of IsFinished up to the first Join of each goroutine, and nothing else: whoever called Join is still in it. -/
theorem C143_join_blocks_fails (n : Nat) (clients : List (List Thread.Call)) {tr : List Thread.Event}
    {s : Config Unit Thread.Event} (h : Run (joins .goexit n clients) tr s) (hend : ∀ o s', ¬ Step s o s') :
    s.crashed = false ∧ tr = List.replicate (clients.map untilJoin).sum (.answered false) ∧
    ∀ p ∈ s.procs, p = .done ∨ ∃ k, p = .recv 0 k := by
  rcases run_inv (x := .goexit) rfl ⟨n, rfl⟩ (quiet_joins clients) h with ⟨_, _, _, hs⟩ | hi
  · exact absurd hs (hend _ _)
  · rcases hi.stuck hend with ⟨hx, _⟩ | ⟨_, hcr, hd, hch⟩
    · cases hx
    · obtain ⟨h1, h2⟩ := hi.nobody hend hcr hd hch
      refine ⟨hcr, List.eq_replicate_iff.2 ⟨h2, hi.shown⟩, fun p hp => ?_⟩
      rcases h1 p hp with h | ⟨_, h⟩
      · exact .inl h
      · exact .inr h

/-- C143 is violated: if the function panics, an execution that cannot go on is one in which the program has died, whoever calls
Join or Await. -/
theorem C143_panic_kills_fails (zero : V) (n : Nat) (clients : List (List Thread.Call)) (clients' : List Nat) :
    (∀ tr s, Run (joins .panic n clients) tr s → (∀ o s', ¬ Step s o s') → s.crashed = true) ∧
    ∀ tr s, Run (awaits zero .panic n clients') tr s → (∀ o s', ¬ Step s o s') → s.crashed = true := by
  constructor
  · intro tr s h hend
    rcases run_inv (x := .panic) rfl ⟨n, rfl⟩ (quiet_joins clients) h with ⟨_, _, _, hs⟩ | hi
    · exact absurd hs (hend _ _)
    · rcases hi.stuck hend with ⟨_, hc⟩ | ⟨hx, _⟩
      · exact hc
      · cases hx
  · intro tr s h hend
    rcases run_inv (x := .panic) rfl ⟨n, rfl⟩ (quiet_awaits zero clients') h with ⟨_, _, _, hs⟩ | hi
    · exact absurd hs (hend _ _)
    · rcases hi.stuck hend with ⟨_, hc⟩ | ⟨hx, _⟩
      · exact hc
      · cases hx

/-- C143 is violated: if the function given to Spawn of gokio panics or ends its goroutine, all Awaits that return give the zero
value, which the function never returned; after runtime.Goexit all of them do return in the end. -/
theorem C143_await_zero_fails (zero : V) (x : Exit) (n : Nat) (clients : List Nat) {tr : List (Gokio.Event V)}
    {s : Config V (Gokio.Event V)} (h : Run (awaits zero x n clients) tr s) :
    (∀ e ∈ tr, e = .awaited zero) ∧
    (x = .goexit → (∀ o s', ¬ Step s o s') → s.crashed = false ∧ tr = List.replicate clients.sum (.awaited zero) ∧
      ∀ p ∈ s.procs, p = .done) := by
  rcases run_inv rfl ⟨n, rfl⟩ (quiet_awaits zero clients) h with ⟨rfl, _, _, hs⟩ | hi
  · exact ⟨by simp, fun _ hend => absurd hs (hend _ _)⟩
  · refine ⟨hi.shown, fun hx hend => ?_⟩
    rcases hi.stuck hend with ⟨hx', _⟩ | ⟨_, hcr, hd, hch⟩
    · rw [hx] at hx'; cases hx'
    · obtain ⟨h1, h2⟩ := hi.nobody hend hcr hd hch
      refine ⟨hcr, List.eq_replicate_iff.2 ⟨h2, hi.shown⟩, fun p hp => ?_⟩
      rcases h1 p hp with h | ⟨h, _⟩
      · exact h
      · cases h

/-- C143 is violated: before the panic of a function given to Spawn of gokio kills the program, an Await can return the zero
value: the deferred close comes first.  This happens for every function and whoever else awaits. -/
theorem C143_await_panicked_fails (zero : V) (x : Exit) (n m : Nat) (clients : List Nat) :
    ∃ s, Run (awaits zero x n ((m + 1) :: clients)) [.awaited zero] s ∧ s.crashed = false := by
  let rest : Proc V (Gokio.Event V) := goAll (clients.map (Gokio.client zero ⟨0⟩)) .done
  let c0 (t : Proc V (Gokio.Event V)) (b : Bool) (c : Proc V (Gokio.Event V)) : Config V (Gokio.Event V) :=
    ⟨[rest, t, c], [⟨0, [], b⟩], fun _ => false, fun _ => zero, false⟩
  have r1 := Run.nil (awaits zero x n ((m + 1) :: clients))
  have r2 := ((r1.step (.make (i := 0) rfl rfl)).step (.go (i := 0) rfl rfl)).step (.go (i := 0) rfl rfl)
  have r3 : Run (awaits zero x n ((m + 1) :: clients)) []
      (c0 (quit n (.close 0 x.proc)) false (Gokio.client zero ⟨0⟩ (m + 1))) := r2
  have ticks : ∀ n, Run (c0 (quit n (.close 0 x.proc)) false (Gokio.client zero ⟨0⟩ (m + 1))) []
      (c0 (.close 0 x.proc) false (Gokio.client zero ⟨0⟩ (m + 1))) := by
    intro n
    induction n with
    | zero => exact .nil _
    | succ n ih => exact (Run.one (.tau (i := 1) rfl rfl)).trans ih
  have r4 := (r3.trans (ticks n)).step (.close (i := 1) (ch := ⟨0, [], false⟩) rfl rfl rfl rfl)
  have r5 := r4.step (.recvClosed (j := 2) (ch := ⟨0, [], true⟩) rfl rfl rfl rfl rfl)
  have r6 := r5.step (.emit (i := 2) rfl rfl)
  exact ⟨_, r6, rfl⟩

/-- C143 has content: executions that come to their end. -/
example : ∃ s, Run (joins .goexit 1 [[.isFinished, .join, .isFinished]]) [.answered false] s ∧
    s.procs = [.done, .done, Thread.client ⟨0⟩ [.join, .isFinished]] := by
  have r1 := Run.nil (joins .goexit 1 [[.isFinished, .join, .isFinished]])
  have r2 := ((r1.step (.make (i := 0) rfl rfl)).step (.go (i := 0) rfl rfl)).step (.go (i := 0) rfl rfl)
  have r3 := r2.step (.tau (i := 1) rfl rfl)
  have r4 := r3.step (.pollDefault (j := 2) (c := 0) (ch := ⟨0, [], false⟩) rfl rfl rfl rfl rfl (by
    intro i v k h
    rcases i with _ | _ | _ | i <;> simp [Config.to, joins, start, goAll, Thread.client, Thread.isFinished, quit, Exit.proc] at h))
  have r5 := r4.step (.emit (i := 2) rfl rfl)
  exact ⟨_, r5, rfl⟩

example : ∃ s, Run (joins .panic 0 [[.join]]) [] s ∧ s.crashed = true :=
  ⟨_, (((Run.nil (joins .panic 0 [[.join]])).step (.make (i := 0) rfl rfl)).step (.go (i := 0) rfl rfl)).step
    (.unlockFree (i := 1) rfl rfl rfl), rfl⟩

end Gost
