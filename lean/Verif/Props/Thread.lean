import Verif.Model.Thread
/-
Properties C82 and C83 (Join and IsFinished of a thread) and C102 (a thread that nobody joins).
-/
namespace Gost
open Conc

theorem Conc.Run.split {V E : Type} {s u : Config V E} {a b : List E} (h : Run s (a ++ b) u) :
    ∃ t, Run s a t ∧ Run t b u := by
  generalize htr : a ++ b = tr at h
  induction h generalizing b with
  | nil =>
    obtain ⟨rfl, rfl⟩ := List.append_eq_nil_iff.1 htr
    exact ⟨s, .nil s, .nil s⟩
  | @step t u tr e r h ih =>
    rcases List.eq_nil_or_concat b with rfl | ⟨b', x, rfl⟩
    · rw [List.append_nil] at htr
      rw [htr]
      exact ⟨u, r.step h, .nil u⟩
    · cases e with
      | none =>
        simp only [Option.toList_none, List.append_nil] at htr
        obtain ⟨t', h1, h2⟩ := ih htr
        exact ⟨t', h1, by simpa using h2.step h⟩
      | some y =>
        simp only [Option.toList_some, List.concat_eq_append] at htr
        rw [← List.append_assoc] at htr
        obtain ⟨e1, e2⟩ := List.append_inj' htr rfl
        obtain ⟨t', h1, h2⟩ := ih e1
        cases e2
        exact ⟨t', h1, by simpa using h2.step h⟩

namespace Thread

/-- What is seen of an execution: the function has returned, a Join has returned, an IsFinished has answered. -/
inductive Event where
  | returned
  | joined
  | answered (b : Bool)
  deriving DecidableEq

/-- A call on the handle. -/
inductive Call where
  | join
  | isFinished
  deriving DecidableEq

/-- A goroutine that makes the calls, one after the other. -/
def client (h : JoinHandle) : List Call → Proc Unit Event
  | [] => .done
  | .join :: cs => join h (.emit .joined (client h cs))
  | .isFinished :: cs => isFinished h fun b => .emit (.answered b) (client h cs)

/-- A function that does `n` internal steps and returns. -/
def work : Nat → Proc Unit Event → Proc Unit Event
  | 0, k => .emit .returned k
  | n + 1, k => .tau (work n k)

/-- The program: main spawns the function and starts any number of goroutines, with any calls on the handle. -/
def program (n : Nat) (clients : List (List Call)) : Config Unit Event :=
  start (fun _ => ()) (spawn () (work n) fun h => goAll (clients.map (client h)) .done)

/-- Where the spawned goroutine is. -/
inductive Task where
  | working (n : Nat) | sending | waiting | over
  deriving DecidableEq
/-- Where a client is: between calls, or just back from one. -/
inductive Cl where
  | idle (cs : List Call) | back (e : Event) (cs : List Call)

def Task.proc : Task → Proc Unit Event
  | .working n => work n (.send 0 () .done)
  | .sending => .send 0 () .done
  | .waiting => .parked 0 () .done
  | .over => .done
def Cl.proc : Cl → Proc Unit Event
  | .idle cs => client ⟨0⟩ cs
  | .back e cs => .emit e (client ⟨0⟩ cs)
def mainProc (cs : List (List Call)) : Proc Unit Event := goAll (cs.map (client ⟨0⟩)) .done

/-- The configuration with main, task and clients at these places. -/
def conf (cs : List (List Call)) (t : Task) (cl : List Cl) : Config Unit Event :=
  ⟨mainProc cs :: t.proc :: cl.map Cl.proc, [⟨0, [], false⟩], fun _ => false, fun _ => (), false⟩

/-- The moves of the program. -/
inductive Move : List (List Call) → Task → List Cl → Option Event → List (List Call) → Task → List Cl → Prop
  | start {c cs t cl} : Move (c :: cs) t cl none cs t (cl ++ [.idle c])
  | tick {cs n cl} : Move cs (.working (n + 1)) cl none cs (.working n) cl
  | ret {cs cl} : Move cs (.working 0) cl (some .returned) cs .sending cl
  | park {cs cl} : Move cs .sending cl none cs .waiting cl
  | join {cs t cl r} {j : Nat} (ht : t = .sending ∨ t = .waiting) (hj : cl[j]? = some (.idle (.join :: r))) :
      Move cs t cl none cs .over (cl.set j (.back .joined r))
  | poll {cs t cl r} {j : Nat} (ht : t = .sending ∨ t = .waiting) (hj : cl[j]? = some (.idle (.isFinished :: r))) :
      Move cs t cl none cs .over (cl.set j (.back (.answered true) r))
  | dflt {cs t cl r} {j : Nat} (ht : t ≠ .waiting) (hj : cl[j]? = some (.idle (.isFinished :: r))) :
      Move cs t cl none cs t (cl.set j (.back (.answered false) r))
  | show {cs t cl e r} {j : Nat} (hj : cl[j]? = some (.back e r)) : Move cs t cl (some e) cs t (cl.set j (.idle r))

theorem procs_cases {cs : List (List Call)} {t : Task} {cl : List Cl} {i : Nat} {p : Proc Unit Event}
    (h : (conf cs t cl).procs[i]? = some p) :
    (i = 0 ∧ p = mainProc cs) ∨ (i = 1 ∧ p = t.proc) ∨ ∃ j q, i = j + 2 ∧ cl[j]? = some q ∧ p = q.proc := by
  match i with
  | 0 => exact .inl ⟨rfl, by simpa [conf] using h.symm⟩
  | 1 => exact .inr (.inl ⟨rfl, by simpa [conf] using h.symm⟩)
  | j + 2 =>
    refine .inr (.inr ⟨j, ?_⟩)
    simp only [conf, List.getElem?_cons_succ, List.getElem?_map, Option.map_eq_some_iff] at h
    obtain ⟨q, hq, rfl⟩ := h
    exact ⟨q, rfl, hq, rfl⟩

theorem mainProc_cases (cs : List (List Call)) :
    (cs = [] ∧ mainProc cs = .done) ∨ ∃ c r, cs = c :: r ∧ mainProc cs = .go (client ⟨0⟩ c) (mainProc r) := by
  cases cs with
  | nil => exact .inl ⟨rfl, rfl⟩
  | cons c r => exact .inr ⟨c, r, rfl, rfl⟩

theorem task_cases (t : Task) :
    (∃ n, t = .working (n + 1) ∧ t.proc = .tau (Task.working n).proc) ∨
    (t = .working 0 ∧ t.proc = .emit .returned Task.sending.proc) ∨
    (t = .sending ∧ t.proc = .send 0 () .done) ∨ (t = .waiting ∧ t.proc = .parked 0 () .done) ∨
    (t = .over ∧ t.proc = .done) := by
  cases t with
  | working n =>
    cases n with
    | zero => exact .inr (.inl ⟨rfl, rfl⟩)
    | succ n => exact .inl ⟨n, rfl, rfl⟩
  | sending => simp [Task.proc]
  | waiting => simp [Task.proc]
  | over => simp [Task.proc]

theorem cl_cases (q : Cl) :
    (q = .idle [] ∧ q.proc = .done) ∨
    (∃ r, q = .idle (.join :: r) ∧ q.proc = .recv 0 fun _ => (Cl.back .joined r).proc) ∨
    (∃ r, q = .idle (.isFinished :: r) ∧ q.proc = .poll 0 fun b => (Cl.back (.answered b.isSome) r).proc) ∨
    (∃ e r, q = .back e r ∧ q.proc = .emit e (Cl.idle r).proc) := by
  cases q with
  | idle cs =>
    match cs with
    | [] => exact .inl ⟨rfl, rfl⟩
    | .join :: r => exact .inr (.inl ⟨r, rfl, rfl⟩)
    | .isFinished :: r => exact .inr (.inr (.inl ⟨r, rfl, rfl⟩))
  | back e r => exact .inr (.inr (.inr ⟨e, r, rfl, rfl⟩))

/-- Who executes an instruction: main, the task or a client. -/
theorem who {cs : List (List Call)} {t : Task} {cl : List Cl} {i : Nat} {p : Proc Unit Event}
    (h : (conf cs t cl).procs[i]? = some p) :
    (p = .done) ∨
    (i = 0 ∧ ∃ c r, cs = c :: r ∧ p = .go (client ⟨0⟩ c) (mainProc r)) ∨
    (i = 1 ∧ ∃ n, t = .working (n + 1) ∧ p = .tau (Task.working n).proc) ∨
    (i = 1 ∧ t = .working 0 ∧ p = .emit .returned Task.sending.proc) ∨
    (i = 1 ∧ t = .sending ∧ p = .send 0 () .done) ∨
    (i = 1 ∧ t = .waiting ∧ p = .parked 0 () .done) ∨
    (∃ j r, i = j + 2 ∧ cl[j]? = some (.idle (.join :: r)) ∧ p = .recv 0 fun _ => (Cl.back .joined r).proc) ∨
    (∃ j r, i = j + 2 ∧ cl[j]? = some (.idle (.isFinished :: r)) ∧
      p = .poll 0 fun b => (Cl.back (.answered b.isSome) r).proc) ∨
    (∃ j e r, i = j + 2 ∧ cl[j]? = some (.back e r) ∧ p = .emit e (Cl.idle r).proc) := by
  rcases procs_cases h with ⟨rfl, rfl⟩ | ⟨rfl, rfl⟩ | ⟨j, q, rfl, hq, rfl⟩
  · rcases mainProc_cases cs with ⟨_, e⟩ | ⟨c, r, h1, e⟩
    · exact .inl e
    · exact .inr (.inl ⟨rfl, c, r, h1, e⟩)
  · rcases task_cases t with ⟨n, h1, e⟩ | ⟨h1, e⟩ | ⟨h1, e⟩ | ⟨h1, e⟩ | ⟨h1, e⟩
    · exact .inr (.inr (.inl ⟨rfl, n, h1, e⟩))
    · exact .inr (.inr (.inr (.inl ⟨rfl, h1, e⟩)))
    · exact .inr (.inr (.inr (.inr (.inl ⟨rfl, h1, e⟩))))
    · exact .inr (.inr (.inr (.inr (.inr (.inl ⟨rfl, h1, e⟩)))))
    · exact .inl e
  · rcases cl_cases q with ⟨_, e⟩ | ⟨r, h1, e⟩ | ⟨r, h1, e⟩ | ⟨x, r, h1, e⟩
    · exact .inl e
    · exact .inr (.inr (.inr (.inr (.inr (.inr (.inl ⟨j, r, rfl, h1 ▸ hq, e⟩))))))
    · exact .inr (.inr (.inr (.inr (.inr (.inr (.inr (.inl ⟨j, r, rfl, h1 ▸ hq, e⟩)))))))
    · exact .inr (.inr (.inr (.inr (.inr (.inr (.inr (.inr ⟨j, x, r, rfl, h1 ▸ hq, e⟩)))))))

theorem conf_client (cs : List (List Call)) (t : Task) (cl : List Cl) (j : Nat) (q : Cl) :
    (conf cs t cl).to (j + 2) q.proc = conf cs t (cl.set j q) := by
  simp [conf, Config.to, List.map_set]

theorem conf_task (cs : List (List Call)) (t t' : Task) (cl : List Cl) :
    (conf cs t cl).to 1 t'.proc = conf cs t' cl := rfl

theorem sends {cs : List (List Call)} {t : Task} {cl : List Cl} {i c : Nat} {v : Unit} {k : Proc Unit Event}
    (h : SendsAt (conf cs t cl) i c v k) : i = 1 ∧ (t = .sending ∨ t = .waiting) ∧ k = Task.over.proc := by
  rcases h with h | h
  · rcases who h with e | ⟨_, _, _, _, e⟩ | ⟨_, _, _, e⟩ | ⟨_, _, e⟩ | ⟨h1, h2, e⟩ | ⟨_, _, e⟩ | ⟨_, _, _, _, e⟩ |
      ⟨_, _, _, _, e⟩ | ⟨_, _, _, _, _, e⟩ <;> cases e
    exact ⟨h1, .inl h2, rfl⟩
  · rcases who h with e | ⟨_, _, _, _, e⟩ | ⟨_, _, _, e⟩ | ⟨_, _, e⟩ | ⟨_, _, e⟩ | ⟨h1, h2, e⟩ | ⟨_, _, _, _, e⟩ |
      ⟨_, _, _, _, e⟩ | ⟨_, _, _, _, _, e⟩ <;> cases e
    exact ⟨h1, .inr h2, rfl⟩

/-- Every step of the program is one of the moves. -/
theorem step_move {cs : List (List Call)} {t : Task} {cl : List Cl} {e : Option Event} {s' : Config Unit Event}
    (h : Step (conf cs t cl) e s') : ∃ cs' t' cl', s' = conf cs' t' cl' ∧ Move cs t cl e cs' t' cl' := by
  have chan : ∀ {c : Nat} {ch : Chan Unit}, (conf cs t cl).chans[c]? = some ch → ch = ⟨0, [], false⟩ := by
    intro c ch hch
    match c with
    | 0 => simpa [conf] using hch.symm
    | c + 1 => simp [conf] at hch
  cases h with
  | emit hc h =>
    rcases who h with e | ⟨_, _, _, _, e⟩ | ⟨_, _, _, e⟩ | ⟨rfl, rfl, e⟩ | ⟨_, _, e⟩ | ⟨_, _, e⟩ | ⟨_, _, _, _, e⟩ |
      ⟨_, _, _, _, e⟩ | ⟨j, x, r, rfl, hq, e⟩ <;> cases e
    · exact ⟨_, _, _, rfl, .ret⟩
    · exact ⟨_, _, _, conf_client .., .show hq⟩
  | tau hc h =>
    rcases who h with e | ⟨_, _, _, _, e⟩ | ⟨rfl, n, rfl, e⟩ | ⟨_, _, e⟩ | ⟨_, _, e⟩ | ⟨_, _, e⟩ | ⟨_, _, _, _, e⟩ |
      ⟨_, _, _, _, e⟩ | ⟨_, _, _, _, _, e⟩ <;> cases e
    exact ⟨_, _, _, rfl, .tick⟩
  | go hc h =>
    rcases who h with e | ⟨rfl, c, r, rfl, e⟩ | ⟨_, _, _, e⟩ | ⟨_, _, e⟩ | ⟨_, _, e⟩ | ⟨_, _, e⟩ | ⟨_, _, _, _, e⟩ |
      ⟨_, _, _, _, e⟩ | ⟨_, _, _, _, _, e⟩ <;> cases e
    refine ⟨_, _, _, ?_, .start⟩
    simp [conf, Cl.proc]
  | park hc h hch hcl =>
    rcases who h with e | ⟨_, _, _, _, e⟩ | ⟨_, _, _, e⟩ | ⟨_, _, e⟩ | ⟨rfl, rfl, e⟩ | ⟨_, _, e⟩ | ⟨_, _, _, _, e⟩ |
      ⟨_, _, _, _, e⟩ | ⟨_, _, _, _, _, e⟩ <;> cases e
    exact ⟨_, _, _, rfl, .park⟩
  | sendBuf hc h hch hcl hb =>
    have := chan hch
    subst this
    simp at hb
  | sendClosed hc h hch hcl =>
    have := chan hch
    subst this
    cases hcl
  | meet hc h hj hch hcl hb =>
    obtain ⟨rfl, ht, rfl⟩ := sends h
    rcases who hj with e | ⟨_, _, _, _, e⟩ | ⟨_, _, _, e⟩ | ⟨_, _, e⟩ | ⟨_, _, e⟩ | ⟨_, _, e⟩ | ⟨j, r, rfl, hq, e⟩ |
      ⟨_, _, _, _, e⟩ | ⟨_, _, _, _, _, e⟩ <;> cases e
    refine ⟨_, _, _, ?_, .join ht hq⟩
    rw [conf_task, conf_client]
  | meetPoll hc h hj hch hcl hb =>
    obtain ⟨rfl, ht, rfl⟩ := sends h
    rcases who hj with e | ⟨_, _, _, _, e⟩ | ⟨_, _, _, e⟩ | ⟨_, _, e⟩ | ⟨_, _, e⟩ | ⟨_, _, e⟩ | ⟨_, _, _, _, e⟩ |
      ⟨j, r, rfl, hq, e⟩ | ⟨_, _, _, _, _, e⟩ <;> cases e
    refine ⟨_, _, _, ?_, .poll ht hq⟩
    rw [conf_task]
    exact conf_client ..
  | recvBuf hc hj hch hb =>
    have := chan hch
    subst this
    cases hb
  | pollBuf hc hj hch hb =>
    have := chan hch
    subst this
    cases hb
  | recvClosed hc hj hch hcl hb =>
    have := chan hch
    subst this
    cases hcl
  | pollClosed hc hj hch hcl hb =>
    have := chan hch
    subst this
    cases hcl
  | pollDefault hc hj hch hcl hb hn =>
    rcases who hj with e | ⟨_, _, _, _, e⟩ | ⟨_, _, _, e⟩ | ⟨_, _, e⟩ | ⟨_, _, e⟩ | ⟨_, _, e⟩ | ⟨_, _, _, _, e⟩ |
      ⟨j, r, rfl, hq, e⟩ | ⟨_, _, _, _, _, e⟩ <;> cases e
    refine ⟨_, _, _, conf_client .., .dflt ?_ hq⟩
    rintro rfl
    exact hn 1 () .done rfl
  | closeClosed hc h hch hcl =>
    have := chan hch
    subst this
    cases hcl
  | make hc h | close hc h | lock hc h | tryLock hc h | tryLockFails hc h | unlock hc h | unlockFree hc h
  | load hc h | store hc h =>
    rcases who h with e | ⟨_, _, _, _, e⟩ | ⟨_, _, _, e⟩ | ⟨_, _, e⟩ | ⟨_, _, e⟩ | ⟨_, _, e⟩ | ⟨_, _, _, _, e⟩ |
      ⟨_, _, _, _, e⟩ | ⟨_, _, _, _, _, e⟩ <;> cases e

theorem get_client {cs : List (List Call)} {t : Task} {cl : List Cl} {j : Nat} {q : Cl} (h : cl[j]? = some q) :
    (conf cs t cl).procs[j + 2]? = some q.proc := by
  simp [conf, h]

/-- Every move is a step. -/
theorem move_step {cs cs' : List (List Call)} {t t' : Task} {cl cl' : List Cl} {e : Option Event}
    (h : Move cs t cl e cs' t' cl') : Step (conf cs t cl) e (conf cs' t' cl') := by
  have snd : ∀ {t : Task}, t = .sending ∨ t = .waiting → SendsAt (conf cs t cl) 1 0 () Task.over.proc := by
    rintro t (rfl | rfl)
    · exact .fresh rfl
    · exact .waiting rfl
  cases h with
  | @start c _ _ _ =>
    have : conf cs' t (cl ++ [.idle c]) = { conf (c :: cs') t cl with
        procs := (conf (c :: cs') t cl).procs.set 0 (mainProc cs') ++ [client ⟨0⟩ c] } := by
      simp [conf, Cl.proc]
    rw [this]
    exact .go (i := 0) rfl rfl
  | tick => exact .tau (i := 1) rfl rfl
  | ret => exact .emit (i := 1) rfl rfl
  | park => exact .park (i := 1) (ch := ⟨0, [], false⟩) rfl rfl rfl rfl
  | join ht hj =>
    rw [← conf_client, ← conf_task cs t .over cl]
    exact .meet (ch := ⟨0, [], false⟩) (v := ()) rfl (snd ht) (get_client hj) rfl rfl rfl
  | poll ht hj =>
    rw [← conf_client, ← conf_task cs t .over cl]
    exact .meetPoll (ch := ⟨0, [], false⟩) (v := ()) rfl (snd ht) (get_client hj) rfl rfl rfl
  | dflt ht hj =>
    rw [← conf_client]
    refine .pollDefault (ch := ⟨0, [], false⟩) rfl (get_client hj) rfl rfl rfl ?_
    intro i v k hp
    rcases who hp with e | ⟨_, _, _, _, e⟩ | ⟨_, _, _, e⟩ | ⟨_, _, e⟩ | ⟨_, _, e⟩ | ⟨_, h2, e⟩ | ⟨_, _, _, _, e⟩ |
      ⟨_, _, _, _, e⟩ | ⟨_, _, _, _, _, e⟩ <;> cases e
    exact ht h2
  | «show» hj =>
    rw [← conf_client]
    exact .emit rfl (get_client hj)

/-- Executions of the program once main has spawned the function. -/
inductive Exec (n : Nat) (clients : List (List Call)) : List Event → List (List Call) → Task → List Cl → Prop
  | init : Exec n clients [] clients (.working n) []
  | move {tr cs t cl e cs' t' cl'} (h : Exec n clients tr cs t cl) (m : Move cs t cl e cs' t' cl') :
      Exec n clients (tr ++ e.toList) cs' t' cl'

theorem step_one {p : Proc Unit Event} {q : Proc Unit Event} {i : Nat}
    (h : ([p] : List (Proc Unit Event))[i]? = some q) : i = 0 ∧ q = p := by
  match i with
  | 0 => exact ⟨rfl, by simpa using h.symm⟩
  | i + 1 => simp at h

/-- The executions of the program are those of the moves, after the two steps of Spawn. -/
theorem run_exec {n : Nat} {clients : List (List Call)} {tr : List Event} {s : Config Unit Event}
    (h : Run (program n clients) tr s) :
    (tr = [] ∧ (s = program n clients ∨ s = ⟨[.go (Task.working n).proc (mainProc clients)], [⟨0, [], false⟩],
      fun _ => false, fun _ => (), false⟩)) ∨
    ∃ cs t cl, s = conf cs t cl ∧ Exec n clients tr cs t cl := by
  induction h with
  | nil => exact .inl ⟨rfl, .inl rfl⟩
  | @step t u tr e r h ih =>
    rcases ih with ⟨rfl, h1 | h1⟩ | ⟨cs, t, cl, rfl, hx⟩
    · left
      subst h1
      cases h with
      | make hc h =>
        obtain ⟨rfl, e⟩ := step_one h
        cases e
        exact ⟨rfl, .inr rfl⟩
      | sendBuf hc h | sendClosed hc h | meet hc h | meetPoll hc h =>
        rcases h with h | h <;> obtain ⟨rfl, e⟩ := step_one h <;> cases e
      | _ hc h => obtain ⟨rfl, e⟩ := step_one h; cases e
    · right
      subst h1
      cases h with
      | go hc h =>
        obtain ⟨rfl, e⟩ := step_one h
        cases e
        exact ⟨clients, .working n, [], rfl, .init⟩
      | sendBuf hc h | sendClosed hc h | meet hc h | meetPoll hc h =>
        rcases h with h | h <;> obtain ⟨rfl, e⟩ := step_one h <;> cases e
      | _ hc h => obtain ⟨rfl, e⟩ := step_one h; cases e
    · right
      obtain ⟨cs', t', cl', rfl, m⟩ := step_move h
      exact ⟨cs', t', cl', rfl, hx.move m⟩

theorem exec_run {n : Nat} {clients : List (List Call)} {tr : List Event} {cs : List (List Call)} {t : Task}
    {cl : List Cl} (h : Exec n clients tr cs t cl) : Run (program n clients) tr (conf cs t cl) := by
  induction h with
  | init =>
    have h1 : Step (program n clients) none ⟨[.go (Task.working n).proc (mainProc clients)], [⟨0, [], false⟩],
      fun _ => false, fun _ => (), false⟩ := .make (s := program n clients) (i := 0) (cap := 0)
        (k := fun c => .go (work n (.send c () .done)) (goAll (clients.map (client ⟨c⟩)) .done)) rfl rfl
    have h2 : Step ⟨[.go (Task.working n).proc (mainProc clients)], [⟨0, [], false⟩],
      fun _ => false, fun _ => (), false⟩ none (conf clients (.working n) []) := .go (i := 0) rfl rfl
    exact ((Run.nil _).step h1).step h2
  | move h m ih => exact ih.step (move_step m)

/-- The events that take the signal. -/
def takes : Event → Bool
  | .returned => false
  | .joined => true
  | .answered b => b

/-- The clients that have taken the signal and are about to tell. -/
def Cl.took : Cl → Bool
  | .idle _ => false
  | .back e _ => takes e

theorem countP_set {q q' : Cl} {cl : List Cl} {j : Nat} (h : cl[j]? = some q) :
    (cl.set j q').countP Cl.took + (if q.took then 1 else 0) = cl.countP Cl.took + (if q'.took then 1 else 0) := by
  induction cl generalizing j with
  | nil => simp at h
  | cons a cl ih =>
    cases j with
    | zero =>
      simp only [List.getElem?_cons_zero, Option.some.injEq] at h
      subst h
      simp only [List.set_cons_zero, List.countP_cons]
      omega
    | succ j =>
      simp only [List.getElem?_cons_succ] at h
      have := ih h
      simp only [List.set_cons_succ, List.countP_cons]
      omega

/-- The invariant: the signal is taken at most once, when the task is over, and not before the function has
returned. -/
theorem exec_inv {n : Nat} {clients : List (List Call)} {tr : List Event} {cs : List (List Call)} {t : Task}
    {cl : List Cl} (h : Exec n clients tr cs t cl) :
    tr.countP takes + cl.countP Cl.took = (if t = .over then 1 else 0) ∧
    ((∀ m, t ≠ .working m) ↔ .returned ∈ tr) ∧ (∀ q ∈ cl, ∀ r, q ≠ .back .returned r) := by
  induction h with
  | init => simp
  | @move tr cs t cl e cs' t' cl' h m ih =>
    obtain ⟨h1, h2, h3⟩ := ih
    have keep : ∀ {j : Nat} {q : Cl}, (∀ r, q ≠ .back .returned r) → ∀ q' ∈ cl.set j q, ∀ r, q' ≠ .back .returned r := by
      intro j q hq q' hq' r
      rcases List.mem_or_eq_of_mem_set hq' with h' | rfl
      · exact h3 q' h' r
      · exact hq r
    cases m with
    | start =>
      refine ⟨by simp [Cl.took, h1], by simpa using h2, ?_⟩
      intro q hq r
      rcases List.mem_append.1 hq with hq | hq
      · exact h3 q hq r
      · rw [List.mem_singleton.1 hq]; intro e; cases e
    | tick => exact ⟨by simpa using h1, by simpa using h2, h3⟩
    | ret => exact ⟨by simpa [takes] using h1, by simp, h3⟩
    | park => exact ⟨by simpa using h1, by simpa using h2, h3⟩
    | @join _ _ _ r j ht hj =>
      have hc := countP_set (q' := .back .joined r) hj
      simp only [Cl.took, takes, if_true, Bool.false_eq_true, if_false, Nat.add_zero] at hc
      refine ⟨?_, ?_, keep (by intro r e; cases e)⟩
      · rw [if_neg (by rcases ht with rfl | rfl <;> decide)] at h1
        simp only [Option.toList_none, List.append_nil, if_true]
        omega
      · simp only [Option.toList_none, List.append_nil, ← h2]
        rcases ht with rfl | rfl <;> simp
    | @poll _ _ _ r j ht hj =>
      have hc := countP_set (q' := .back (.answered true) r) hj
      simp only [Cl.took, takes, if_true, Bool.false_eq_true, if_false, Nat.add_zero] at hc
      refine ⟨?_, ?_, keep (by intro r e; cases e)⟩
      · rw [if_neg (by rcases ht with rfl | rfl <;> decide)] at h1
        simp only [Option.toList_none, List.append_nil, if_true]
        omega
      · simp only [Option.toList_none, List.append_nil, ← h2]
        rcases ht with rfl | rfl <;> simp
    | @dflt _ _ _ r j ht hj =>
      have hc := countP_set (q' := .back (.answered false) r) hj
      simp only [Cl.took, takes, Bool.false_eq_true, if_false, Nat.add_zero] at hc
      refine ⟨?_, by simpa using h2, keep (by intro r e; cases e)⟩
      simp only [Option.toList_none, List.append_nil]
      omega
    | @«show» _ _ _ e r j hj =>
      have hc := countP_set (q' := .idle r) hj
      simp only [Cl.took, Bool.false_eq_true, if_false, Nat.add_zero] at hc
      refine ⟨?_, ?_, keep (by intro r e; cases e)⟩
      · simp only [Option.toList_some, List.countP_append, List.countP_singleton]
        cases hb : takes e <;> simp only [hb, Bool.false_eq_true, if_false, if_true] at hc ⊢ <;> omega
      · rw [h2]
        have hne : Event.returned ≠ e := by
          rintro rfl
          exact h3 _ (List.mem_of_getElem? hj) r rfl
        simp [hne]

end Thread
open Thread

/-- C82: in every execution, with any number of goroutines calling Join and IsFinished on the handle, a Join
returns, and an IsFinished answers true, only after the function has returned. -/
theorem C82_join_after_return {n : Nat} {clients : List (List Call)} {tr : List Event} {s : Config Unit Event}
    (h : Run (program n clients) tr s) {a b : List Event} {e : Event} (htr : tr = a ++ e :: b)
    (he : e = .joined ∨ e = .answered true) : .returned ∈ a := by
  subst htr
  have : a ++ e :: b = (a ++ [e]) ++ b := by simp
  rw [this] at h
  obtain ⟨u, h1, _⟩ := h.split
  have hmem : e ∈ a ++ [e] := by simp
  rcases run_exec h1 with ⟨h0, _⟩ | ⟨cs, t, cl, _, hx⟩
  · simp at h0
  · obtain ⟨i1, i2, _⟩ := exec_inv hx
    have hpos : 0 < (a ++ [e]).countP takes := by
      rw [List.countP_pos_iff]
      exact ⟨e, hmem, by rcases he with rfl | rfl <;> rfl⟩
    have ht : t = .over := by
      by_cases ht : t = .over
      · exact ht
      · rw [if_neg ht] at i1; omega
    subst ht
    have hr := i2.1 (by intro m; simp)
    rcases List.mem_append.1 hr with h' | h'
    · exact h'
    · rcases he with rfl | rfl <;> simp at h'

namespace Thread
theorem exec_work {n : Nat} {clients : List (List Call)} {tr : List Event} {cs : List (List Call)} {cl : List Cl}
    {m : Nat} (h : Exec n clients tr cs (.working m) cl) : Exec n clients (tr ++ [.returned]) cs .sending cl := by
  induction m generalizing tr with
  | zero => exact h.move .ret
  | succ m ih =>
    have := h.move .tick
    simp only [Option.toList_none, List.append_nil] at this
    exact ih this
end Thread

namespace Thread
theorem set_get {cl : List Cl} {j : Nat} {q q' : Cl} (h : cl[j]? = some q) : (cl.set j q')[j]? = some q' := by
  have hl : j < cl.length := by rw [List.getElem?_eq_some_iff] at h; exact h.1
  simp [hl]

/-- The two configurations of Spawn itself. -/
theorem early {n : Nat} {clients : List (List Call)} {s : Config Unit Event}
    (h : s = program n clients ∨ s = ⟨[.go (Task.working n).proc (mainProc clients)], [⟨0, [], false⟩],
      fun _ => false, fun _ => (), false⟩) : s.procs.length = 1 ∧ ∃ s', Step s none s' := by
  rcases h with rfl | rfl
  · exact ⟨rfl, _, .make (s := program n clients) (i := 0) (cap := 0)
        (k := fun c => .go (work n (.send c () .done)) (goAll (clients.map (client ⟨c⟩)) .done)) rfl rfl⟩
  · exact ⟨rfl, _, .go (i := 0) rfl rfl⟩

/-- What remains to be done. -/
def Task.left : Task → Nat
  | .working n => n + 3
  | .sending => 2
  | .waiting => 1
  | .over => 0
def Cl.left : Cl → Nat
  | .idle cs => 2 * cs.length
  | .back _ cs => 2 * cs.length + 1
def left (cs : List (List Call)) (t : Task) (cl : List Cl) : Nat :=
  (cs.map fun c => 2 * c.length + 1).sum + t.left + (cl.map Cl.left).sum

theorem sum_set {cl : List Cl} {j : Nat} {q q' : Cl} (h : cl[j]? = some q) :
    ((cl.set j q').map Cl.left).sum + q.left = (cl.map Cl.left).sum + q'.left := by
  induction cl generalizing j with
  | nil => simp at h
  | cons a cl ih =>
    cases j with
    | zero =>
      simp only [List.getElem?_cons_zero, Option.some.injEq] at h
      subst h
      simp only [List.set_cons_zero, List.map_cons, List.sum_cons]
      omega
    | succ j =>
      simp only [List.getElem?_cons_succ] at h
      have := ih h
      simp only [List.set_cons_succ, List.map_cons, List.sum_cons]
      omega

theorem move_left {cs cs' : List (List Call)} {t t' : Task} {cl cl' : List Cl} {e : Option Event}
    (m : Move cs t cl e cs' t' cl') : left cs' t' cl' < left cs t cl := by
  unfold left
  cases m with
  | start =>
    simp only [List.map_cons, List.sum_cons, List.map_append, List.sum_append, List.map_nil, List.sum_nil, Cl.left]
    omega
  | tick => simp only [Task.left]; omega
  | ret => simp only [Task.left]; omega
  | park => simp only [Task.left]; omega
  | @join _ _ _ r j ht hj =>
    have := sum_set (q' := .back .joined r) hj
    rcases ht with rfl | rfl <;> simp only [Task.left, Cl.left, List.length_cons] at this ⊢ <;> omega
  | @poll _ _ _ r j ht hj =>
    have := sum_set (q' := .back (.answered true) r) hj
    rcases ht with rfl | rfl <;> simp only [Task.left, Cl.left, List.length_cons] at this ⊢ <;> omega
  | @dflt _ _ _ r j ht hj =>
    have := sum_set (q' := .back (.answered false) r) hj
    simp only [Cl.left, List.length_cons] at this ⊢
    omega
  | @«show» _ _ _ e r j hj =>
    have := sum_set (q' := .idle r) hj
    simp only [Cl.left] at this ⊢
    omega
end Thread

/-- C82: a Join can return as long as nobody has taken the signal: from every reachable state in which some
goroutine is in Join and the goroutine of the function has not ended, that Join can be the next call to return,
whatever the others have done. -/
theorem C82_join_can_return {n : Nat} {clients : List (List Call)} {tr : List Event} {s : Config Unit Event}
    (h : Run (program n clients) tr s) {i : Nat} {k : Option Unit → Proc Unit Event}
    (hj : s.procs[i]? = some (.recv 0 k)) (ht : s.procs[1]? ≠ some .done) :
    ∃ a s', Run s (a ++ [.joined]) s' ∧ (∀ e ∈ a, e = .returned) := by
  rcases run_exec h with ⟨_, he⟩ | ⟨cs, t, cl, rfl, hx⟩
  · exfalso
    rcases he with rfl | rfl <;> (match i with | 0 => cases hj | i + 1 => simp [program, start] at hj)
  rcases who hj with e | ⟨_, _, _, _, e⟩ | ⟨_, _, _, e⟩ | ⟨_, _, e⟩ | ⟨_, _, e⟩ | ⟨_, _, e⟩ | ⟨j, r, rfl, hq, e⟩ |
    ⟨_, _, _, _, e⟩ | ⟨_, _, _, _, _, e⟩ <;> cases e
  have go : ∀ {t}, (t = .sending ∨ t = .waiting) → Run (conf cs t cl) [.joined]
      (conf cs .over ((cl.set j (.back .joined r)).set j (.idle r))) := by
    intro t ht
    exact (Run.one (move_step (Move.join (cs := cs) ht hq))).step (move_step (Move.show (set_get hq)))
  have wk : ∀ m, Run (conf cs (.working m) cl) [.returned] (conf cs .sending cl) := by
    intro m
    induction m with
    | zero => exact Run.one (move_step .ret)
    | succ m ih => exact (Run.one (move_step .tick)).trans ih
  cases t with
  | working m => exact ⟨[.returned], _, (wk m).trans (go (.inl rfl)), by simp⟩
  | sending => exact ⟨[], _, go (.inl rfl), by simp⟩
  | waiting => exact ⟨[], _, go (.inr rfl), by simp⟩
  | over => exact absurd rfl ht

/-- C82: no execution goes on forever (so that what `C82_end` says about the end of an execution comes about
in every execution, without any assumption on scheduling). -/
theorem C82_always_ends (n : Nat) (clients : List (List Call)) (f : Nat → Config Unit Event)
    (h0 : f 0 = program n clients) : ∃ i, ∀ e, ¬ Step (f i) e (f (i + 1)) := by
  apply Classical.byContradiction
  intro hno
  have hs : ∀ i, ∃ e, Step (f i) e (f (i + 1)) := by
    intro i
    apply Classical.byContradiction
    intro hi
    exact hno ⟨i, fun e he => hi ⟨e, he⟩⟩
  have hr : ∀ i, ∃ tr, Run (program n clients) tr (f i) := by
    intro i
    induction i with
    | zero => exact ⟨[], h0 ▸ .nil _⟩
    | succ i ih =>
      obtain ⟨tr, h⟩ := ih
      obtain ⟨e, he⟩ := hs i
      exact ⟨_, h.step he⟩
  -- after two steps the program is in one of the configurations of the moves
  have h2 : ∃ cs t cl, f 2 = conf cs t cl := by
    obtain ⟨e0, s0⟩ := hs 0
    obtain ⟨e1, s1⟩ := hs 1
    rw [h0] at s0
    have one : ∀ {p q : Proc Unit Event} {i : Nat}, ([p] : List (Proc Unit Event))[i]? = some q → i = 0 ∧ q = p :=
      fun h => step_one h
    have e1 : f 1 = ⟨[.go (Task.working n).proc (mainProc clients)], [⟨0, [], false⟩],
        fun _ => false, fun _ => (), false⟩ := by
      generalize f 1 = u at s0
      cases s0 with
      | make hc h =>
        obtain ⟨rfl, e⟩ := one h
        cases e
        rfl
      | sendBuf hc h | sendClosed hc h | meet hc h | meetPoll hc h =>
        rcases h with h | h <;> obtain ⟨rfl, e⟩ := one h <;> cases e
      | _ hc h => obtain ⟨rfl, e⟩ := one h; cases e
    rw [e1] at s1
    generalize f (1 + 1) = u at s1
    cases s1 with
    | go hc h =>
      obtain ⟨rfl, e⟩ := one h
      cases e
      exact ⟨clients, .working n, [], rfl⟩
    | sendBuf hc h | sendClosed hc h | meet hc h | meetPoll hc h =>
      rcases h with h | h <;> obtain ⟨rfl, e⟩ := one h <;> cases e
    | _ hc h => obtain ⟨rfl, e⟩ := one h; cases e
  have down : ∀ m i cs t cl, f i = conf cs t cl → left cs t cl ≤ m → False := by
    intro m
    induction m with
    | zero =>
      intro i cs t cl hi hm
      obtain ⟨e, he⟩ := hs i
      rw [hi] at he
      obtain ⟨cs', t', cl', _, mv⟩ := step_move he
      have := move_left mv
      omega
    | succ m ih =>
      intro i cs t cl hi hm
      obtain ⟨e, he⟩ := hs i
      rw [hi] at he
      obtain ⟨cs', t', cl', h', mv⟩ := step_move he
      have := move_left mv
      exact ih (i + 1) cs' t' cl' h' (by omega)
  obtain ⟨cs, t, cl, h2⟩ := h2
  exact down _ 2 cs t cl h2 (Nat.le_refl _)

/-- C82: when an execution has come to its end, the function has returned, and a goroutine is still in Join
only if another call has taken the signal.  In particular a Join that is the only call on the handle has
returned. -/
theorem C82_end {n : Nat} {clients : List (List Call)} {tr : List Event} {s : Config Unit Event}
    (h : Run (program n clients) tr s) (hend : ∀ e s', ¬ Step s e s') :
    .returned ∈ tr ∧ (.joined ∈ tr ∨ .answered true ∈ tr ∨ ∀ (i : Nat) (k : Option Unit → Proc Unit Event), s.procs[i]? ≠ some (.recv 0 k)) := by
  rcases run_exec h with ⟨_, he⟩ | ⟨cs, t, cl, rfl, hx⟩
  · obtain ⟨_, s', hs⟩ := early he
    exact absurd hs (hend _ _)
  have stuck : ∀ {e cs' t' cl'}, ¬ Move cs t cl e cs' t' cl' := fun m => hend _ _ (move_step m)
  obtain ⟨i1, i2, i3⟩ := exec_inv hx
  have noback : cl.countP Cl.took = 0 := by
    rw [List.countP_eq_zero]
    intro q hq
    obtain ⟨j, hj⟩ := List.mem_iff_getElem?.1 hq
    cases q with
    | idle r => simp [Cl.took]
    | back e r => exact absurd (.show hj) stuck
  refine ⟨i2.1 ?_, ?_⟩
  · rintro m rfl
    cases m with
    | zero => exact stuck .ret
    | succ m => exact stuck .tick
  · cases t with
    | working m =>
      cases m with
      | zero => exact absurd .ret stuck
      | succ m => exact absurd .tick stuck
    | sending => exact absurd .park stuck
    | waiting =>
      refine .inr (.inr fun i k hj => ?_)
      rcases who hj with e | ⟨_, _, _, _, e⟩ | ⟨_, _, _, e⟩ | ⟨_, _, e⟩ | ⟨_, _, e⟩ | ⟨_, _, e⟩ | ⟨j, r, rfl, hq, e⟩ |
        ⟨_, _, _, _, e⟩ | ⟨_, _, _, _, _, e⟩ <;> cases e
      exact stuck (.join (.inr rfl) hq)
    | over =>
      rw [noback] at i1
      have hpos : 0 < tr.countP takes := by simp at i1; omega
      obtain ⟨e, he, ht⟩ := List.countP_pos_iff.1 hpos
      cases e with
      | returned => cases ht
      | joined => exact .inl he
      | answered b =>
        cases b with
        | false => cases ht
        | true => exact .inr (.inl he)

/-- C83 fails: in every execution, of all the calls of Join and IsFinished on the handle together at most one
returns, or answers true: the signal is taken by it.  A second Join never returns, a Join after an IsFinished
that was true never returns, and after either IsFinished is always false. -/
theorem C83_signal_once_fails {n : Nat} {clients : List (List Call)} {tr : List Event} {s : Config Unit Event}
    (h : Run (program n clients) tr s) :
    tr.countP (fun e => e == .joined || e == .answered true) ≤ 1 := by
  have he : (fun e => e == Event.joined || e == .answered true) = takes := by
    funext e
    cases e with
    | returned => rfl
    | joined => rfl
    | answered b => cases b <;> rfl
  rw [he]
  rcases run_exec h with ⟨rfl, _⟩ | ⟨cs, t, cl, _, hx⟩
  · simp
  · have := (exec_inv hx).1
    split at this <;> omega

/-- C83, in part: once the function has returned and its goroutine waits, the first call on the handle that
gets its turn succeeds: IsFinished cannot answer false then, and Join does not block.  Missing: every later
call (`C83_signal_once_fails`), and IsFinished calls that come between the return of the function and the
moment its goroutine waits (`C83_unready_fails`). -/
theorem C83_first_call_partial {n : Nat} {clients : List (List Call)} {tr : List Event} {s : Config Unit Event}
    (h : Run (program n clients) tr s) (hw : s.procs[1]? = some (.parked 0 () .done)) {i : Nat} :
    (∀ k, s.procs[i]? = some (.poll 0 k) →
      (∃ s', Step s none s' ∧ s'.procs[i]? = some (k (some (some ()))) ∧ ∃ r, k (some (some ())) = .emit (.answered true) r) ∧
      (∀ e s' r, Step s e s' → s'.procs[i]? ≠ some (.emit (.answered false) r))) ∧
    (∀ k, s.procs[i]? = some (.recv 0 k) →
      ∃ s', Step s none s' ∧ s'.procs[i]? = some (k (some ())) ∧ ∃ r, k (some ()) = .emit .joined r) := by
  rcases run_exec h with ⟨_, he⟩ | ⟨cs, t, cl, rfl, hx⟩
  · rcases he with rfl | rfl <;> simp [program, start] at hw
  have ht : t = .waiting := by
    rcases task_cases t with ⟨n, h1, e⟩ | ⟨h1, e⟩ | ⟨h1, e⟩ | ⟨h1, e⟩ | ⟨h1, e⟩
    all_goals have hw' : some t.proc = some (Proc.parked 0 () .done) := hw
    all_goals rw [e] at hw'
    all_goals cases hw'
    exact h1
  subst ht
  refine ⟨fun k hj0 => ?_, fun k hj0 => ?_⟩
  · rcases who hj0 with e | ⟨_, _, _, _, e⟩ | ⟨_, _, _, e⟩ | ⟨_, _, e⟩ | ⟨_, _, e⟩ | ⟨_, _, e⟩ | ⟨_, _, _, _, e⟩ |
      ⟨j, r, rfl, hj, e⟩ | ⟨_, _, _, _, _, e⟩ <;> cases e
    refine ⟨⟨_, move_step (.poll (.inr rfl) hj), get_client (set_get hj), _, rfl⟩, ?_⟩
    intro e s r0 hs hp
    obtain ⟨cs', t', cl', rfl, m⟩ := step_move hs
    have back : ∃ q, cl'[j]? = some q ∧ q.proc = .emit (.answered false) r0 := by
      simp only [conf, List.getElem?_cons_succ, List.getElem?_map, Option.map_eq_some_iff] at hp
      exact hp
    obtain ⟨q, hq, hqp⟩ := back
    have idle : (Cl.idle (.isFinished :: r)).proc ≠ .emit (.answered false) r0 := by
      intro e; cases e
    have look : ∀ {j' : Nat} {q' : Cl}, (cl.set j' q')[j]? = some q → q = q' ∨ q = .idle (.isFinished :: r) := by
      intro j' q' h
      by_cases hjj : j' = j
      · subst hjj
        rw [set_get hj] at h
        exact .inl (Option.some.inj h).symm
      · rw [List.getElem?_set_ne hjj, hj] at h
        exact .inr (Option.some.inj h).symm
    cases m with
    | start =>
      have hl : j < cl.length := by rw [List.getElem?_eq_some_iff] at hj; exact hj.1
      rw [List.getElem?_append_left hl, hj] at hq
      cases hq
      exact idle hqp
    | join _ _ =>
      rcases look hq with rfl | rfl
      · cases hqp
      · exact idle hqp
    | poll _ _ =>
      rcases look hq with rfl | rfl
      · cases hqp
      · exact idle hqp
    | dflt ht _ => exact ht rfl
    | @«show» _ _ _ e r' j' hj' =>
      by_cases hjj : j' = j
      · subst hjj; rw [hj] at hj'; cases hj'
      · rw [List.getElem?_set_ne hjj, hj] at hq
        cases hq
        exact idle hqp
  · rcases who hj0 with e | ⟨_, _, _, _, e⟩ | ⟨_, _, _, e⟩ | ⟨_, _, e⟩ | ⟨_, _, e⟩ | ⟨_, _, e⟩ | ⟨j, r, rfl, hj, e⟩ |
      ⟨_, _, _, _, e⟩ | ⟨_, _, _, _, _, e⟩ <;> cases e
    exact ⟨_, move_step (.join (.inr rfl) hj), get_client (set_get hj), _, rfl⟩

/-- C83 fails: the function has returned, and IsFinished answers false: the goroutine of the function has not
come to its channel operation yet.  This happens for every function. -/
theorem C83_unready_fails (n : Nat) :
    ∃ s, Run (program n [[.isFinished]]) [.returned, .answered false] s := by
  have h0 : Exec n [[.isFinished]] [] [] (.working n) [.idle [.isFinished]] := Exec.init.move .start
  have h1 := exec_work h0
  have h2 := h1.move (.dflt (j := 0) (by simp) rfl)
  have h3 := h2.move (.show (j := 0) rfl)
  exact ⟨_, exec_run h3⟩

/-- C102 fails: when nobody calls Join or IsFinished on the handle, the spawned goroutine never ends: it can
always still be in its last instruction, and after the function has returned it is there forever. -/
theorem C102_thread_leak_fails {n : Nat} {tr : List Event} {s : Config Unit Event} (h : Run (program n []) tr s)
    (hr : .returned ∈ tr) :
    s.procs[1]? = some (.send 0 () .done) ∨ s.procs[1]? = some (.parked 0 () .done) := by
  rcases run_exec h with ⟨rfl, _⟩ | ⟨cs, t, cl, rfl, hx⟩
  · simp at hr
  · have key : ∀ {tr cs t cl}, Exec n [] tr cs t cl → cs = [] ∧ cl = [] ∧ t ≠ .over := by
      intro tr cs t cl hx
      induction hx with
      | init => simp
      | move h m ih =>
        obtain ⟨rfl, rfl, ht⟩ := ih
        cases m with
        | tick => simp
        | ret => simp
        | park => simp
        | join _ hj => simp at hj
        | poll _ hj => simp at hj
        | dflt _ hj => simp at hj
        | «show» hj => simp at hj
    obtain ⟨_, _, ht⟩ := key hx
    have := (exec_inv hx).2.1.2 hr
    cases t with
    | working m => exact absurd rfl (this m)
    | sending => exact .inl rfl
    | waiting => exact .inr rfl
    | over => exact absurd rfl ht

-- an execution in which one of two joiners comes back, and one in which IsFinished takes the signal
example : ∃ s, Run (program 2 [[.join], [.join]]) [.returned, .joined] s := by
  have h0 : Exec 2 [[.join], [.join]] [] [] (.working 2) [.idle [.join], .idle [.join]] :=
    (Exec.init.move .start).move .start
  have h2 := (exec_work h0).move (.join (j := 1) (.inl rfl) rfl)
  exact ⟨_, exec_run (h2.move (.show (j := 1) rfl))⟩
example : ∃ s, Run (program 0 [[.isFinished, .isFinished, .join]])
    [.answered false, .returned, .answered true] s := by
  have h0 : Exec 0 [[.isFinished, .isFinished, .join]] [] [] (.working 0) [.idle [.isFinished, .isFinished, .join]] :=
    Exec.init.move .start
  have h1 := (h0.move (.dflt (j := 0) (by simp) rfl)).move (.show (j := 0) rfl)
  have h2 := (exec_work h1).move .park
  have h3 := (h2.move (.poll (j := 0) (.inr rfl) rfl)).move (.show (j := 0) rfl)
  exact ⟨_, exec_run h3⟩
end Gost
