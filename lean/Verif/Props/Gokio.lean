import Verif.Model.Thread
import Verif.Props.Thread
/-
Property C84 (Await of a gokio future) and the part of C102 about gokio.
-/
namespace Gost
open Conc
namespace Gokio
variable {V : Type}

/-- What is seen of an execution: the function has returned, an Await has returned a value. -/
inductive Event (V : Type) where
  | returned
  | awaited (x : V)
  deriving DecidableEq

/-- A goroutine that awaits the future so many times. -/
def client (zero : V) (h : Future) : Nat → Proc V (Event V)
  | 0 => .done
  | m + 1 => await zero h fun x => .emit (.awaited x) (client zero h m)

/-- A function that does `n` internal steps and returns `v`. -/
def work (v : V) : Nat → (V → Proc V (Event V)) → Proc V (Event V)
  | 0, k => .emit .returned (k v)
  | n + 1, k => .tau (work v n k)

/-- The program: main spawns the function and starts goroutines, each of which awaits the future so many times. -/
def program (zero v : V) (n : Nat) (clients : List Nat) : Config V (Event V) :=
  start (fun _ => zero) (spawn (work v n) fun h => goAll (clients.map (client zero h)) .done)

/-- Where the spawned goroutine is. -/
inductive Task where
  | working (n : Nat) | sending | waiting | closing | over
  deriving DecidableEq
/-- Where a client is: between calls, or just back from one. -/
inductive Cl (V : Type) where
  | idle (m : Nat) | back (x : V) (m : Nat)

def Task.proc (v : V) : Task → Proc V (Event V)
  | .working n => work v n fun v => .send 0 v (.close 0 .done)
  | .sending => .send 0 v (.close 0 .done)
  | .waiting => .parked 0 v (.close 0 .done)
  | .closing => .close 0 .done
  | .over => .done
def Cl.proc (zero : V) : Cl V → Proc V (Event V)
  | .idle m => client zero ⟨0⟩ m
  | .back x m => .emit (.awaited x) (client zero ⟨0⟩ m)
def mainProc (zero : V) (cs : List Nat) : Proc V (Event V) := goAll (cs.map (client zero ⟨0⟩)) .done

/-- The configuration with main, task and clients at these places. -/
def conf (zero v : V) (cs : List Nat) (t : Task) (cl : List (Cl V)) : Config V (Event V) :=
  ⟨mainProc zero cs :: t.proc v :: cl.map (Cl.proc zero), [⟨0, [], t == .over⟩], fun _ => false, fun _ => zero, false⟩

/-- The moves of the program. -/
inductive Move (zero v : V) : List Nat → Task → List (Cl V) → Option (Event V) → List Nat → Task → List (Cl V) → Prop
  | start {c cs t cl} : Move zero v (c :: cs) t cl none cs t (cl ++ [.idle c])
  | tick {cs n cl} : Move zero v cs (.working (n + 1)) cl none cs (.working n) cl
  | ret {cs cl} : Move zero v cs (.working 0) cl (some .returned) cs .sending cl
  | park {cs cl} : Move zero v cs .sending cl none cs .waiting cl
  | meet {cs t cl m} {j : Nat} (ht : t = .sending ∨ t = .waiting) (hj : cl[j]? = some (.idle (m + 1))) :
      Move zero v cs t cl none cs .closing (cl.set j (.back v m))
  | close {cs cl} : Move zero v cs .closing cl none cs .over cl
  | drained {cs cl m} {j : Nat} (hj : cl[j]? = some (.idle (m + 1))) :
      Move zero v cs .over cl none cs .over (cl.set j (.back zero m))
  | show {cs t cl x m} {j : Nat} (hj : cl[j]? = some (.back x m)) :
      Move zero v cs t cl (some (.awaited x)) cs t (cl.set j (.idle m))

variable {zero v : V}

theorem procs_cases {cs : List Nat} {t : Task} {cl : List (Cl V)} {i : Nat} {p : Proc V (Event V)}
    (h : (conf zero v cs t cl).procs[i]? = some p) :
    (i = 0 ∧ p = mainProc zero cs) ∨ (i = 1 ∧ p = t.proc v) ∨
      ∃ j q, i = j + 2 ∧ cl[j]? = some q ∧ p = q.proc zero := by
  match i with
  | 0 => exact .inl ⟨rfl, by simpa [conf] using h.symm⟩
  | 1 => exact .inr (.inl ⟨rfl, by simpa [conf] using h.symm⟩)
  | j + 2 =>
    refine .inr (.inr ⟨j, ?_⟩)
    simp only [conf, List.getElem?_cons_succ, List.getElem?_map, Option.map_eq_some_iff] at h
    obtain ⟨q, hq, rfl⟩ := h
    exact ⟨q, rfl, hq, rfl⟩

/-- Who executes an instruction: main, the task or a client. -/
theorem who {cs : List Nat} {t : Task} {cl : List (Cl V)} {i : Nat} {p : Proc V (Event V)}
    (h : (conf zero v cs t cl).procs[i]? = some p) :
    (p = .done) ∨
    (i = 0 ∧ ∃ c r, cs = c :: r ∧ p = .go (client zero ⟨0⟩ c) (mainProc zero r)) ∨
    (i = 1 ∧ ∃ n, t = .working (n + 1) ∧ p = .tau ((Task.working n).proc v)) ∨
    (i = 1 ∧ t = .working 0 ∧ p = .emit .returned (Task.sending.proc v)) ∨
    (i = 1 ∧ t = .sending ∧ p = .send 0 v (Task.closing.proc v)) ∨
    (i = 1 ∧ t = .waiting ∧ p = .parked 0 v (Task.closing.proc v)) ∨
    (i = 1 ∧ t = .closing ∧ p = .close 0 (Task.over.proc v)) ∨
    (∃ j m, i = j + 2 ∧ cl[j]? = some (.idle (m + 1)) ∧ p = .recv 0 fun x => (Cl.back (x.getD zero) m).proc zero) ∨
    (∃ j x m, i = j + 2 ∧ cl[j]? = some (.back x m) ∧ p = .emit (.awaited x) ((Cl.idle m).proc zero)) := by
  rcases procs_cases h with ⟨rfl, rfl⟩ | ⟨rfl, rfl⟩ | ⟨j, q, rfl, hq, rfl⟩
  · cases cs with
    | nil => exact .inl rfl
    | cons c r => exact .inr (.inl ⟨rfl, c, r, rfl, rfl⟩)
  · cases t with
    | working n =>
      cases n with
      | zero => exact .inr (.inr (.inr (.inl ⟨rfl, rfl, rfl⟩)))
      | succ n => exact .inr (.inr (.inl ⟨rfl, n, rfl, rfl⟩))
    | sending => exact .inr (.inr (.inr (.inr (.inl ⟨rfl, rfl, rfl⟩))))
    | waiting => exact .inr (.inr (.inr (.inr (.inr (.inl ⟨rfl, rfl, rfl⟩)))))
    | closing => exact .inr (.inr (.inr (.inr (.inr (.inr (.inl ⟨rfl, rfl, rfl⟩))))))
    | over => exact .inl rfl
  · match q with
    | .idle 0 => exact .inl rfl
    | .idle (m + 1) => exact .inr (.inr (.inr (.inr (.inr (.inr (.inr (.inl ⟨j, m, rfl, hq, rfl⟩)))))))
    | .back x m => exact .inr (.inr (.inr (.inr (.inr (.inr (.inr (.inr ⟨j, x, m, rfl, hq, rfl⟩)))))))

theorem conf_client (cs : List Nat) (t : Task) (cl : List (Cl V)) (j : Nat) (q : Cl V) :
    (conf zero v cs t cl).to (j + 2) (q.proc zero) = conf zero v cs t (cl.set j q) := by
  simp [conf, Config.to, List.map_set]

theorem conf_task (cs : List Nat) (t t' : Task) (cl : List (Cl V)) (h : t ≠ .over) (h' : t' ≠ .over) :
    (conf zero v cs t cl).to 1 (t'.proc v) = conf zero v cs t' cl := by
  simp only [conf, Config.to, List.set_cons_succ, List.set_cons_zero, beq_eq_false_iff_ne.2 h,
    beq_eq_false_iff_ne.2 h']

theorem sends {cs : List Nat} {t : Task} {cl : List (Cl V)} {i c : Nat} {w : V} {k : Proc V (Event V)}
    (h : SendsAt (conf zero v cs t cl) i c w k) :
    i = 1 ∧ (t = .sending ∨ t = .waiting) ∧ k = Task.closing.proc v ∧ w = v := by
  rcases h with h | h
  · rcases who h with e | ⟨_, _, _, _, e⟩ | ⟨_, _, _, e⟩ | ⟨_, _, e⟩ | ⟨h1, h2, e⟩ | ⟨_, _, e⟩ | ⟨_, _, e⟩ |
      ⟨_, _, _, _, e⟩ | ⟨_, _, _, _, _, e⟩ <;> cases e
    exact ⟨h1, .inl h2, rfl, rfl⟩
  · rcases who h with e | ⟨_, _, _, _, e⟩ | ⟨_, _, _, e⟩ | ⟨_, _, e⟩ | ⟨_, _, e⟩ | ⟨h1, h2, e⟩ | ⟨_, _, e⟩ |
      ⟨_, _, _, _, e⟩ | ⟨_, _, _, _, _, e⟩ <;> cases e
    exact ⟨h1, .inr h2, rfl, rfl⟩

/-- Every step of the program is one of the moves. -/
theorem step_move {cs : List Nat} {t : Task} {cl : List (Cl V)} {e : Option (Event V)} {s' : Config V (Event V)}
    (h : Step (conf zero v cs t cl) e s') :
    ∃ cs' t' cl', s' = conf zero v cs' t' cl' ∧ Move zero v cs t cl e cs' t' cl' := by
  have chan : ∀ {c : Nat} {ch : Chan V}, (conf zero v cs t cl).chans[c]? = some ch →
      ch = ⟨0, [], t == .over⟩ := by
    intro c ch hch
    match c with
    | 0 => simpa [conf] using hch.symm
    | c + 1 => simp [conf] at hch
  cases h with
  | emit hc h =>
    rcases who h with e | ⟨_, _, _, _, e⟩ | ⟨_, _, _, e⟩ | ⟨rfl, rfl, e⟩ | ⟨_, _, e⟩ | ⟨_, _, e⟩ | ⟨_, _, e⟩ |
      ⟨_, _, _, _, e⟩ | ⟨j, x, r, rfl, hq, e⟩ <;> cases e
    · exact ⟨_, _, _, rfl, .ret⟩
    · exact ⟨_, _, _, conf_client .., .show hq⟩
  | tau hc h =>
    rcases who h with e | ⟨_, _, _, _, e⟩ | ⟨rfl, n, rfl, e⟩ | ⟨_, _, e⟩ | ⟨_, _, e⟩ | ⟨_, _, e⟩ | ⟨_, _, e⟩ |
      ⟨_, _, _, _, e⟩ | ⟨_, _, _, _, _, e⟩ <;> cases e
    exact ⟨_, _, _, rfl, .tick⟩
  | go hc h =>
    rcases who h with e | ⟨rfl, c, r, rfl, e⟩ | ⟨_, _, _, e⟩ | ⟨_, _, e⟩ | ⟨_, _, e⟩ | ⟨_, _, e⟩ | ⟨_, _, e⟩ |
      ⟨_, _, _, _, e⟩ | ⟨_, _, _, _, _, e⟩ <;> cases e
    refine ⟨_, _, _, ?_, .start⟩
    simp [conf, Cl.proc]
  | park hc h hch hcl =>
    rcases who h with e | ⟨_, _, _, _, e⟩ | ⟨_, _, _, e⟩ | ⟨_, _, e⟩ | ⟨rfl, rfl, e⟩ | ⟨_, _, e⟩ | ⟨_, _, e⟩ |
      ⟨_, _, _, _, e⟩ | ⟨_, _, _, _, _, e⟩ <;> cases e
    exact ⟨_, _, _, rfl, .park⟩
  | sendBuf hc h hch hcl hb =>
    have := chan hch
    subst this
    simp at hb
  | sendClosed hc h hch hcl =>
    have := chan hch
    subst this
    obtain ⟨_, ht, _⟩ := sends h
    rcases ht with rfl | rfl <;> cases hcl
  | meet hc h hj hch hcl hb =>
    obtain ⟨rfl, ht, rfl, rfl⟩ := sends h
    rcases who hj with e | ⟨_, _, _, _, e⟩ | ⟨_, _, _, e⟩ | ⟨_, _, e⟩ | ⟨_, _, e⟩ | ⟨_, _, e⟩ | ⟨_, _, e⟩ |
      ⟨j, m, rfl, hq, e⟩ | ⟨_, _, _, _, _, e⟩ <;> cases e
    refine ⟨_, _, _, ?_, .meet ht hq⟩
    rw [conf_task _ _ _ _ (by rcases ht with rfl | rfl <;> simp) (by simp)]
    exact conf_client ..
  | recvBuf hc hj hch hb =>
    have := chan hch
    subst this
    cases hb
  | recvClosed hc hj hch hcl hb =>
    have := chan hch
    subst this
    rcases who hj with e | ⟨_, _, _, _, e⟩ | ⟨_, _, _, e⟩ | ⟨_, _, e⟩ | ⟨_, _, e⟩ | ⟨_, _, e⟩ | ⟨_, _, e⟩ |
      ⟨j, m, rfl, hq, e⟩ | ⟨_, _, _, _, _, e⟩ <;> cases e
    have ht : t = .over := by simpa using hcl
    subst ht
    exact ⟨_, _, _, conf_client .., .drained hq⟩
  | close hc h hch hcl =>
    have := chan hch
    subst this
    rcases who h with e | ⟨_, _, _, _, e⟩ | ⟨_, _, _, e⟩ | ⟨_, _, e⟩ | ⟨_, _, e⟩ | ⟨_, _, e⟩ | ⟨rfl, rfl, e⟩ |
      ⟨_, _, _, _, e⟩ | ⟨_, _, _, _, _, e⟩ <;> cases e
    exact ⟨_, _, _, rfl, .close⟩
  | closeClosed hc h hch hcl =>
    have := chan hch
    subst this
    rcases who h with e | ⟨_, _, _, _, e⟩ | ⟨_, _, _, e⟩ | ⟨_, _, e⟩ | ⟨_, _, e⟩ | ⟨_, _, e⟩ | ⟨rfl, rfl, e⟩ |
      ⟨_, _, _, _, e⟩ | ⟨_, _, _, _, _, e⟩ <;> cases e
    cases hcl
  | make hc h | meetPoll hc _ h | pollBuf hc h | pollClosed hc h | pollDefault hc h | lock hc h | tryLock hc h
  | tryLockFails hc h | unlock hc h | unlockFree hc h | load hc h | store hc h =>
    rcases who h with e | ⟨_, _, _, _, e⟩ | ⟨_, _, _, e⟩ | ⟨_, _, e⟩ | ⟨_, _, e⟩ | ⟨_, _, e⟩ | ⟨_, _, e⟩ |
      ⟨_, _, _, _, e⟩ | ⟨_, _, _, _, _, e⟩ <;> cases e

theorem get_client {cs : List Nat} {t : Task} {cl : List (Cl V)} {j : Nat} {q : Cl V} (h : cl[j]? = some q) :
    (conf zero v cs t cl).procs[j + 2]? = some (q.proc zero) := by
  simp [conf, h]

/-- Every move is a step. -/
theorem move_step {cs cs' : List Nat} {t t' : Task} {cl cl' : List (Cl V)} {e : Option (Event V)}
    (h : Move zero v cs t cl e cs' t' cl') : Step (conf zero v cs t cl) e (conf zero v cs' t' cl') := by
  cases h with
  | @start c _ _ _ =>
    have : conf zero v cs' t (cl ++ [.idle c]) = { conf zero v (c :: cs') t cl with
        procs := (conf zero v (c :: cs') t cl).procs.set 0 (mainProc zero cs') ++ [client zero ⟨0⟩ c] } := by
      simp [conf, Cl.proc]
    rw [this]
    exact .go (i := 0) rfl rfl
  | tick => exact .tau (i := 1) rfl rfl
  | ret => exact .emit (i := 1) rfl rfl
  | park => exact .park (i := 1) (ch := ⟨0, [], false⟩) rfl rfl rfl rfl
  | @meet _ _ _ m j ht hj =>
    have hs : SendsAt (conf zero v cs t cl) 1 0 v (Task.closing.proc v) := by
      rcases ht with rfl | rfl
      · exact .fresh rfl
      · exact .waiting rfl
    rw [← conf_client, ← conf_task cs t .closing cl (by rcases ht with rfl | rfl <;> simp) (by simp)]
    exact Step.meet (ch := ⟨0, [], t == .over⟩) (r := fun x => (Cl.back (x.getD zero) m).proc zero) rfl hs
      (get_client hj) rfl (by rcases ht with rfl | rfl <;> rfl) rfl
  | close => exact .close (i := 1) (c := 0) (k := .done) (ch := ⟨0, [], false⟩) rfl rfl rfl rfl
  | @drained _ _ m j hj =>
    rw [← conf_client]
    exact Step.recvClosed (ch := ⟨0, [], true⟩) (r := fun x => (Cl.back (x.getD zero) m).proc zero) rfl
      (get_client hj) rfl rfl rfl
  | «show» hj =>
    rw [← conf_client]
    exact .emit rfl (get_client hj)

/-- The configuration in the middle of Spawn. -/
def midway (zero v : V) (n : Nat) (clients : List Nat) : Config V (Event V) :=
  ⟨[.go ((Task.working n).proc v) (mainProc zero clients)], [⟨0, [], false⟩], fun _ => false, fun _ => zero, false⟩

theorem step_one {p q : Proc V (Event V)} {i : Nat} (h : ([p] : List (Proc V (Event V)))[i]? = some q) :
    i = 0 ∧ q = p := by
  match i with
  | 0 => exact ⟨rfl, by simpa using h.symm⟩
  | i + 1 => simp at h

theorem step_first {n : Nat} {clients : List Nat} {e : Option (Event V)} {s : Config V (Event V)} :
    Step (program zero v n clients) e s ↔ e = none ∧ s = midway zero v n clients := by
  constructor
  · intro h
    cases h with
    | make hc h =>
      obtain ⟨rfl, e⟩ := step_one h
      cases e
      exact ⟨rfl, rfl⟩
    | sendBuf hc h | sendClosed hc h | meet hc h | meetPoll hc h =>
      rcases h with h | h <;> obtain ⟨rfl, e⟩ := step_one h <;> cases e
    | _ hc h => obtain ⟨rfl, e⟩ := step_one h; cases e
  · rintro ⟨rfl, rfl⟩
    exact .make (s := program zero v n clients) (i := 0) (cap := 0)
      (k := fun c => .go (work v n fun v => .send c v (.close c .done)) (goAll (clients.map (client zero ⟨c⟩)) .done))
      rfl rfl

theorem step_second {n : Nat} {clients : List Nat} {e : Option (Event V)} {s : Config V (Event V)} :
    Step (midway zero v n clients) e s ↔ e = none ∧ s = conf zero v clients (.working n) [] := by
  constructor
  · intro h
    cases h with
    | go hc h =>
      obtain ⟨rfl, e⟩ := step_one h
      cases e
      exact ⟨rfl, rfl⟩
    | sendBuf hc h | sendClosed hc h | meet hc h | meetPoll hc h =>
      rcases h with h | h <;> obtain ⟨rfl, e⟩ := step_one h <;> cases e
    | _ hc h => obtain ⟨rfl, e⟩ := step_one h; cases e
  · rintro ⟨rfl, rfl⟩
    exact .go (i := 0) rfl rfl

/-- Executions of the program once main has spawned the function. -/
inductive Exec (zero v : V) (n : Nat) (clients : List Nat) :
    List (Event V) → List Nat → Task → List (Cl V) → Prop
  | init : Exec zero v n clients [] clients (.working n) []
  | move {tr cs t cl e cs' t' cl'} (h : Exec zero v n clients tr cs t cl) (m : Move zero v cs t cl e cs' t' cl') :
      Exec zero v n clients (tr ++ e.toList) cs' t' cl'

theorem run_exec {n : Nat} {clients : List Nat} {tr : List (Event V)} {s : Config V (Event V)}
    (h : Run (program zero v n clients) tr s) :
    (tr = [] ∧ (s = program zero v n clients ∨ s = midway zero v n clients)) ∨
    ∃ cs t cl, s = conf zero v cs t cl ∧ Exec zero v n clients tr cs t cl := by
  induction h with
  | nil => exact .inl ⟨rfl, .inl rfl⟩
  | @step t u tr e r h ih =>
    rcases ih with ⟨rfl, rfl | rfl⟩ | ⟨cs, t, cl, rfl, hx⟩
    · obtain ⟨rfl, rfl⟩ := step_first.1 h
      exact .inl ⟨rfl, .inr rfl⟩
    · obtain ⟨rfl, rfl⟩ := step_second.1 h
      exact .inr ⟨_, _, _, rfl, .init⟩
    · obtain ⟨cs', t', cl', rfl, m⟩ := step_move h
      exact .inr ⟨cs', t', cl', rfl, hx.move m⟩

theorem exec_run {n : Nat} {clients : List Nat} {tr : List (Event V)} {cs : List Nat} {t : Task}
    {cl : List (Cl V)} (h : Exec zero v n clients tr cs t cl) :
    Run (program zero v n clients) tr (conf zero v cs t cl) := by
  induction h with
  | init =>
    exact ((Run.nil _).step (step_first.2 ⟨rfl, rfl⟩)).step (step_second.2 ⟨rfl, rfl⟩)
  | move h m ih => exact ih.step (move_step m)

/-- The values Await has returned, in the order of the returns. -/
def results : List (Event V) → List V
  | [] => []
  | .returned :: tr => results tr
  | .awaited x :: tr => x :: results tr

theorem results_append (a b : List (Event V)) : results (a ++ b) = results a ++ results b := by
  induction a with
  | nil => rfl
  | cons e a ih => cases e <;> simp [results, ih]

theorem mem_results {x : V} {tr : List (Event V)} : x ∈ results tr ↔ .awaited x ∈ tr := by
  induction tr with
  | nil => simp [results]
  | cons e tr ih => cases e <;> simp [results, ih]

/-- The values clients are about to return from Await. -/
def backs : List (Cl V) → List V
  | [] => []
  | .idle _ :: cl => backs cl
  | .back x _ :: cl => x :: backs cl

theorem backs_append (a b : List (Cl V)) : backs (a ++ b) = backs a ++ backs b := by
  induction a with
  | nil => rfl
  | cons q a ih => cases q <;> simp [backs, ih]

theorem backs_get {cl : List (Cl V)} {j : Nat} {m m' : Nat} {x : V} (h : cl[j]? = some (.idle m)) :
    (backs (cl.set j (.back x m'))).Perm (x :: backs cl) := by
  induction cl generalizing j with
  | nil => simp at h
  | cons q cl ih =>
    cases j with
    | zero =>
      simp only [List.getElem?_cons_zero, Option.some.injEq] at h
      subst h
      exact .refl _
    | succ j =>
      simp only [List.getElem?_cons_succ] at h
      cases q with
      | idle k => exact ih h
      | back y k => exact ((ih h).cons y).trans (.swap ..)

theorem backs_show {cl : List (Cl V)} {j : Nat} {m m' : Nat} {x : V} (h : cl[j]? = some (.back x m)) :
    (backs cl).Perm (x :: backs (cl.set j (.idle m'))) := by
  induction cl generalizing j with
  | nil => simp at h
  | cons q cl ih =>
    cases j with
    | zero =>
      simp only [List.getElem?_cons_zero, Option.some.injEq] at h
      subst h
      exact .refl _
    | succ j =>
      simp only [List.getElem?_cons_succ] at h
      cases q with
      | idle k => exact ih h
      | back y k => exact ((ih h).cons y).trans (.swap ..)

/-- The Awaits a client has still to call. -/
def Cl.todo : Cl V → Nat
  | .idle m => m
  | .back _ m => m

theorem todo_set {cl : List (Cl V)} {j : Nat} {q q' : Cl V} (h : cl[j]? = some q) :
    ((cl.set j q').map Cl.todo).sum + q.todo = (cl.map Cl.todo).sum + q'.todo := by
  induction cl generalizing j with
  | nil => simp at h
  | cons a cl ih =>
    cases j with
    | zero =>
      simp only [List.getElem?_cons_zero, Option.some.injEq] at h
      subst h
      simp only [List.set_cons_zero, List.map_cons, List.sum_cons]
      omega
    | succ j =>
      simp only [List.getElem?_cons_succ] at h
      have := ih h
      simp only [List.set_cons_succ, List.map_cons, List.sum_cons]
      omega

/-- The invariant: nothing is received before the function has returned; then one Await gets its value and all
others get the zero value; no Await is lost. -/
theorem exec_inv {n : Nat} {clients : List Nat} {tr : List (Event V)} {cs : List Nat} {t : Task}
    {cl : List (Cl V)} (h : Exec zero v n clients tr cs t cl) :
    (t ≠ .closing → t ≠ .over → results tr ++ backs cl = []) ∧
    (t = .closing ∨ t = .over → ∃ k, (results tr ++ backs cl).Perm (v :: List.replicate k zero)) ∧
    ((∀ m, t ≠ .working m) ↔ .returned ∈ tr) ∧
    cs.sum + (cl.map Cl.todo).sum + (results tr ++ backs cl).length = clients.sum := by
  induction h with
  | init => simp [results, backs]
  | @move tr cs t cl e cs' t' cl' h m ih =>
    obtain ⟨h1, h2, h3, h4⟩ := ih
    cases m with
    | @start c _ _ _ =>
      refine ⟨fun a b => ?_, fun a => ?_, by simpa using h3, ?_⟩
      · simpa [backs_append, backs] using h1 a b
      · simpa [backs_append, backs] using h2 a
      · simp only [Option.toList_none, List.append_nil, backs_append, backs, List.map_append, List.map_cons,
          List.map_nil, List.sum_append, List.sum_cons, List.sum_nil, Cl.todo] at h4 ⊢
        omega
    | tick => exact ⟨by simpa using h1, by simp, by simpa using h3, by simpa using h4⟩
    | ret =>
      refine ⟨fun _ _ => ?_, by simp, by simp, ?_⟩
      · simpa [results_append, results] using h1 (by simp) (by simp)
      · simpa [results_append, results] using h4
    | park => exact ⟨by simpa using h1, by simp, by simpa using h3, by simpa using h4⟩
    | @meet _ _ _ m j ht hj =>
      have e0 := h1 (by rcases ht with rfl | rfl <;> simp) (by rcases ht with rfl | rfl <;> simp)
      have hp := backs_get (x := v) (m' := m) hj
      obtain ⟨ea, eb⟩ := List.append_eq_nil_iff.1 e0
      have hl := hp.length_eq
      have hs := todo_set (q' := .back v m) hj
      refine ⟨by simp, fun _ => ⟨0, ?_⟩, ?_, ?_⟩
      · simpa [ea, eb] using hp
      · simp only [Option.toList_none, List.append_nil, ← h3]
        rcases ht with rfl | rfl <;> simp
      · simp only [Option.toList_none, List.append_nil, List.length_append, List.length_cons, Cl.todo] at h4 hl hs ⊢
        omega
    | close => exact ⟨by simp, fun _ => by simpa using h2 (.inl rfl), by simpa using h3, by simpa using h4⟩
    | @drained _ _ m j hj =>
      obtain ⟨k, hk⟩ := h2 (.inr rfl)
      have hp := backs_get (x := zero) (m' := m) hj
      have hl := hp.length_eq
      have hs := todo_set (q' := .back zero m) hj
      refine ⟨by simp, fun _ => ⟨k + 1, ?_⟩, by simpa using h3, ?_⟩
      · simp only [Option.toList_none, List.append_nil]
        refine (hp.append_left _).trans (List.perm_middle.trans ((hk.cons zero).trans ?_))
        rw [List.replicate_succ]
        exact .swap ..
      · simp only [Option.toList_none, List.append_nil, List.length_append, List.length_cons, Cl.todo] at h4 hl hs ⊢
        omega
    | @«show» _ _ _ x m j hj =>
      have hp := backs_show (m' := m) hj
      have hq : (results (tr ++ [Event.awaited x]) ++ backs (cl.set j (.idle m))).Perm (results tr ++ backs cl) := by
        rw [results_append]
        simp only [results, List.append_assoc, List.singleton_append]
        exact (hp.append_left _).symm
      have hs := todo_set (q' := .idle m) hj
      refine ⟨fun a b => ?_, fun a => ?_, ?_, ?_⟩
      · have := h1 a b
        rw [this] at hq
        exact hq.eq_nil
      · obtain ⟨k, hk⟩ := h2 a
        exact ⟨k, hq.trans hk⟩
      · simp [h3]
      · have hl := hq.length_eq
        simp only [Option.toList_some, Cl.todo] at hs ⊢
        omega
end Gokio
open Gokio
variable {V : Type}

/-- C84: in every execution, whoever awaits how often, an Await returns only after the function has returned. -/
theorem C84_await_after_return {zero v : V} {n : Nat} {clients : List Nat} {tr : List (Gokio.Event V)}
    {s : Config V (Gokio.Event V)} (h : Run (Gokio.program zero v n clients) tr s) {a b : List (Gokio.Event V)}
    {x : V} (htr : tr = a ++ .awaited x :: b) : .returned ∈ a := by
  subst htr
  have : a ++ Gokio.Event.awaited x :: b = (a ++ [.awaited x]) ++ b := by simp
  rw [this] at h
  obtain ⟨u, h1, _⟩ := h.split
  rcases Gokio.run_exec h1 with ⟨h0, _⟩ | ⟨cs, t, cl, _, hx⟩
  · simp at h0
  · obtain ⟨i1, _, i3, _⟩ := Gokio.exec_inv hx
    have hr : .returned ∈ a ++ [Gokio.Event.awaited x] := by
      apply i3.1
      rintro m rfl
      have := i1 (by simp) (by simp)
      simp [results_append, results] at this
    simpa using hr

/-- C84, in part: in every execution the results of all Awaits together are the value of the function once, and
else zero values; so if there is only one Await, it returns the value of the function, and at most one gets the
value from the task.  Missing: the other Awaits do not return the value (`C84_other_awaits_fails`). -/
theorem C84_await_value_partial {zero v : V} {n : Nat} {clients : List Nat} {tr : List (Gokio.Event V)}
    {s : Config V (Gokio.Event V)} (h : Run (Gokio.program zero v n clients) tr s) :
    (∀ x, .awaited x ∈ tr → x = v ∨ x = zero) ∧
    (∀ p : V → Bool, p zero = false → (results tr).countP p ≤ 1) ∧
    (clients.sum = 1 → ∀ x, .awaited x ∈ tr → x = v) := by
  rcases Gokio.run_exec h with ⟨rfl, _⟩ | ⟨cs, t, cl, _, hx⟩
  · simp [results]
  obtain ⟨i1, i2, i3, i4⟩ := Gokio.exec_inv hx
  by_cases ht : t = .closing ∨ t = .over
  · obtain ⟨k, hk⟩ := i2 ht
    have mem : ∀ {x}, .awaited x ∈ tr → x ∈ v :: List.replicate k zero := fun hx =>
      hk.mem_iff.1 (List.mem_append_left _ (mem_results.2 hx))
    refine ⟨fun x hx => ?_, fun p hp => ?_, fun hc x hx => ?_⟩
    · rcases List.mem_cons.1 (mem hx) with e | e
      · exact .inl e
      · exact .inr (List.eq_of_mem_replicate e)
    · have := hk.countP_eq p
      rw [List.countP_append, List.countP_cons, List.countP_eq_zero (l := List.replicate k zero) |>.2] at this
      · split at this <;> omega
      · intro x hx
        rw [List.eq_of_mem_replicate hx, hp]
        simp
    · have hl := hk.length_eq
      simp only [List.length_cons, List.length_replicate] at hl
      have : k = 0 := by omega
      subst this
      simpa using mem hx
  · have := i1 (fun e => ht (.inl e)) (fun e => ht (.inr e))
    have e := (List.append_eq_nil_iff.1 this).1
    have none : ∀ x, .awaited x ∉ tr := by
      intro x hx
      have := mem_results.2 hx
      simp [e] at this
    exact ⟨fun x hx => absurd hx (none x), fun p _ => by simp [e], fun _ x hx => absurd hx (none x)⟩

/-- C84: when an execution has come to its end, every Await has returned: no Await is left waiting, and the
results are, in some order, the value of the function once and the zero value for each other Await. -/
theorem C84_end {zero v : V} {n : Nat} {clients : List Nat} {tr : List (Gokio.Event V)}
    {s : Config V (Gokio.Event V)} (h : Run (Gokio.program zero v n clients) tr s)
    (hend : ∀ e s', ¬ Step s e s') :
    .returned ∈ tr ∧
    (results tr).Perm (if clients.sum = 0 then [] else v :: List.replicate (clients.sum - 1) zero) := by
  rcases Gokio.run_exec h with ⟨_, rfl | rfl⟩ | ⟨cs, t, cl, rfl, hx⟩
  · exact absurd (step_first.2 ⟨rfl, rfl⟩) (hend _ _)
  · exact absurd (step_second.2 ⟨rfl, rfl⟩) (hend _ _)
  have stuck : ∀ {e cs' t' cl'}, ¬ Gokio.Move zero v cs t cl e cs' t' cl' := fun m => hend _ _ (Gokio.move_step m)
  obtain ⟨i1, i2, i3, i4⟩ := Gokio.exec_inv hx
  have hcs : cs = [] := by
    cases cs with
    | nil => rfl
    | cons c cs => exact absurd .start stuck
  have ht : t = .waiting ∨ t = .over := by
    cases t with
    | working m =>
      cases m with
      | zero => exact absurd .ret stuck
      | succ m => exact absurd .tick stuck
    | sending => exact absurd .park stuck
    | waiting => exact .inl rfl
    | closing => exact absurd .close stuck
    | over => exact .inr rfl
  have hcl : ∀ q ∈ cl, q = .idle 0 := by
    intro q hq
    obtain ⟨j, hj⟩ := List.mem_iff_getElem?.1 hq
    match q with
    | .idle 0 => rfl
    | .idle (m + 1) =>
      rcases ht with rfl | rfl
      · exact absurd (.meet (.inr rfl) hj) stuck
      · exact absurd (.drained hj) stuck
    | .back x m => exact absurd (.show hj) stuck
  have hz : (cl.map Cl.todo).sum = 0 ∧ backs cl = [] := by
    clear hx i1 i2 i3 i4 stuck h hend
    induction cl with
    | nil => exact ⟨rfl, rfl⟩
    | cons q cl ih =>
      obtain ⟨a, b⟩ := ih fun q hq => hcl q (List.mem_cons_of_mem _ hq)
      rw [hcl q (List.mem_cons_self ..)]
      exact ⟨by simpa [Cl.todo] using a, b⟩
  obtain ⟨hz, hb⟩ := hz
  rw [hb, List.append_nil] at i1 i2 i4
  rw [hz, hcs] at i4
  refine ⟨i3.1 (by rcases ht with rfl | rfl <;> simp), ?_⟩
  rcases ht with rfl | rfl
  · have e := i1 (by simp) (by simp)
    rw [e] at i4 ⊢
    rw [if_pos (by simpa using i4.symm)]
  · obtain ⟨k, hk⟩ := i2 (.inr rfl)
    have hl := hk.length_eq
    simp only [List.length_cons, List.length_replicate, List.sum_nil] at hl i4
    rw [if_neg (by omega), show clients.sum - 1 = k by omega]
    exact hk

namespace Gokio
def Task.left : Task → Nat
  | .working n => n + 4
  | .sending => 3
  | .waiting => 2
  | .closing => 1
  | .over => 0
def Cl.left : Cl V → Nat
  | .idle m => 2 * m
  | .back _ m => 2 * m + 1
/-- What remains to be done. -/
def left (cs : List Nat) (t : Task) (cl : List (Cl V)) : Nat :=
  (cs.map fun c => 2 * c + 1).sum + t.left + (cl.map Cl.left).sum

theorem left_set {cl : List (Cl V)} {j : Nat} {q q' : Cl V} (h : cl[j]? = some q) :
    ((cl.set j q').map Cl.left).sum + q.left = (cl.map Cl.left).sum + q'.left := by
  induction cl generalizing j with
  | nil => simp at h
  | cons a cl ih =>
    cases j with
    | zero =>
      simp only [List.getElem?_cons_zero, Option.some.injEq] at h
      subst h
      simp only [List.set_cons_zero, List.map_cons, List.sum_cons]
      omega
    | succ j =>
      simp only [List.getElem?_cons_succ] at h
      have := ih h
      simp only [List.set_cons_succ, List.map_cons, List.sum_cons]
      omega

theorem move_left {zero v : V} {cs cs' : List Nat} {t t' : Task} {cl cl' : List (Cl V)} {e : Option (Event V)}
    (m : Move zero v cs t cl e cs' t' cl') : left cs' t' cl' < left cs t cl := by
  unfold left
  cases m with
  | start =>
    simp only [List.map_cons, List.sum_cons, List.map_append, List.sum_append, List.map_nil, List.sum_nil, Cl.left]
    omega
  | tick => simp only [Task.left]; omega
  | ret => simp only [Task.left]; omega
  | park => simp only [Task.left]; omega
  | close => simp only [Task.left]; omega
  | @meet _ _ _ m j ht hj =>
    have := left_set (q' := .back v m) hj
    rcases ht with rfl | rfl <;> simp only [Task.left, Cl.left] at this ⊢ <;> omega
  | @drained _ _ m j hj =>
    have := left_set (q' := .back zero m) hj
    simp only [Task.left, Cl.left] at this ⊢
    omega
  | @«show» _ _ _ x m j hj =>
    have := left_set (q' := .idle m) hj
    simp only [Cl.left] at this ⊢
    omega
end Gokio

/-- C84: no execution goes on forever, so that every execution comes to the end `C84_end` describes. -/
theorem C84_always_ends (zero v : V) (n : Nat) (clients : List Nat) (f : Nat → Config V (Gokio.Event V))
    (h0 : f 0 = Gokio.program zero v n clients) : ∃ i, ∀ e, ¬ Step (f i) e (f (i + 1)) := by
  apply Classical.byContradiction
  intro hno
  have hs : ∀ i, ∃ e, Step (f i) e (f (i + 1)) := by
    intro i
    apply Classical.byContradiction
    intro hi
    exact hno ⟨i, fun e he => hi ⟨e, he⟩⟩
  have h2 : f 2 = conf zero v clients (.working n) [] := by
    obtain ⟨e0, s0⟩ := hs 0
    obtain ⟨e1, s1⟩ := hs 1
    rw [h0] at s0
    obtain ⟨_, e⟩ := step_first.1 s0
    rw [e] at s1
    exact (step_second.1 s1).2
  have down : ∀ m i cs t cl, f i = conf zero v cs t cl → Gokio.left cs t cl ≤ m → False := by
    intro m
    induction m with
    | zero =>
      intro i cs t cl hi hm
      obtain ⟨e, he⟩ := hs i
      rw [hi] at he
      obtain ⟨cs', t', cl', _, mv⟩ := Gokio.step_move he
      have := Gokio.move_left mv
      omega
    | succ m ih =>
      intro i cs t cl hi hm
      obtain ⟨e, he⟩ := hs i
      rw [hi] at he
      obtain ⟨cs', t', cl', h', mv⟩ := Gokio.step_move he
      have := Gokio.move_left mv
      exact ih (i + 1) cs' t' cl' h' (by omega)
  exact down _ 2 _ _ _ h2 (Nat.le_refl _)

/-- C84 fails: as soon as there are two Awaits, all executions end with all Awaits but one having returned the
zero value instead of the value of the function. -/
theorem C84_other_awaits_fails [DecidableEq V] {zero v : V} (hv : v ≠ zero) {n : Nat} {clients : List Nat}
    {tr : List (Gokio.Event V)} {s : Config V (Gokio.Event V)} (hc : 2 ≤ clients.sum)
    (h : Run (Gokio.program zero v n clients) tr s) (hend : ∀ e s', ¬ Step s e s') :
    (results tr).count zero = clients.sum - 1 ∧ .awaited zero ∈ tr := by
  have hp := (C84_end h hend).2
  rw [if_neg (by omega)] at hp
  have hcount : (results tr).count zero = clients.sum - 1 := by
    rw [hp.count_eq, List.count_cons_of_ne hv, List.count_replicate_self]
  refine ⟨hcount, mem_results.1 ?_⟩
  rw [← List.count_pos_iff]
  omega

/-- C102 fails for gokio as well: when nobody awaits the future, the spawned goroutine never ends once the
function has returned. -/
theorem C102_gokio_leak_fails {zero v : V} {n : Nat} {tr : List (Gokio.Event V)} {s : Config V (Gokio.Event V)}
    (h : Run (Gokio.program zero v n []) tr s) (hr : .returned ∈ tr) :
    s.procs[1]? = some (.send 0 v (.close 0 .done)) ∨ s.procs[1]? = some (.parked 0 v (.close 0 .done)) := by
  rcases Gokio.run_exec h with ⟨rfl, _⟩ | ⟨cs, t, cl, rfl, hx⟩
  · simp at hr
  obtain ⟨_, i2, i3, i4⟩ := Gokio.exec_inv hx
  have nt : ∀ {t'}, t = t' → (t' = .closing ∨ t' = .over) → False := by
    intro t' e ht
    obtain ⟨k, hk⟩ := i2 (e ▸ ht)
    have hl := hk.length_eq
    simp only [List.length_cons, List.sum_nil] at hl i4
    omega
  have hw := i3.2 hr
  cases t with
  | working m => exact absurd rfl (hw m)
  | sending => exact .inl rfl
  | waiting => exact .inr rfl
  | closing => exact (nt rfl (.inl rfl)).elim
  | over => exact (nt rfl (.inr rfl)).elim

-- an execution with two awaiters, the second of which gets the zero value
example : ∃ s, Run (Gokio.program (0 : Nat) 7 1 [1, 1]) [.returned, .awaited 7, .awaited 0] s := by
  have h0 : Gokio.Exec (0 : Nat) 7 1 [1, 1] [] [] (.working 1) [.idle 1, .idle 1] :=
    (Gokio.Exec.init.move .start).move .start
  have h1 := (((h0.move .tick).move .ret).move .park).move (.meet (j := 1) (.inr rfl) rfl)
  have h2 := ((h1.move (.show (j := 1) rfl)).move .close).move (.drained (j := 0) rfl)
  exact ⟨_, Gokio.exec_run (h2.move (.show (j := 0) rfl))⟩
end Gost
