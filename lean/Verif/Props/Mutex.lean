import Verif.Model.Thread
import Verif.Props.Thread
/-
Properties C81 (Mutex) and C103 (copies of a Mutex).
-/
namespace Gost
open Conc
namespace Mutex
variable {V : Type}

/-- What is seen of an execution: goroutine `i` has entered a critical section in which it is going to apply the
functions `gs` to the value, has done so, has failed to enter one. -/
inductive Event (V : Type) where
  | entered (i : Nat) (gs : List (V → V))
  | left (i : Nat)
  | failed (i : Nat)

/-- `*ptr = g(*ptr)` for each of the functions. -/
def body (ptr : Nat) : List (V → V) → Proc V (Event V) → Proc V (Event V)
  | [], k => k
  | g :: gs, k => .load ptr fun x => .store ptr (g x) (body ptr gs k)

/-- A goroutine that goes through critical sections, which it enters by TryLock or by Lock.  If TryLock fails it
skips the section. -/
def client (mutex : Mutex) (i : Nat) : List (Bool × List (V → V)) → Proc V (Event V)
  | [] => .done
  | (false, gs) :: r => mutex.lock_ fun ptr =>
      .emit (.entered i gs) (body ptr gs (.emit (.left i) (mutex.unlock (client mutex i r))))
  | (true, gs) :: r => mutex.tryLock fun
      | some ptr => .emit (.entered i gs) (body ptr gs (.emit (.left i) (mutex.unlock (client mutex i r))))
      | none => .emit (.failed i) (client mutex i r)

/-- The program: main makes a mutex and starts any number of goroutines with any critical sections. -/
def program (v : V) (clients : List (List (Bool × List (V → V)))) : Config V (Event V) :=
  start (fun _ => v) (goAll (clients.zipIdx.map fun c => client (new 0 0) c.2 c.1) .done)

/-- The value after the functions have been applied. -/
def applied (gs : List (V → V)) (x : V) : V := gs.foldl (fun x g => g x) x

/-- Specification: the executions of critical sections one after the other.  The state is the goroutine that is
in its critical section and the value the mutex protects (after that section); `none` if an event is not
possible. -/
def oneAtATime : Option Nat × V → List (Event V) → Option (Option Nat × V)
  | st, [] => some st
  | (none, x), .entered i gs :: tr => oneAtATime (some i, applied gs x) tr
  | (some j, x), .left i :: tr => if i = j then oneAtATime (none, x) tr else none
  | st, .failed _ :: tr => oneAtATime st tr
  | (some _, _), .entered _ _ :: _ => none
  | (none, _), .left _ :: _ => none

theorem oneAtATime_append (st : Option Nat × V) (a b : List (Event V)) :
    oneAtATime st (a ++ b) = (oneAtATime st a).bind fun st => oneAtATime st b := by
  induction a generalizing st with
  | nil => simp [oneAtATime]
  | cons e a ih =>
    obtain ⟨h, x⟩ := st
    cases e with
    | entered i gs => cases h <;> simp [oneAtATime, ih]
    | left i =>
      cases h with
      | none => simp [oneAtATime]
      | some j => by_cases hij : i = j <;> simp [oneAtATime, ih, hij]
    | failed i => cases h <;> simp [oneAtATime, ih]

/-- Where a client is. -/
inductive Cl (V : Type) where
  | idle (r : List (Bool × List (V → V)))
  | entering (gs : List (V → V)) (r : List (Bool × List (V → V)))
  | inside (gs : List (V → V)) (r : List (Bool × List (V → V)))
  | storing (x : V) (gs : List (V → V)) (r : List (Bool × List (V → V)))
  | unlocking (r : List (Bool × List (V → V)))
  | failing (r : List (Bool × List (V → V)))

def Cl.proc (i : Nat) : Cl V → Proc V (Event V)
  | .idle r => client (new 0 0) i r
  | .entering gs r => .emit (.entered i gs) (body 0 gs (.emit (.left i) (unlock (new 0 0) (client (new 0 0) i r))))
  | .inside gs r => body 0 gs (.emit (.left i) (unlock (new 0 0) (client (new 0 0) i r)))
  | .storing x gs r => .store 0 x (body 0 gs (.emit (.left i) (unlock (new 0 0) (client (new 0 0) i r))))
  | .unlocking r => unlock (new 0 0) (client (new 0 0) i r)
  | .failing r => .emit (.failed i) (client (new 0 0) i r)

def mainProc (k : Nat) (cs : List (List (Bool × List (V → V)))) : Proc V (Event V) :=
  goAll ((cs.zipIdx k).map fun c => client (new 0 0) c.2 c.1) .done

/-- The configuration with the clients at these places. -/
def conf (v : V) (cs : List (List (Bool × List (V → V)))) (cl : List (Cl V)) (l : Bool) (x : V) :
    Config V (Event V) :=
  ⟨mainProc cl.length cs :: cl.mapIdx Cl.proc, [], upd (fun _ => false) 0 l, upd (fun _ => v) 0 x, false⟩

theorem upd_upd {β : Type} (f : Nat → β) (a : Nat) (x y : β) : upd (upd f a x) a y = upd f a y := by
  funext b
  simp only [upd]
  split <;> rfl

theorem upd_self {β : Type} (x : β) (a : Nat) : upd (fun _ => x) a x = fun _ => x := by
  funext b
  simp only [upd]
  split <;> rfl

/-- The moves of the program. -/
inductive Move : List (List (Bool × List (V → V))) → List (Cl V) → Bool → V → Option (Event V) →
    List (List (Bool × List (V → V))) → List (Cl V) → Bool → V → Prop
  | start {c cs cl l x} : Move (c :: cs) cl l x none cs (cl ++ [.idle c]) l x
  | lock {cs cl x gs r} {j : Nat} (hj : cl[j]? = some (.idle ((false, gs) :: r))) :
      Move cs cl false x none cs (cl.set j (.entering gs r)) true x
  | tryLock {cs cl x gs r} {j : Nat} (hj : cl[j]? = some (.idle ((true, gs) :: r))) :
      Move cs cl false x none cs (cl.set j (.entering gs r)) true x
  | tryFail {cs cl l x gs r} {j : Nat} (hj : cl[j]? = some (.idle ((true, gs) :: r)))
      (hl : l = true ∨ ∃ (j' : Nat) (c : Bool × List (V → V)) (r' : List (Bool × List (V → V))),
        j' ≠ j ∧ cl[j']? = some (.idle (c :: r'))) :
      Move cs cl l x none cs (cl.set j (.failing r)) l x
  | enter {cs cl l x gs r} {j : Nat} (hj : cl[j]? = some (.entering gs r)) :
      Move cs cl l x (some (.entered j gs)) cs (cl.set j (.inside gs r)) l x
  | load {cs cl l x g gs r} {j : Nat} (hj : cl[j]? = some (.inside (g :: gs) r)) :
      Move cs cl l x none cs (cl.set j (.storing (g x) gs r)) l x
  | store {cs cl l x y gs r} {j : Nat} (hj : cl[j]? = some (.storing y gs r)) :
      Move cs cl l x none cs (cl.set j (.inside gs r)) l y
  | leave {cs cl l x r} {j : Nat} (hj : cl[j]? = some (.inside [] r)) :
      Move cs cl l x (some (.left j)) cs (cl.set j (.unlocking r)) l x
  | unlock {cs cl x r} {j : Nat} (hj : cl[j]? = some (.unlocking r)) :
      Move cs cl true x none cs (cl.set j (.idle r)) false x
  | fail {cs cl l x r} {j : Nat} (hj : cl[j]? = some (.failing r)) :
      Move cs cl l x (some (.failed j)) cs (cl.set j (.idle r)) l x

theorem tryLock_eq (i : Nat) (gs : List (V → V)) (r : List (Bool × List (V → V))) :
    client (new 0 0) i ((true, gs) :: r) =
      .tryLock 0 fun ok => if ok then (Cl.entering gs r).proc i else (Cl.failing r).proc i := by
  simp only [client, tryLock, new]
  congr 1

/-- Who executes an instruction. -/
theorem who {v : V} {cs : List (List (Bool × List (V → V)))} {cl : List (Cl V)} {l : Bool} {x : V} {i : Nat}
    {p : Proc V (Event V)} (h : (conf v cs cl l x).procs[i]? = some p) :
    (p = .done) ∨
    (i = 0 ∧ ∃ c r, cs = c :: r ∧ p = .go (client (new 0 0) cl.length c) (mainProc (cl.length + 1) r)) ∨
    (∃ j q, i = j + 1 ∧ cl[j]? = some q ∧
      ((∃ gs r, q = .idle ((false, gs) :: r) ∧ p = .lock 0 ((Cl.entering gs r).proc j)) ∨
       (∃ gs r, q = .idle ((true, gs) :: r) ∧
          p = .tryLock 0 fun ok => if ok then (Cl.entering gs r).proc j else (Cl.failing r).proc j) ∨
       (∃ gs r, q = .entering gs r ∧ p = .emit (.entered j gs) ((Cl.inside gs r).proc j)) ∨
       (∃ g gs r, q = .inside (g :: gs) r ∧ p = .load 0 fun x => (Cl.storing (g x) gs r).proc j) ∨
       (∃ y gs r, q = .storing y gs r ∧ p = .store 0 y ((Cl.inside gs r).proc j)) ∨
       (∃ r, q = .inside [] r ∧ p = .emit (.left j) ((Cl.unlocking r).proc j)) ∨
       (∃ r, q = .unlocking r ∧ p = .unlock 0 ((Cl.idle r).proc j)) ∨
       (∃ r, q = .failing r ∧ p = .emit (.failed j) ((Cl.idle r).proc j)))) := by
  match i with
  | 0 =>
    simp only [conf, List.getElem?_cons_zero, Option.some.injEq] at h
    subst h
    cases cs with
    | nil => exact .inl rfl
    | cons c r => exact .inr (.inl ⟨rfl, c, r, rfl, rfl⟩)
  | j + 1 =>
    simp only [conf, List.getElem?_cons_succ, List.getElem?_mapIdx, Option.map_eq_some_iff] at h
    obtain ⟨q, hq, rfl⟩ := h
    match q with
    | .idle [] => exact .inl rfl
    | .idle ((false, gs) :: r) => exact .inr (.inr ⟨j, _, rfl, hq, .inl ⟨gs, r, rfl, rfl⟩⟩)
    | .idle ((true, gs) :: r) => exact .inr (.inr ⟨j, _, rfl, hq, .inr (.inl ⟨gs, r, rfl, tryLock_eq ..⟩)⟩)
    | .entering gs r => exact .inr (.inr ⟨j, _, rfl, hq, .inr (.inr (.inl ⟨gs, r, rfl, rfl⟩))⟩)
    | .inside (g :: gs) r => exact .inr (.inr ⟨j, _, rfl, hq, .inr (.inr (.inr (.inl ⟨g, gs, r, rfl, rfl⟩)))⟩)
    | .storing y gs r => exact .inr (.inr ⟨j, _, rfl, hq, .inr (.inr (.inr (.inr (.inl ⟨y, gs, r, rfl, rfl⟩))))⟩)
    | .inside [] r =>
      exact .inr (.inr ⟨j, _, rfl, hq, .inr (.inr (.inr (.inr (.inr (.inl ⟨r, rfl, rfl⟩)))))⟩)
    | .unlocking r =>
      exact .inr (.inr ⟨j, _, rfl, hq, .inr (.inr (.inr (.inr (.inr (.inr (.inl ⟨r, rfl, rfl⟩))))))⟩)
    | .failing r =>
      exact .inr (.inr ⟨j, _, rfl, hq, .inr (.inr (.inr (.inr (.inr (.inr (.inr ⟨r, rfl, rfl⟩))))))⟩)

theorem conf_client (v : V) (cs : List (List (Bool × List (V → V)))) (cl : List (Cl V)) (l : Bool) (x : V) (j : Nat)
    (q : Cl V) : (conf v cs cl l x).to (j + 1) (q.proc j) = conf v cs (cl.set j q) l x := by
  simp [conf, Config.to, List.mapIdx_set]

/-- Who competes for the mutex. -/
theorem competes {v : V} {cs : List (List (Bool × List (V → V)))} {cl : List (Cl V)} {l : Bool} {x : V} {i m : Nat}
    (h : (∃ k, (conf v cs cl l x).procs[i]? = some (.lock m k)) ∨
      ∃ k, (conf v cs cl l x).procs[i]? = some (.tryLock m k)) :
    ∃ (j : Nat) (c : Bool × List (V → V)) (r : List (Bool × List (V → V))), i = j + 1 ∧ cl[j]? = some (.idle (c :: r)) := by
  rcases h with ⟨k, h⟩ | ⟨k, h⟩ <;>
  rcases who h with e | ⟨_, _, _, _, e⟩ | ⟨j, q, rfl, hq, ⟨gs, r, rfl, e⟩ | ⟨gs, r, rfl, e⟩ | ⟨gs, r, rfl, e⟩ |
    ⟨g, gs, r, rfl, e⟩ | ⟨y, gs, r, rfl, e⟩ | ⟨r, rfl, e⟩ | ⟨r, rfl, e⟩ | ⟨r, rfl, e⟩⟩ <;> cases e
  · exact ⟨_, _, _, rfl, hq⟩
  · exact ⟨_, _, _, rfl, hq⟩

/-- Every step of the program is one of the moves, as long as only holders unlock. -/
theorem step_move {v : V} {cs : List (List (Bool × List (V → V)))} {cl : List (Cl V)} {l : Bool} {x : V}
    {e : Option (Event V)} {s' : Config V (Event V)} (hu : ∀ (j : Nat) r, cl[j]? = some (.unlocking r) → l = true)
    (h : Step (conf v cs cl l x) e s') :
    ∃ cs' cl' l' x', s' = conf v cs' cl' l' x' ∧ Move cs cl l x e cs' cl' l' x' := by
  have lk : (conf v cs cl l x).locks 0 = l := by simp [conf, upd]
  have vr : (conf v cs cl l x).vars 0 = x := by simp [conf, upd]
  cases h with
  | emit hc h =>
    rcases who h with e | ⟨_, _, _, _, e⟩ | ⟨j, q, rfl, hq, ⟨gs, r, rfl, e⟩ | ⟨gs, r, rfl, e⟩ | ⟨gs, r, rfl, e⟩ |
      ⟨g, gs, r, rfl, e⟩ | ⟨y, gs, r, rfl, e⟩ | ⟨r, rfl, e⟩ | ⟨r, rfl, e⟩ | ⟨r, rfl, e⟩⟩ <;> cases e
    · exact ⟨_, _, _, _, conf_client .., .enter hq⟩
    · exact ⟨_, _, _, _, conf_client .., .leave hq⟩
    · exact ⟨_, _, _, _, conf_client .., .fail hq⟩
  | go hc h =>
    rcases who h with e | ⟨rfl, c, r, rfl, e⟩ | ⟨j, q, rfl, hq, ⟨gs, r, rfl, e⟩ | ⟨gs, r, rfl, e⟩ | ⟨gs, r, rfl, e⟩ |
      ⟨g, gs, r, rfl, e⟩ | ⟨y, gs, r, rfl, e⟩ | ⟨r, rfl, e⟩ | ⟨r, rfl, e⟩ | ⟨r, rfl, e⟩⟩ <;> cases e
    refine ⟨_, _, _, _, ?_, .start⟩
    simp [conf, Cl.proc, List.mapIdx_append]
  | lock hc h hl =>
    rcases who h with e | ⟨_, _, _, _, e⟩ | ⟨j, q, rfl, hq, ⟨gs, r, rfl, e⟩ | ⟨gs, r, rfl, e⟩ | ⟨gs, r, rfl, e⟩ |
      ⟨g, gs, r, rfl, e⟩ | ⟨y, gs, r, rfl, e⟩ | ⟨r, rfl, e⟩ | ⟨r, rfl, e⟩ | ⟨r, rfl, e⟩⟩ <;> cases e
    rw [lk] at hl
    subst hl
    refine ⟨_, _, _, _, ?_, .lock hq⟩
    rw [conf_client]
    simp [conf, upd_upd]
  | tryLock hc h hl =>
    rcases who h with e | ⟨_, _, _, _, e⟩ | ⟨j, q, rfl, hq, ⟨gs, r, rfl, e⟩ | ⟨gs, r, rfl, e⟩ | ⟨gs, r, rfl, e⟩ |
      ⟨g, gs, r, rfl, e⟩ | ⟨y, gs, r, rfl, e⟩ | ⟨r, rfl, e⟩ | ⟨r, rfl, e⟩ | ⟨r, rfl, e⟩⟩ <;> cases e
    rw [lk] at hl
    subst hl
    refine ⟨_, _, _, _, ?_, .tryLock hq⟩
    simp only [if_true]
    rw [conf_client]
    simp [conf, upd_upd]
  | tryLockFails hc h hl =>
    rcases who h with e | ⟨_, _, _, _, e⟩ | ⟨j, q, rfl, hq, ⟨gs, r, rfl, e⟩ | ⟨gs, r, rfl, e⟩ | ⟨gs, r, rfl, e⟩ |
      ⟨g, gs, r, rfl, e⟩ | ⟨y, gs, r, rfl, e⟩ | ⟨r, rfl, e⟩ | ⟨r, rfl, e⟩ | ⟨r, rfl, e⟩⟩ <;> cases e
    refine ⟨_, _, _, _, ?_, .tryFail hq ?_⟩
    · simp only [Bool.false_eq_true, if_false]
      rw [conf_client]
    · rw [lk] at hl
      rcases hl with hl | ⟨j', hne, hl⟩
      · exact .inl hl
      · obtain ⟨j', c, r', rfl, hj'⟩ := competes hl
        exact .inr ⟨j', c, r', by omega, hj'⟩
  | unlock hc h hl =>
    rcases who h with e | ⟨_, _, _, _, e⟩ | ⟨j, q, rfl, hq, ⟨gs, r, rfl, e⟩ | ⟨gs, r, rfl, e⟩ | ⟨gs, r, rfl, e⟩ |
      ⟨g, gs, r, rfl, e⟩ | ⟨y, gs, r, rfl, e⟩ | ⟨r, rfl, e⟩ | ⟨r, rfl, e⟩ | ⟨r, rfl, e⟩⟩ <;> cases e
    rw [lk] at hl
    subst hl
    refine ⟨_, _, _, _, ?_, .unlock hq⟩
    rw [conf_client]
    simp [conf, upd_upd]
  | unlockFree hc h hl =>
    rcases who h with e | ⟨_, _, _, _, e⟩ | ⟨j, q, rfl, hq, ⟨gs, r, rfl, e⟩ | ⟨gs, r, rfl, e⟩ | ⟨gs, r, rfl, e⟩ |
      ⟨g, gs, r, rfl, e⟩ | ⟨y, gs, r, rfl, e⟩ | ⟨r, rfl, e⟩ | ⟨r, rfl, e⟩ | ⟨r, rfl, e⟩⟩ <;> cases e
    rw [lk, hu j r hq] at hl
    cases hl
  | load hc h =>
    rcases who h with e | ⟨_, _, _, _, e⟩ | ⟨j, q, rfl, hq, ⟨gs, r, rfl, e⟩ | ⟨gs, r, rfl, e⟩ | ⟨gs, r, rfl, e⟩ |
      ⟨g, gs, r, rfl, e⟩ | ⟨y, gs, r, rfl, e⟩ | ⟨r, rfl, e⟩ | ⟨r, rfl, e⟩ | ⟨r, rfl, e⟩⟩ <;> cases e
    refine ⟨_, _, _, _, ?_, .load hq⟩
    rw [vr, conf_client]
  | store hc h =>
    rcases who h with e | ⟨_, _, _, _, e⟩ | ⟨j, q, rfl, hq, ⟨gs, r, rfl, e⟩ | ⟨gs, r, rfl, e⟩ | ⟨gs, r, rfl, e⟩ |
      ⟨g, gs, r, rfl, e⟩ | ⟨y, gs, r, rfl, e⟩ | ⟨r, rfl, e⟩ | ⟨r, rfl, e⟩ | ⟨r, rfl, e⟩⟩ <;> cases e
    refine ⟨_, _, _, _, ?_, .store hq⟩
    rw [conf_client]
    simp [conf, upd_upd]
  | sendBuf hc _ h | sendClosed hc _ h | recvBuf hc _ h | pollBuf hc _ h | recvClosed hc _ h | pollClosed hc _ h
  | pollDefault hc _ h | close hc _ h | closeClosed hc _ h | park hc _ h | meet hc _ _ h | meetPoll hc _ _ h =>
    simp [conf] at h
  | tau hc h | make hc h =>
    rcases who h with e | ⟨_, _, _, _, e⟩ | ⟨j, q, rfl, hq, ⟨gs, r, rfl, e⟩ | ⟨gs, r, rfl, e⟩ | ⟨gs, r, rfl, e⟩ |
      ⟨g, gs, r, rfl, e⟩ | ⟨y, gs, r, rfl, e⟩ | ⟨r, rfl, e⟩ | ⟨r, rfl, e⟩ | ⟨r, rfl, e⟩⟩ <;> cases e

theorem get_client {v : V} {cs : List (List (Bool × List (V → V)))} {cl : List (Cl V)} {l : Bool} {x : V} {j : Nat}
    {q : Cl V} (h : cl[j]? = some q) : (conf v cs cl l x).procs[j + 1]? = some (q.proc j) := by
  simp [conf, h]

/-- Every move is a step. -/
theorem move_step {v : V} {cs cs' : List (List (Bool × List (V → V)))} {cl cl' : List (Cl V)} {l l' : Bool} {x x' : V}
    {e : Option (Event V)} (h : Move cs cl l x e cs' cl' l' x') : Step (conf v cs cl l x) e (conf v cs' cl' l' x') := by
  have lk : ∀ cl l, (conf v cs cl l x).locks 0 = l := by simp [conf, upd]
  cases h with
  | @start c _ _ _ _ =>
    have : conf v cs' (cl ++ [.idle c]) l x = { conf v (c :: cs') cl l x with
        procs := (conf v (c :: cs') cl l x).procs.set 0 (mainProc (cl.length + 1) cs') ++
          [client (new 0 0) cl.length c] } := by
      simp [conf, Cl.proc, List.mapIdx_append]
    rw [this]
    exact .go (i := 0) rfl rfl
  | @lock _ _ _ gs r j hj =>
    have : conf v cs (cl.set j (.entering gs r)) true x = { (conf v cs cl false x).to (j + 1) ((Cl.entering gs r).proc j) with
        locks := upd (conf v cs cl false x).locks 0 true } := by
      rw [conf_client]
      simp [conf, upd_upd]
    rw [this]
    exact .lock rfl (get_client hj) (lk _ _)
  | @tryLock _ _ _ gs r j hj =>
    have : conf v cs (cl.set j (.entering gs r)) true x = { (conf v cs cl false x).to (j + 1)
          ((fun ok => if ok = true then (Cl.entering gs r).proc j else (Cl.failing r).proc j) true) with
        locks := upd (conf v cs cl false x).locks 0 true } := by
      simp only [if_true]
      rw [conf_client]
      simp [conf, upd_upd]
    rw [this]
    refine Step.tryLock (s := conf v cs cl false x) (m := 0)
      (k := fun ok => if ok = true then (Cl.entering gs r).proc j else (Cl.failing r).proc j) rfl ?_ (lk _ _)
    rw [get_client hj, Cl.proc, tryLock_eq]
  | @tryFail _ _ _ _ gs r j hj hl =>
    have : conf v cs (cl.set j (.failing r)) l x = (conf v cs cl l x).to (j + 1)
          ((fun ok => if ok = true then (Cl.entering gs r).proc j else (Cl.failing r).proc j) false) := by
      simp only [Bool.false_eq_true, if_false]
      rw [conf_client]
    rw [this]
    refine Step.tryLockFails (s := conf v cs cl l x) (m := 0)
      (k := fun ok => if ok = true then (Cl.entering gs r).proc j else (Cl.failing r).proc j) rfl ?_ ?_
    · rw [get_client hj, Cl.proc, tryLock_eq]
    · rw [lk]
      rcases hl with hl | ⟨j', ⟨b, gs'⟩, r', hne, hj'⟩
      · exact .inl hl
      · refine .inr ⟨j' + 1, by omega, ?_⟩
        rw [get_client hj']
        cases b with
        | false => exact .inl ⟨_, rfl⟩
        | true => exact .inr ⟨_, rfl⟩
  | enter hj => rw [← conf_client]; exact .emit rfl (get_client hj)
  | @load _ _ _ _ g gs r j hj =>
    have : conf v cs (cl.set j (.storing (g x) gs r)) l x = (conf v cs cl l x).to (j + 1)
        ((fun y => (Cl.storing (g y) gs r).proc j) ((conf v cs cl l x).vars 0)) := by
      have vr : (conf v cs cl l x).vars 0 = x := by simp [conf, upd]
      simp only [vr]
      rw [conf_client]
    rw [this]
    exact .load rfl (get_client hj)
  | @store _ _ _ _ y gs r j hj =>
    have : conf v cs (cl.set j (.inside gs r)) l x' = { (conf v cs cl l x).to (j + 1) ((Cl.inside gs r).proc j) with
        vars := upd (conf v cs cl l x).vars 0 x' } := by
      rw [conf_client]
      simp [conf, upd_upd]
    rw [this]
    exact .store rfl (get_client hj)
  | leave hj => rw [← conf_client]; exact .emit rfl (get_client hj)
  | @unlock _ _ _ r j hj =>
    have : conf v cs (cl.set j (.idle r)) false x = { (conf v cs cl true x).to (j + 1) ((Cl.idle r).proc j) with
        locks := upd (conf v cs cl true x).locks 0 false } := by
      rw [conf_client]
      simp [conf, upd_upd]
    rw [this]
    exact .unlock rfl (get_client hj) (lk _ _)
  | fail hj => rw [← conf_client]; exact .emit rfl (get_client hj)

/-- The client holds the mutex. -/
def Cl.holds : Cl V → Bool
  | .idle _ => false
  | .failing _ => false
  | _ => true

/-- The client is between its two events; the value it will leave behind. -/
def Cl.pending (x : V) : Cl V → Option V
  | .inside gs _ => some (applied gs x)
  | .storing y gs _ => some (applied gs y)
  | _ => none

/-- The invariant: the mutex is locked iff somebody holds it, only one client holds it, and the events so far
are possible one section at a time. -/
structure Inv (v : V) (tr : List (Event V)) (cl : List (Cl V)) (l : Bool) (x : V) : Prop where
  locked : l = true ↔ ∃ (j : Nat) (q : Cl V), cl[j]? = some q ∧ q.holds = true
  one : ∀ (j j' : Nat) (q q' : Cl V), cl[j]? = some q → cl[j']? = some q' → q.holds = true → q'.holds = true → j = j'
  trace : ∃ h y, oneAtATime (none, v) tr = some (h, y) ∧
    (∀ (j : Nat), h = some j ↔ ∃ q : Cl V, cl[j]? = some q ∧ (q.pending x).isSome) ∧
    (∀ (j : Nat) (q : Cl V) (z : V), cl[j]? = some q → q.pending x = some z → z = y) ∧ (h = none → x = y)

theorem pending_holds {x : V} {q : Cl V} (h : (q.pending x).isSome) : q.holds = true := by
  cases q <;> simp [Cl.pending, Cl.holds] at h ⊢

theorem get_set {α : Type} {l : List α} {j i : Nat} {a b : α} (h : l[j]? = some a) :
    (l.set j b)[i]? = if i = j then some b else l[i]? := by
  have hl : j < l.length := by rw [List.getElem?_eq_some_iff] at h; exact h.1
  by_cases hij : i = j
  · subst hij; simp [hl]
  · rw [if_neg hij, List.getElem?_set_ne (Ne.symm hij)]

/-- A client moves on while it holds, or does not hold, the mutex. -/
theorem locked_keep {cl : List (Cl V)} {j : Nat} {q q' : Cl V} {l : Bool} (hj : cl[j]? = some q)
    (hh : q'.holds = q.holds) (h : l = true ↔ ∃ (j : Nat) (q : Cl V), cl[j]? = some q ∧ q.holds = true) :
    l = true ↔ ∃ (i : Nat) (q : Cl V), (cl.set j q')[i]? = some q ∧ q.holds = true := by
  rw [h]
  constructor
  · rintro ⟨i, a, ha, hold⟩
    by_cases hij : i = j
    · subst hij
      rw [hj] at ha
      cases ha
      exact ⟨i, q', by rw [get_set hj, if_pos rfl], by rw [hh, hold]⟩
    · exact ⟨i, a, by rw [get_set hj, if_neg hij, ha], hold⟩
  · rintro ⟨i, a, ha, hold⟩
    rw [get_set hj] at ha
    by_cases hij : i = j
    · rw [if_pos hij] at ha
      cases ha
      exact ⟨j, q, hj, by rw [← hh, hold]⟩
    · rw [if_neg hij] at ha
      exact ⟨i, a, ha, hold⟩

theorem one_keep {cl : List (Cl V)} {j : Nat} {q q' : Cl V} (hj : cl[j]? = some q)
    (hh : q'.holds = true → q.holds = true)
    (h : ∀ (j j' : Nat) (q q' : Cl V), cl[j]? = some q → cl[j']? = some q' → q.holds = true → q'.holds = true → j = j') :
    ∀ (i i' : Nat) (a a' : Cl V), (cl.set j q')[i]? = some a → (cl.set j q')[i']? = some a' →
      a.holds = true → a'.holds = true → i = i' := by
  intro i i' a a' hi hi' ha ha'
  have back : ∀ {i : Nat} {a : Cl V}, (cl.set j q')[i]? = some a → a.holds = true → ∃ b : Cl V, cl[i]? = some b ∧ b.holds = true := by
    intro i a hi ha
    rw [get_set hj] at hi
    by_cases hij : i = j
    · rw [if_pos hij] at hi
      cases hi
      exact ⟨q, by rw [hij, hj], hh ha⟩
    · rw [if_neg hij] at hi
      exact ⟨a, hi, ha⟩
  obtain ⟨b, hb, hb'⟩ := back hi ha
  obtain ⟨c, hc, hc'⟩ := back hi' ha'
  exact h i i' b c hb hc hb' hc'

theorem inv_move {v : V} {tr : List (Event V)} {cs cs' : List (List (Bool × List (V → V)))} {cl cl' : List (Cl V)}
    {l l' : Bool} {x x' : V} {e : Option (Event V)} (inv : Inv v tr cl l x) (m : Move cs cl l x e cs' cl' l' x') :
    Inv v (tr ++ e.toList) cl' l' x' := by
  obtain ⟨hl, h1, h, y, ht, hh, hp, hx⟩ := inv
  have ev : ∀ {st : Option (Option Nat × V)} {e : Event V}, oneAtATime (h, y) [e] = st →
      oneAtATime (none, v) (tr ++ (some e).toList) = st := by
    intro st e he
    rw [Option.toList_some, oneAtATime_append, ht, Option.bind_some, he]
  have ev0 : oneAtATime (none, v) (tr ++ (none : Option (Event V)).toList) = some (h, y) := by
    simpa using ht
  -- a client that is not between its events moves to such a place
  have quiet : ∀ {j : Nat} {q q' : Cl V}, cl[j]? = some q → q.pending x = none → q'.pending x = none →
      (∀ (i : Nat), h = some i ↔ ∃ a : Cl V, (cl.set j q')[i]? = some a ∧ (a.pending x).isSome) ∧
      (∀ (i : Nat) (a : Cl V) (z : V), (cl.set j q')[i]? = some a → a.pending x = some z → z = y) := by
    intro j q q' hj hq hq'
    refine ⟨fun i => ?_, fun i a z ha hz => ?_⟩
    · rw [hh i]
      by_cases hij : i = j
      · subst hij
        simp [get_set hj, hj, hq, hq']
      · simp [get_set hj, hij]
    · rw [get_set hj] at ha
      by_cases hij : i = j
      · rw [if_pos hij] at ha
        cases ha
        rw [hq'] at hz
        cases hz
      · rw [if_neg hij] at ha
        exact hp i a z ha hz
  -- nobody else is between its events when this one holds the mutex
  have alone : ∀ {j : Nat} {q : Cl V}, cl[j]? = some q → q.holds = true → ∀ {i : Nat} {a : Cl V}, i ≠ j →
      cl[i]? = some a → a.pending x = none := by
    intro j q hj hq i a hij ha
    cases hb : a.pending x with
    | none => rfl
    | some z => exact absurd (h1 i j a q ha hj (pending_holds (by rw [hb]; rfl)) hq) hij
  have acquire : ∀ {j : Nat} {b gs r}, cl[j]? = some (.idle (b :: r)) → l = false →
      Inv v (tr ++ (none : Option (Event V)).toList) (cl.set j (.entering gs r)) true x := by
    intro j b gs r hj hfree
    have nobody : ∀ (i : Nat) (a : Cl V), cl[i]? = some a → a.holds = false := by
      intro i a ha
      cases hb : a.holds with
      | false => rfl
      | true => rw [hl.2 ⟨i, a, ha, hb⟩] at hfree; cases hfree
    refine ⟨⟨fun _ => ⟨j, _, by rw [get_set hj, if_pos rfl], rfl⟩, fun _ => rfl⟩, ?_, h, y, ev0,
      (quiet hj rfl rfl).1, (quiet hj rfl rfl).2, hx⟩
    intro i i' a a' hi hi' ha ha'
    have : ∀ {i : Nat} {a : Cl V}, (cl.set j (.entering gs r))[i]? = some a → a.holds = true → i = j := by
      intro i a hi ha
      rw [get_set hj] at hi
      by_cases hij : i = j
      · exact hij
      · rw [if_neg hij] at hi
        rw [nobody i a hi] at ha
        cases ha
    rw [this hi ha, this hi' ha']
  cases m with
  | @start c _ _ _ _ =>
    have app : ∀ {i : Nat} {a : Cl V}, (cl ++ [.idle c])[i]? = some a → cl[i]? = some a ∨ a = .idle c := by
      intro i a ha
      by_cases hi : i < cl.length
      · rw [List.getElem?_append_left hi] at ha
        exact .inl ha
      · rw [List.getElem?_append_right (by omega)] at ha
        exact .inr (by simpa using List.mem_of_getElem? ha)
    have fwd : ∀ {i : Nat} {a : Cl V}, cl[i]? = some a → (cl ++ [.idle c])[i]? = some a := by
      intro i a ha
      have hi : i < cl.length := by rw [List.getElem?_eq_some_iff] at ha; exact ha.1
      rw [List.getElem?_append_left hi, ha]
    refine ⟨?_, ?_, h, y, ev0, ?_, ?_, hx⟩
    · rw [hl]
      constructor
      · rintro ⟨i, a, ha, hb⟩; exact ⟨i, a, fwd ha, hb⟩
      · rintro ⟨i, a, ha, hb⟩
        rcases app ha with ha | rfl
        · exact ⟨i, a, ha, hb⟩
        · cases hb
    · intro i i' a a' ha ha' hb hb'
      rcases app ha with ha | rfl
      · rcases app ha' with ha' | rfl
        · exact h1 i i' a a' ha ha' hb hb'
        · cases hb'
      · cases hb
    · intro i
      rw [hh]
      constructor
      · rintro ⟨a, ha, hb⟩; exact ⟨a, fwd ha, hb⟩
      · rintro ⟨a, ha, hb⟩
        rcases app ha with ha | rfl
        · exact ⟨a, ha, hb⟩
        · cases hb
    · intro i a z ha hz
      rcases app ha with ha | rfl
      · exact hp i a z ha hz
      · cases hz
  | lock hj => exact acquire hj rfl
  | tryLock hj => exact acquire hj rfl
  | tryFail hj _ =>
    exact ⟨locked_keep hj rfl hl, one_keep hj (by intro e; cases e) h1, h, y, ev0, (quiet hj rfl rfl).1,
      (quiet hj rfl rfl).2, hx⟩
  | fail hj =>
    refine ⟨locked_keep hj rfl hl, one_keep hj (by intro e; cases e) h1, h, y, ev ?_, (quiet hj rfl rfl).1,
      (quiet hj rfl rfl).2, hx⟩
    cases h <;> simp [oneAtATime]
  | @enter _ _ _ _ gs r j hj =>
    have hn : h = none := by
      cases hh' : h with
      | none => rfl
      | some i =>
        obtain ⟨a, ha, hb⟩ := (hh i).1 hh'
        by_cases hij : i = j
        · subst hij; rw [hj] at ha; cases ha; cases hb
        · rw [alone hj rfl hij ha] at hb; cases hb
    subst hn
    have hxy : x = y := hx rfl
    refine ⟨locked_keep hj rfl hl, one_keep hj (fun _ => rfl) h1, some j, applied gs y, ev (by simp [oneAtATime]), ?_, ?_,
      by intro e; cases e⟩
    · intro i
      by_cases hij : i = j
      · subst hij
        simp [get_set hj, Cl.pending]
      · simp only [get_set hj, if_neg hij, Option.some.injEq]
        constructor
        · intro e; exact absurd e.symm hij
        · rintro ⟨a, ha, hb⟩
          rw [alone hj rfl hij ha] at hb
          cases hb
    · intro i a z ha hz
      rw [get_set hj] at ha
      by_cases hij : i = j
      · rw [if_pos hij] at ha
        cases ha
        simp only [Cl.pending, Option.some.injEq] at hz
        rw [← hz, hxy]
      · rw [if_neg hij] at ha
        rw [alone hj rfl hij ha] at hz
        cases hz
  | @load _ _ _ _ g gs r j hj =>
    refine ⟨locked_keep hj rfl hl, one_keep hj (fun _ => rfl) h1, h, y, ev0, ?_, ?_, hx⟩
    · intro i
      rw [hh]
      by_cases hij : i = j
      · subst hij
        simp [get_set hj, hj, Cl.pending]
      · simp [get_set hj, hij]
    · intro i a z ha hz
      rw [get_set hj] at ha
      by_cases hij : i = j
      · rw [if_pos hij] at ha
        cases ha
        exact hp j _ z hj hz
      · rw [if_neg hij] at ha
        exact hp i a z ha hz
  | @store _ _ _ _ w gs r j hj =>
    have hj' : h = some j := (hh j).2 ⟨_, hj, rfl⟩
    refine ⟨locked_keep hj rfl hl, one_keep hj (fun _ => rfl) h1, h, y, ev0, ?_, ?_, by rw [hj']; intro e; cases e⟩
    · intro i
      by_cases hij : i = j
      · subst hij
        simp [get_set hj, hj', Cl.pending]
      · simp only [get_set hj, if_neg hij, hj', Option.some.injEq]
        constructor
        · intro e; exact absurd e.symm hij
        · rintro ⟨a, ha, hb⟩
          have := alone hj rfl hij ha
          cases a <;> simp [Cl.pending] at hb this
    · intro i a z ha hz
      rw [get_set hj] at ha
      by_cases hij : i = j
      · rw [if_pos hij] at ha
        cases ha
        exact hp j _ z hj hz
      · rw [if_neg hij] at ha
        have := alone hj rfl hij ha
        cases a <;> simp [Cl.pending] at hz this
  | @leave _ _ _ _ r j hj =>
    have hj' : h = some j := (hh j).2 ⟨_, hj, rfl⟩
    have hy : x = y := hp j _ x hj rfl
    refine ⟨locked_keep hj rfl hl, one_keep hj (fun _ => rfl) h1, none, y, ev (by simp [oneAtATime, hj']), ?_, ?_, fun _ => hy⟩
    · intro i
      by_cases hij : i = j
      · subst hij
        simp [get_set hj, Cl.pending]
      · simp only [get_set hj, if_neg hij]
        constructor
        · intro e; cases e
        · rintro ⟨a, ha, hb⟩
          rw [alone hj rfl hij ha] at hb
          cases hb
    · intro i a z ha hz
      rw [get_set hj] at ha
      by_cases hij : i = j
      · rw [if_pos hij] at ha
        cases ha
        cases hz
      · rw [if_neg hij] at ha
        rw [alone hj rfl hij ha] at hz
        cases hz
  | @unlock _ _ _ r j hj =>
    refine ⟨⟨(by intro e; cases e), ?_⟩, one_keep hj (by intro e; cases e) h1, h, y, ev0, (quiet hj rfl rfl).1,
      (quiet hj rfl rfl).2, hx⟩
    rintro ⟨i, a, ha, hb⟩
    rw [get_set hj] at ha
    by_cases hij : i = j
    · rw [if_pos hij] at ha
      cases ha
      cases hb
    · rw [if_neg hij] at ha
      exact absurd (h1 i j a _ ha hj hb rfl) hij

/-- Executions of the program as moves. -/
inductive Exec (v : V) (clients : List (List (Bool × List (V → V)))) :
    List (Event V) → List (List (Bool × List (V → V))) → List (Cl V) → Bool → V → Prop
  | init : Exec v clients [] clients [] false v
  | move {tr cs cl l x e cs' cl' l' x'} (h : Exec v clients tr cs cl l x) (m : Move cs cl l x e cs' cl' l' x') :
      Exec v clients (tr ++ e.toList) cs' cl' l' x'

theorem exec_inv {v : V} {clients : List (List (Bool × List (V → V)))} {tr : List (Event V)}
    {cs : List (List (Bool × List (V → V)))} {cl : List (Cl V)} {l : Bool} {x : V}
    (h : Exec v clients tr cs cl l x) : Inv v tr cl l x := by
  induction h with
  | init => exact ⟨by simp, by simp, none, v, rfl, by simp, by simp, fun _ => rfl⟩
  | move h m ih => exact inv_move ih m

theorem program_eq (v : V) (clients : List (List (Bool × List (V → V)))) :
    program v clients = conf v clients [] false v := by
  simp only [program, start, conf, mainProc, List.mapIdx_nil, List.length_nil, upd_self]

theorem inv_unlocking {v : V} {tr : List (Event V)} {cl : List (Cl V)} {l : Bool} {x : V} (inv : Inv v tr cl l x)
    (j : Nat) (r : List (Bool × List (V → V))) (hj : cl[j]? = some (.unlocking r)) : l = true :=
  inv.locked.2 ⟨j, _, hj, rfl⟩

theorem run_exec {v : V} {clients : List (List (Bool × List (V → V)))} {tr : List (Event V)}
    {s : Config V (Event V)} (h : Run (program v clients) tr s) :
    ∃ cs cl l x, s = conf v cs cl l x ∧ Exec v clients tr cs cl l x := by
  induction h with
  | nil => exact ⟨_, _, _, _, program_eq .., .init⟩
  | step r h ih =>
    obtain ⟨cs, cl, l, x, rfl, hx⟩ := ih
    obtain ⟨cs', cl', l', x', rfl, m⟩ := step_move (inv_unlocking (exec_inv hx)) h
    exact ⟨_, _, _, _, rfl, hx.move m⟩

theorem exec_run {v : V} {clients : List (List (Bool × List (V → V)))} {tr : List (Event V)}
    {cs : List (List (Bool × List (V → V)))} {cl : List (Cl V)} {l : Bool} {x : V}
    (h : Exec v clients tr cs cl l x) : Run (program v clients) tr (conf v cs cl l x) := by
  induction h with
  | init => rw [program_eq]; exact .nil _
  | move h m ih => exact ih.step (move_step m)
end Mutex
open Mutex
variable {V : Type}

/-- C81: in every execution of any number of goroutines with any critical sections on one mutex, the critical
sections, whether entered by Lock or by TryLock, come one at a time (the trace is one of `oneAtATime`: nobody
enters while another is inside), no update of the value is lost: whenever nobody is inside, the value is what
the sections so far give one after the other; and no Unlock panics. -/
theorem C81_mutual_exclusion {v : V} {clients : List (List (Bool × List (V → V)))} {tr : List (Mutex.Event V)}
    {s : Config V (Mutex.Event V)} (h : Run (Mutex.program v clients) tr s) :
    ∃ holder x, oneAtATime (none, v) tr = some (holder, x) ∧ (holder = none → s.vars 0 = x) ∧ s.crashed = false := by
  obtain ⟨cs, cl, l, x, rfl, hx⟩ := Mutex.run_exec h
  obtain ⟨_, _, h, y, ht, _, _, hn⟩ := Mutex.exec_inv hx
  refine ⟨h, y, ht, fun e => ?_, rfl⟩
  rw [← hn e]
  simp [conf, upd]

/-- C81: TryLock never blocks: a goroutine in TryLock can always go on, whoever holds the mutex and in every
reachable state.  It succeeds only on a free mutex, and on a free mutex nobody else is after it does succeed. -/
theorem C81_tryLock {v : V} {clients : List (List (Bool × List (V → V)))} {tr : List (Mutex.Event V)}
    {s : Config V (Mutex.Event V)} (h : Run (Mutex.program v clients) tr s) {i : Nat} {m : Nat}
    {k : Bool → Proc V (Mutex.Event V)} (hi : s.procs[i]? = some (.tryLock m k)) :
    (∃ ok s', Step s none s' ∧ s'.procs[i]? = some (k ok)) ∧
    (s.locks m = true → ∀ e s', Step s e s' → s'.procs[i]? = some (.tryLock m k) ∨ s'.procs[i]? = some (k false)) ∧
    (s.locks m = false → (∀ j, j ≠ i → (∀ k', s.procs[j]? ≠ some (.lock m k')) ∧
        ∀ k', s.procs[j]? ≠ some (.tryLock m k')) →
      ∀ e s', Step s e s' → s'.procs[i]? = some (.tryLock m k) ∨
        s'.procs[i]? = some (k true) ∧ s'.locks m = true) := by
  have hl : i < s.procs.length := by rw [List.getElem?_eq_some_iff] at hi; exact hi.1
  have hc : s.crashed = false := by
    obtain ⟨_, _, _, _, rfl, _⟩ := Mutex.run_exec h; rfl
  have other : ∀ {j : Nat} {p q : Proc V (Mutex.Event V)}, s.procs[j]? = some p → p ≠ .tryLock m k →
      (s.procs.set j q)[i]? = some (.tryLock m k) := by
    intro j p q hj hp
    rw [Mutex.get_set hj, if_neg, hi]
    rintro rfl
    rw [hi] at hj
    exact hp (Option.some.inj hj).symm
  have noch : ∀ c : Nat, s.chans[c]? = none := by
    obtain ⟨_, _, _, _, rfl, _⟩ := Mutex.run_exec h
    intro c; simp [conf]
  -- what a step can do to goroutine `i`
  have key : ∀ e s', Step s e s' → s'.procs[i]? = some (.tryLock m k) ∨
      (s.locks m = false ∧ s'.procs[i]? = some (k true) ∧ s'.locks m = true) ∨
      (s'.procs[i]? = some (k false) ∧ (s.locks m = true ∨ ∃ j, j ≠ i ∧ ((∃ k', s.procs[j]? = some (.lock m k')) ∨
        ∃ k', s.procs[j]? = some (.tryLock m k')))) := by
    intro e s' st
    cases st with
    | emit hc h => exact .inl (other h (by intro e; cases e))
    | tau hc h => exact .inl (other h (by intro e; cases e))
    | go hc h =>
      left
      have := other h (q := (by assumption)) (by intro e; cases e)
      rw [List.getElem?_append_left (by simpa using hl)]
      exact this
    | make hc h => exact .inl (other h (by intro e; cases e))
    | lock hc h _ => exact .inl (other h (by intro e; cases e))
    | unlock hc h _ => exact .inl (other h (by intro e; cases e))
    | unlockFree hc h _ => exact .inl hi
    | load hc h => exact .inl (other h (by intro e; cases e))
    | store hc h => exact .inl (other h (by intro e; cases e))
    | @tryLock i' m' k' hc h hfree =>
      by_cases hii : i' = i
      · subst hii
        rw [hi] at h
        cases h
        exact .inr (.inl ⟨hfree, by simp [Config.to, hl], by simp [upd]⟩)
      · left
        show (s.procs.set i' _)[i]? = _
        rw [Mutex.get_set h, if_neg (Ne.symm hii), hi]
    | @tryLockFails i' m' k' hc h hfree =>
      by_cases hii : i' = i
      · subst hii
        rw [hi] at h
        cases h
        exact .inr (.inr ⟨by simp [Config.to, hl], hfree⟩)
      · left
        show (s.procs.set i' _)[i]? = _
        rw [Mutex.get_set h, if_neg (Ne.symm hii), hi]
    | sendBuf hc _ h | sendClosed hc _ h | recvBuf hc _ h | pollBuf hc _ h | recvClosed hc _ h | pollClosed hc _ h
    | pollDefault hc _ h | close hc _ h | closeClosed hc _ h | park hc _ h | meet hc _ _ h | meetPoll hc _ _ h =>
      rw [noch] at h; cases h
  refine ⟨?_, fun hlk e s' st => ?_, fun hlk hno e s' st => ?_⟩
  · cases hlk : s.locks m with
    | true => exact ⟨false, _, .tryLockFails hc hi (.inl hlk), by simp [Config.to, hl]⟩
    | false => exact ⟨true, _, .tryLock hc hi hlk, by simp [Config.to, hl]⟩
  · rcases key e s' st with h | ⟨h, _⟩ | ⟨h, _⟩
    · exact .inl h
    · rw [hlk] at h; cases h
    · exact .inr h
  · rcases key e s' st with h | ⟨_, h⟩ | ⟨h, h' | ⟨j, hj, ⟨k', hk⟩ | ⟨k', hk⟩⟩⟩
    · exact .inl h
    · exact .inr h
    · rw [hlk] at h'; cases h'
    · exact absurd hk ((hno j hj).1 k')
    · exact absurd hk ((hno j hj).2 k')

/-- C81: when an execution has come to its end every goroutine has gone through all its sections: nobody is
left waiting for the mutex. -/
theorem C81_end {v : V} {clients : List (List (Bool × List (V → V)))} {tr : List (Mutex.Event V)}
    {s : Config V (Mutex.Event V)} (h : Run (Mutex.program v clients) tr s) (hend : ∀ e s', ¬ Step s e s') :
    ∀ p ∈ s.procs, p = .done := by
  obtain ⟨cs, cl, l, x, rfl, hx⟩ := Mutex.run_exec h
  have inv := Mutex.exec_inv hx
  have stuck : ∀ {e cs' cl' l' x'}, ¬ Mutex.Move cs cl l x e cs' cl' l' x' := fun m => hend _ _ (Mutex.move_step m)
  have hnl : l = false := by
    cases hl : l with
    | false => rfl
    | true =>
      exfalso
      subst hl
      obtain ⟨j, q, hj, hq⟩ := inv.locked.1 rfl
      match q with
      | .idle r => cases hq
      | .failing r => cases hq
      | .entering gs r => exact stuck (.enter hj)
      | .inside [] r => exact stuck (.leave hj)
      | .inside (g :: gs) r => exact stuck (.load hj)
      | .storing y gs r => exact stuck (.store hj)
      | .unlocking r => exact stuck (.unlock hj)
  subst hnl
  intro p hp
  obtain ⟨i, hi⟩ := List.mem_iff_getElem?.1 hp
  rcases Mutex.who hi with e | ⟨_, c, r, rfl, e⟩ | ⟨j, q, rfl, hq, ⟨gs, r, rfl, e⟩ | ⟨gs, r, rfl, e⟩ | ⟨gs, r, rfl, e⟩ |
      ⟨g, gs, r, rfl, e⟩ | ⟨y, gs, r, rfl, e⟩ | ⟨r, rfl, e⟩ | ⟨r, rfl, e⟩ | ⟨r, rfl, e⟩⟩
  · exact e
  · exact absurd .start stuck
  · exact absurd (.lock hq) stuck
  · exact absurd (.tryLock hq) stuck
  · exact absurd (.enter hq) stuck
  · exact absurd (.load hq) stuck
  · exact absurd (.store hq) stuck
  · exact absurd (.leave hq) stuck
  · have := inv_unlocking inv _ _ hq
    cases this
  · exact absurd (.fail hq) stuck

namespace Mutex
def work : List (Bool × List (V → V)) → Nat
  | [] => 0
  | c :: r => 2 * c.2.length + 4 + work r
/-- What remains to be done. -/
def Cl.remaining : Cl V → Nat
  | .idle r => work r
  | .entering gs r => 2 * gs.length + 3 + work r
  | .inside gs r => 2 * gs.length + 2 + work r
  | .storing _ gs r => 2 * gs.length + 3 + work r
  | .unlocking r => 1 + work r
  | .failing r => 1 + work r
def remaining (cs : List (List (Bool × List (V → V)))) (cl : List (Cl V)) : Nat :=
  (cs.map fun c => work c + 1).sum + (cl.map Cl.remaining).sum

theorem remaining_set {cl : List (Cl V)} {j : Nat} {q q' : Cl V} (h : cl[j]? = some q) :
    ((cl.set j q').map Cl.remaining).sum + q.remaining = (cl.map Cl.remaining).sum + q'.remaining := by
  induction cl generalizing j with
  | nil => simp at h
  | cons a cl ih =>
    cases j with
    | zero =>
      simp only [List.getElem?_cons_zero, Option.some.injEq] at h
      subst h
      simp only [List.set_cons_zero, List.map_cons, List.sum_cons]
      omega
    | succ j =>
      simp only [List.getElem?_cons_succ] at h
      have := ih h
      simp only [List.set_cons_succ, List.map_cons, List.sum_cons]
      omega

theorem remaining_lt {cs : List (List (Bool × List (V → V)))} {cl : List (Cl V)} {j : Nat} {q q' : Cl V}
    (h : cl[j]? = some q) (hq : q'.remaining < q.remaining) : remaining cs (cl.set j q') < remaining cs cl := by
  have := remaining_set (q' := q') h
  unfold remaining
  omega

theorem move_remaining {cs cs' : List (List (Bool × List (V → V)))} {cl cl' : List (Cl V)} {l l' : Bool} {x x' : V}
    {e : Option (Event V)} (m : Move cs cl l x e cs' cl' l' x') : remaining cs' cl' < remaining cs cl := by
  cases m with
  | start =>
    simp only [remaining, List.map_cons, List.sum_cons, List.map_append, List.sum_append, List.map_nil, List.sum_nil,
      Cl.remaining]
    omega
  | lock hj => exact remaining_lt hj (by simp only [Cl.remaining, work]; omega)
  | tryLock hj => exact remaining_lt hj (by simp only [Cl.remaining, work]; omega)
  | tryFail hj => exact remaining_lt hj (by simp only [Cl.remaining, work]; omega)
  | enter hj => exact remaining_lt hj (by simp only [Cl.remaining]; omega)
  | load hj => exact remaining_lt hj (by simp only [Cl.remaining, List.length_cons]; omega)
  | store hj => exact remaining_lt hj (by simp only [Cl.remaining]; omega)
  | leave hj => exact remaining_lt hj (by simp only [Cl.remaining, List.length_nil]; omega)
  | unlock hj => exact remaining_lt hj (by simp only [Cl.remaining]; omega)
  | fail hj => exact remaining_lt hj (by simp only [Cl.remaining]; omega)
end Mutex

/-- C81: no execution goes on forever, so that with `C81_end` every Lock is granted in every execution. -/
theorem C81_always_ends (v : V) (clients : List (List (Bool × List (V → V)))) (f : Nat → Config V (Mutex.Event V))
    (h0 : f 0 = Mutex.program v clients) : ∃ i, ∀ e, ¬ Step (f i) e (f (i + 1)) := by
  apply Classical.byContradiction
  intro hno
  have hs : ∀ i, ∃ e, Step (f i) e (f (i + 1)) := by
    intro i
    apply Classical.byContradiction
    intro hi
    exact hno ⟨i, fun e he => hi ⟨e, he⟩⟩
  have down : ∀ m i tr cs cl l x, f i = conf v cs cl l x → Mutex.Exec v clients tr cs cl l x →
      Mutex.remaining cs cl ≤ m → False := by
    intro m
    induction m with
    | zero =>
      intro i tr cs cl l x hi hx hm
      obtain ⟨e, he⟩ := hs i
      rw [hi] at he
      obtain ⟨_, _, _, _, _, mv⟩ := Mutex.step_move (inv_unlocking (Mutex.exec_inv hx)) he
      have := Mutex.move_remaining mv
      omega
    | succ m ih =>
      intro i tr cs cl l x hi hx hm
      obtain ⟨e, he⟩ := hs i
      rw [hi] at he
      obtain ⟨_, _, _, _, h', mv⟩ := Mutex.step_move (inv_unlocking (Mutex.exec_inv hx)) he
      have := Mutex.move_remaining mv
      exact ih (i + 1) _ _ _ _ _ h' (hx.move mv) (by omega)
  exact down _ 0 _ _ _ _ _ (h0.trans (Mutex.program_eq ..)) .init (Nat.le_refl _)

/-- C81: an Unlock of a mutex that is not locked is fatal, whatever the program does afterwards. -/
theorem C81_unlock_free (v : V) (mutex : Mutex) (k : Proc V (Mutex.Event V)) {tr : List (Mutex.Event V)}
    {s : Config V (Mutex.Event V)} (h : Run (start (fun _ => v) (mutex.unlock k)) tr s) :
    tr = [] ∧ (s = start (fun _ => v) (mutex.unlock k) ∨ s.crashed = true) := by
  induction h with
  | nil => exact ⟨rfl, .inl rfl⟩
  | step r h ih =>
    obtain ⟨rfl, rfl | hc⟩ := ih
    · have one : ∀ {i : Nat} {q : Proc V (Mutex.Event V)},
          (start (fun _ => v) (mutex.unlock k)).procs[i]? = some q → q = mutex.unlock k := by
        intro i q hq
        match i with
        | 0 => simpa [start] using hq.symm
        | i + 1 => simp [start] at hq
      cases h with
      | unlockFree hc h hl => exact ⟨rfl, .inr rfl⟩
      | unlock hc h hl => cases hl
      | sendBuf hc h | sendClosed hc h | meet hc h | meetPoll hc h =>
        rcases h with h | h <;> cases one h
      | _ hc h => cases one h
    · exfalso
      cases h <;> simp_all

example : ∃ s, Run (start (fun _ => 0) (Mutex.unlock (new 0 0) .done)) ([] : List (Mutex.Event Nat)) s ∧
    s.crashed = true :=
  ⟨_, Run.one (.unlockFree (i := 0) rfl rfl rfl), rfl⟩

/-- C103 fails: two goroutines that use a mutex and a copy of it (`b := a`), which share the value, can be in
their critical sections at the same time; an update is lost then.  This happens for every two updates and every
value. -/
theorem C103_copy_fails (v : V) (g g' : V → V) :
    ∃ s, Run (start (fun _ => v) (goAll [client (new 0 0) 0 [(false, [g])], client (copy (new 0 0) 1) 1 [(false, [g'])]] .done))
      [.entered 0 [g], .entered 1 [g'], .left 0, .left 1] s ∧
      oneAtATime (none, v) [.entered 0 [g], .entered 1 [g'], .left 0, .left 1] = none ∧ s.vars 0 = g' v := by
  have r1 := Run.nil (start (fun _ => v) (goAll [client (new 0 0) 0 [(false, [g])], client (copy (new 0 0) 1) 1 [(false, [g'])]] .done))
  have r2 := (r1.step (.go (i := 0) rfl rfl)).step (.go (i := 0) rfl rfl)
  have r3 := (r2.step (.lock (i := 1) rfl rfl rfl)).step (.lock (i := 2) rfl rfl rfl)
  have r4 := (r3.step (.emit (i := 1) rfl rfl)).step (.emit (i := 2) rfl rfl)
  have r5 := (r4.step (.load (i := 1) rfl rfl)).step (.load (i := 2) rfl rfl)
  have r6 := (r5.step (.store (i := 1) rfl rfl)).step (.store (i := 2) rfl rfl)
  have r7 := (r6.step (.emit (i := 1) rfl rfl)).step (.emit (i := 2) rfl rfl)
  exact ⟨_, r7, rfl, rfl⟩

-- an execution with two sections; the updates are not lost
example : ∃ s, Run (Mutex.program 1 [[(false, [(· + 1), (· * 2)])], [(true, [(· + 10)])]])
    [.entered 1 [(· + 10)], .left 1, .entered 0 [(· + 1), (· * 2)], .left 0] s ∧ s.vars 0 = 24 := by
  have h0 : Mutex.Exec 1 [[(false, [(· + 1), (· * 2)])], [(true, [(· + 10)])]] [] []
      [.idle [(false, [(· + 1), (· * 2)])], .idle [(true, [(· + 10)])]] false 1 :=
    (Mutex.Exec.init.move .start).move .start
  have h1 := ((h0.move (.tryLock (j := 1) rfl)).move (.enter (j := 1) rfl)).move (.load (j := 1) rfl)
  have h2 := ((h1.move (.store (j := 1) rfl)).move (.leave (j := 1) rfl)).move (.unlock (j := 1) rfl)
  have h3 := ((h2.move (.lock (j := 0) rfl)).move (.enter (j := 0) rfl)).move (.load (j := 0) rfl)
  have h4 := ((h3.move (.store (j := 0) rfl)).move (.load (j := 0) rfl)).move (.store (j := 0) rfl)
  have h5 := (h4.move (.leave (j := 0) rfl)).move (.unlock (j := 0) rfl)
  exact ⟨_, Mutex.exec_run h5, rfl⟩
end Gost
