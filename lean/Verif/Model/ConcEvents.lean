import Verif.Model.Conc
/-
The memory model of Go (https://go.dev/ref/mem) on the semantics of Model/Conc.lean: which action of which goroutine a
step is, which actions are synchronized before which, and what a data race is.  Like Model/Conc.lean this is a
contract of the trusted base.

Simplification: a send into a buffer and a receive from it are not taken to synchronize (in Go they do).  Package gost
makes no buffered channels, and with fewer synchronizations more programs have races, so no theorem that says that
there are none becomes weaker.
-/
namespace Gost.Conc
variable {V E : Type}

/-- What goroutine `i` does: something that synchronizes with no other goroutine; start goroutine `j`; hand over a
value to goroutine `j`, which waits for it, on channel `c`; close channel `c`; learn that channel `c` is closed; Lock or Unlock of the
`sync.Mutex` `m`; read and write of a shared variable. -/
inductive Act where
  | step (i : Nat)
  | go (i j : Nat)
  | meet (i j c : Nat)
  | close (i c : Nat)
  | closed (i c : Nat)
  | lock (i m : Nat)
  | unlock (i m : Nat)
  | load (i a : Nat)
  | store (i a : Nat)
  deriving DecidableEq

/-- The goroutines that take part in an action.  A goroutine takes part in being started; a channel without buffer makes the sender
wait for the receiver and the receiver for the sender. -/
def Act.actors : Act → List Nat
  | .step i => [i]
  | .go i j => [i, j]
  | .meet i j _ => [i, j]
  | .close i _ => [i]
  | .closed i _ => [i]
  | .lock i _ => [i]
  | .unlock i _ => [i]
  | .load i _ => [i]
  | .store i _ => [i]

/-- The steps of Model/Conc.lean (`Step`) with the action each of them is. -/
inductive Does : Config V E → Act → Config V E → Prop
  | emit {s : Config V E} {i e k} (hc : s.crashed = false) (h : s.procs[i]? = some (.emit e k)) : Does s (.step i) (s.to i k)
  | tau {s : Config V E} {i k} (hc : s.crashed = false) (h : s.procs[i]? = some (.tau k)) : Does s (.step i) (s.to i k)
  | go {s : Config V E} {i p k} (hc : s.crashed = false) (h : s.procs[i]? = some (.go p k)) :
      Does s (.go i s.procs.length) { s with procs := s.procs.set i k ++ [p] }
  | make {s : Config V E} {i cap k} (hc : s.crashed = false) (h : s.procs[i]? = some (.make cap k)) :
      Does s (.step i) { s.to i (k s.chans.length) with chans := s.chans ++ [⟨cap, [], false⟩] }
  | park {s : Config V E} {i c v k} {ch : Chan V} (hc : s.crashed = false) (h : s.procs[i]? = some (.send c v k))
      (hch : s.chans[c]? = some ch) (hcl : ch.closed = false) : Does s (.step i) (s.to i (.parked c v k))
  | sendBuf {s : Config V E} {i c v k} {ch : Chan V} (hc : s.crashed = false) (h : SendsAt s i c v k)
      (hch : s.chans[c]? = some ch) (hcl : ch.closed = false) (hb : ch.buf.length < ch.cap) :
      Does s (.step i) { s.to i k with chans := s.chans.set c { ch with buf := ch.buf ++ [v] } }
  | sendClosed {s : Config V E} {i c v k} {ch : Chan V} (hc : s.crashed = false) (h : SendsAt s i c v k)
      (hch : s.chans[c]? = some ch) (hcl : ch.closed = true) : Does s (.step i) { s with crashed := true }
  | meet {s : Config V E} {i j c v k r} {ch : Chan V} (hc : s.crashed = false) (h : SendsAt s i c v k)
      (hj : s.procs[j]? = some (.recv c r)) (hch : s.chans[c]? = some ch) (hcl : ch.closed = false)
      (hb : ch.buf = []) : Does s (.meet i j c) ((s.to i k).to j (r (some v)))
  | meetPoll {s : Config V E} {i j c v k r} {ch : Chan V} (hc : s.crashed = false) (h : SendsAt s i c v k)
      (hj : s.procs[j]? = some (.poll c r)) (hch : s.chans[c]? = some ch) (hcl : ch.closed = false)
      (hb : ch.buf = []) : Does s (.meet i j c) ((s.to i k).to j (r (some (some v))))
  | recvBuf {s : Config V E} {j c r v b} {ch : Chan V} (hc : s.crashed = false) (hj : s.procs[j]? = some (.recv c r))
      (hch : s.chans[c]? = some ch) (hb : ch.buf = v :: b) :
      Does s (.step j) { s.to j (r (some v)) with chans := s.chans.set c { ch with buf := b } }
  | pollBuf {s : Config V E} {j c r v b} {ch : Chan V} (hc : s.crashed = false) (hj : s.procs[j]? = some (.poll c r))
      (hch : s.chans[c]? = some ch) (hb : ch.buf = v :: b) :
      Does s (.step j) { s.to j (r (some (some v))) with chans := s.chans.set c { ch with buf := b } }
  | recvClosed {s : Config V E} {j c r} {ch : Chan V} (hc : s.crashed = false) (hj : s.procs[j]? = some (.recv c r))
      (hch : s.chans[c]? = some ch) (hcl : ch.closed = true) (hb : ch.buf = []) : Does s (.closed j c) (s.to j (r none))
  | pollClosed {s : Config V E} {j c r} {ch : Chan V} (hc : s.crashed = false) (hj : s.procs[j]? = some (.poll c r))
      (hch : s.chans[c]? = some ch) (hcl : ch.closed = true) (hb : ch.buf = []) :
      Does s (.closed j c) (s.to j (r (some none)))
  | pollDefault {s : Config V E} {j c r} {ch : Chan V} (hc : s.crashed = false) (hj : s.procs[j]? = some (.poll c r))
      (hch : s.chans[c]? = some ch) (hcl : ch.closed = false) (hb : ch.buf = [])
      (hn : ∀ (i : Nat) (v : V) (k : Proc V E), s.procs[i]? ≠ some (.parked c v k)) : Does s (.step j) (s.to j (r none))
  | close {s : Config V E} {i c k} {ch : Chan V} (hc : s.crashed = false) (h : s.procs[i]? = some (.close c k))
      (hch : s.chans[c]? = some ch) (hcl : ch.closed = false) :
      Does s (.close i c) { s.to i k with chans := s.chans.set c { ch with closed := true } }
  | closeClosed {s : Config V E} {i c : Nat} {k : Proc V E} {ch : Chan V} (hc : s.crashed = false) (h : s.procs[i]? = some (.close c k))
      (hch : s.chans[c]? = some ch) (hcl : ch.closed = true) : Does s (.step i) { s with crashed := true }
  | lock {s : Config V E} {i m k} (hc : s.crashed = false) (h : s.procs[i]? = some (.lock m k)) (hl : s.locks m = false) :
      Does s (.lock i m) { s.to i k with locks := upd s.locks m true }
  | tryLock {s : Config V E} {i m k} (hc : s.crashed = false) (h : s.procs[i]? = some (.tryLock m k)) (hl : s.locks m = false) :
      Does s (.lock i m) { s.to i (k true) with locks := upd s.locks m true }
  | tryLockFails {s : Config V E} {i m : Nat} {k : Bool → Proc V E} (hc : s.crashed = false)
      (h : s.procs[i]? = some (.tryLock m k))
      (hl : s.locks m = true ∨ ∃ j, j ≠ i ∧ ((∃ k', s.procs[j]? = some (.lock m k')) ∨
        ∃ k', s.procs[j]? = some (.tryLock m k'))) : Does s (.step i) (s.to i (k false))
  | unlock {s : Config V E} {i m k} (hc : s.crashed = false) (h : s.procs[i]? = some (.unlock m k)) (hl : s.locks m = true) :
      Does s (.unlock i m) { s.to i k with locks := upd s.locks m false }
  | unlockFree {s : Config V E} {i m : Nat} {k : Proc V E} (hc : s.crashed = false) (h : s.procs[i]? = some (.unlock m k)) (hl : s.locks m = false) :
      Does s (.step i) { s with crashed := true }
  | load {s : Config V E} {i a k} (hc : s.crashed = false) (h : s.procs[i]? = some (.load a k)) :
      Does s (.load i a) (s.to i (k (s.vars a)))
  | store {s : Config V E} {i a v k} (hc : s.crashed = false) (h : s.procs[i]? = some (.store a v k)) :
      Does s (.store i a) { s.to i k with vars := upd s.vars a v }

/-- The steps with actions are the steps. -/
theorem does_iff {s t : Config V E} : (∃ e, Step s e t) ↔ ∃ a, Does s a t := by
  constructor
  · rintro ⟨e, h⟩
    cases h with
    | emit hc h => exact ⟨_, .emit hc h⟩
    | tau hc h => exact ⟨_, .tau hc h⟩
    | go hc h => exact ⟨_, .go hc h⟩
    | make hc h => exact ⟨_, .make hc h⟩
    | park hc h a b => exact ⟨_, .park hc h a b⟩
    | sendBuf hc h a b c => exact ⟨_, .sendBuf hc h a b c⟩
    | sendClosed hc h a b => exact ⟨_, .sendClosed hc h a b⟩
    | meet hc h a b c d => exact ⟨_, .meet hc h a b c d⟩
    | meetPoll hc h a b c d => exact ⟨_, .meetPoll hc h a b c d⟩
    | recvBuf hc h a b => exact ⟨_, .recvBuf hc h a b⟩
    | pollBuf hc h a b => exact ⟨_, .pollBuf hc h a b⟩
    | recvClosed hc h a b c => exact ⟨_, .recvClosed hc h a b c⟩
    | pollClosed hc h a b c => exact ⟨_, .pollClosed hc h a b c⟩
    | pollDefault hc h a b c d => exact ⟨_, .pollDefault hc h a b c d⟩
    | close hc h a b => exact ⟨_, .close hc h a b⟩
    | closeClosed hc h a b => exact ⟨_, .closeClosed hc h a b⟩
    | lock hc h a => exact ⟨_, .lock hc h a⟩
    | tryLock hc h a => exact ⟨_, .tryLock hc h a⟩
    | tryLockFails hc h a => exact ⟨_, .tryLockFails hc h a⟩
    | unlock hc h a => exact ⟨_, .unlock hc h a⟩
    | unlockFree hc h a => exact ⟨_, .unlockFree hc h a⟩
    | load hc h => exact ⟨_, .load hc h⟩
    | store hc h => exact ⟨_, .store hc h⟩
  · rintro ⟨a, h⟩
    cases h with
    | emit hc h => exact ⟨_, .emit hc h⟩
    | tau hc h => exact ⟨_, .tau hc h⟩
    | go hc h => exact ⟨_, .go hc h⟩
    | make hc h => exact ⟨_, .make hc h⟩
    | park hc h a b => exact ⟨_, .park hc h a b⟩
    | sendBuf hc h a b c => exact ⟨_, .sendBuf hc h a b c⟩
    | sendClosed hc h a b => exact ⟨_, .sendClosed hc h a b⟩
    | meet hc h a b c d => exact ⟨_, .meet hc h a b c d⟩
    | meetPoll hc h a b c d => exact ⟨_, .meetPoll hc h a b c d⟩
    | recvBuf hc h a b => exact ⟨_, .recvBuf hc h a b⟩
    | pollBuf hc h a b => exact ⟨_, .pollBuf hc h a b⟩
    | recvClosed hc h a b c => exact ⟨_, .recvClosed hc h a b c⟩
    | pollClosed hc h a b c => exact ⟨_, .pollClosed hc h a b c⟩
    | pollDefault hc h a b c d => exact ⟨_, .pollDefault hc h a b c d⟩
    | close hc h a b => exact ⟨_, .close hc h a b⟩
    | closeClosed hc h a b => exact ⟨_, .closeClosed hc h a b⟩
    | lock hc h a => exact ⟨_, .lock hc h a⟩
    | tryLock hc h a => exact ⟨_, .tryLock hc h a⟩
    | tryLockFails hc h a => exact ⟨_, .tryLockFails hc h a⟩
    | unlock hc h a => exact ⟨_, .unlock hc h a⟩
    | unlockFree hc h a => exact ⟨_, .unlockFree hc h a⟩
    | load hc h => exact ⟨_, .load hc h⟩
    | store hc h => exact ⟨_, .store hc h⟩

/-- An execution with all its actions. -/
inductive Exec : Config V E → List Act → Config V E → Prop
  | nil (s : Config V E) : Exec s [] s
  | step {s t u : Config V E} {as : List Act} {a : Act} (r : Exec s as t) (h : Does t a u) : Exec s (as ++ [a]) u

/-- Every execution has its actions. -/
theorem Run.exec {s t : Config V E} {tr : List E} (h : Run s tr t) : ∃ as, Exec s as t := by
  induction h with
  | nil => exact ⟨[], .nil _⟩
  | step _ h ih =>
    obtain ⟨as, ih⟩ := ih
    obtain ⟨a, h⟩ := does_iff.1 ⟨_, h⟩
    exact ⟨_, ih.step h⟩

theorem Exec.run {s t : Config V E} {as : List Act} (h : Exec s as t) : ∃ tr, Run s tr t := by
  induction h with
  | nil => exact ⟨[], .nil _⟩
  | step _ h ih =>
    obtain ⟨tr, ih⟩ := ih
    obtain ⟨e, h⟩ := does_iff.2 ⟨_, h⟩
    exact ⟨_, ih.step h⟩

/-- The action at place `p` of the execution happens before that at place `q`: a goroutine takes part in both, one after the other; the
first is an Unlock and the second a later Lock of the same `sync.Mutex`; the first closes a channel and the second finds it closed; or there is
a chain of these. -/
inductive HB (as : List Act) : Nat → Nat → Prop
  | order {p q i : Nat} {a b : Act} (hpq : p < q) (hp : as[p]? = some a) (hq : as[q]? = some b) (ha : i ∈ a.actors) (hb : i ∈ b.actors) :
      HB as p q
  | mutex {p q i j m : Nat} (hpq : p < q) (hp : as[p]? = some (.unlock i m)) (hq : as[q]? = some (.lock j m)) : HB as p q
  | closed {p q i j c : Nat} (hpq : p < q) (hp : as[p]? = some (.close i c)) (hq : as[q]? = some (.closed j c)) : HB as p q
  | trans {p q r : Nat} (h1 : HB as p q) (h2 : HB as q r) : HB as p r

/-- The variable an action reads or writes, and whether it writes it. -/
def Act.access : Act → Option (Nat × Bool)
  | .load _ a => some (a, false)
  | .store _ a => some (a, true)
  | _ => none

/-- The actions at `p` and `q` access the same variable, and one of them writes it. -/
def Conflict (as : List Act) (p q : Nat) : Prop :=
  ∃ (x y : Act) (a : Nat) (v w : Bool), as[p]? = some x ∧ as[q]? = some y ∧ x.access = some (a, v) ∧ y.access = some (a, w) ∧ (v = true ∨ w = true)

/-- A data race: accesses in conflict, none of which happens before the other. -/
def Race (as : List Act) : Prop := ∃ p q, p < q ∧ Conflict as p q ∧ ¬ HB as p q ∧ ¬ HB as q p
end Gost.Conc
