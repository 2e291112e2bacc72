import Verif.Go
/-
Goroutines, channels and mutexes.  Everything in this file is the semantics of the Go language and of package
sync, that is, a contract of the trusted base; thread.go, gokio/gokio.go and sync.go are modelled on top of it
in Model/Thread.lean.

A goroutine is a tree of instructions (`Proc`); a configuration holds all goroutines, channels, mutexes and
shared variables; `Step` says what may happen next.  Nothing is assumed about scheduling.
-/
namespace Gost.Conc

/-- A goroutine: the instructions still to execute.  `V` are the values sent on channels and stored in
variables, `E` the observable events. -/
inductive Proc (V E : Type) : Type where
  /-- finished -/
  | done
  /-- an observable event, such as the return of a call -/
  | emit (e : E) (k : Proc V E)
  /-- an internal step -/
  | tau (k : Proc V E)
  /-- `go p` -/
  | go (p k : Proc V E)
  /-- `make(chan T, cap)` -/
  | make (cap : Nat) (k : Nat → Proc V E)
  /-- `c <- v` -/
  | send (c : Nat) (v : V) (k : Proc V E)
  /-- waiting in `c <- v` -/
  | parked (c : Nat) (v : V) (k : Proc V E)
  /-- `<-c`; `none` is passed on if the channel is closed and drained -/
  | recv (c : Nat) (k : Option V → Proc V E)
  /-- `select { case x := <-c: ...; default: ... }`; `none` is the default case -/
  | poll (c : Nat) (k : Option (Option V) → Proc V E)
  /-- `close(c)` -/
  | close (c : Nat) (k : Proc V E)
  /-- `sync.Mutex`: Lock, TryLock, Unlock -/
  | lock (m : Nat) (k : Proc V E)
  | tryLock (m : Nat) (k : Bool → Proc V E)
  | unlock (m : Nat) (k : Proc V E)
  /-- read and write of a shared variable -/
  | load (a : Nat) (k : V → Proc V E)
  | store (a : Nat) (v : V) (k : Proc V E)

/-- A channel. -/
structure Chan (V : Type) where
  cap : Nat
  buf : List V
  closed : Bool

/-- All goroutines and what they share.  `crashed`: the program has died of a panic. -/
structure Config (V E : Type) where
  procs : List (Proc V E)
  chans : List (Chan V)
  locks : Nat → Bool
  vars : Nat → V
  crashed : Bool

variable {V E : Type}

/-- Change of a function at one place. -/
def upd {β : Type} (f : Nat → β) (a : Nat) (b : β) : Nat → β := fun x => if x = a then b else f x

namespace Config
/-- Goroutine `i` goes on with `p`. -/
def to (s : Config V E) (i : Nat) (p : Proc V E) : Config V E := { s with procs := s.procs.set i p }
end Config

/-- Goroutine `i` is about to send `v` on `c`, or already waits to do so. -/
inductive SendsAt (s : Config V E) (i c : Nat) (v : V) (k : Proc V E) : Prop
  | fresh (h : s.procs[i]? = some (.send c v k))
  | waiting (h : s.procs[i]? = some (.parked c v k))

/-- What may happen next. -/
inductive Step : Config V E → Option E → Config V E → Prop
  | emit {s : Config V E} {i e k} (hc : s.crashed = false) (h : s.procs[i]? = some (.emit e k)) : Step s (some e) (s.to i k)
  | tau {s : Config V E} {i k} (hc : s.crashed = false) (h : s.procs[i]? = some (.tau k)) : Step s none (s.to i k)
  | go {s : Config V E} {i p k} (hc : s.crashed = false) (h : s.procs[i]? = some (.go p k)) :
      Step s none { s with procs := s.procs.set i k ++ [p] }
  | make {s : Config V E} {i cap k} (hc : s.crashed = false) (h : s.procs[i]? = some (.make cap k)) :
      Step s none { s.to i (k s.chans.length) with chans := s.chans ++ [⟨cap, [], false⟩] }
  /-- a sender finds nobody and waits -/
  | park {s : Config V E} {i c v k} {ch : Chan V} (hc : s.crashed = false) (h : s.procs[i]? = some (.send c v k))
      (hch : s.chans[c]? = some ch) (hcl : ch.closed = false) : Step s none (s.to i (.parked c v k))
  /-- there is room in the buffer -/
  | sendBuf {s : Config V E} {i c v k} {ch : Chan V} (hc : s.crashed = false) (h : SendsAt s i c v k)
      (hch : s.chans[c]? = some ch) (hcl : ch.closed = false) (hb : ch.buf.length < ch.cap) :
      Step s none { s.to i k with chans := s.chans.set c { ch with buf := ch.buf ++ [v] } }
  | sendClosed {s : Config V E} {i c v k} {ch : Chan V} (hc : s.crashed = false) (h : SendsAt s i c v k)
      (hch : s.chans[c]? = some ch) (hcl : ch.closed = true) : Step s none { s with crashed := true }
  /-- a sender and a receiver meet -/
  | meet {s : Config V E} {i j c v k r} {ch : Chan V} (hc : s.crashed = false) (h : SendsAt s i c v k)
      (hj : s.procs[j]? = some (.recv c r)) (hch : s.chans[c]? = some ch) (hcl : ch.closed = false)
      (hb : ch.buf = []) : Step s none ((s.to i k).to j (r (some v)))
  | meetPoll {s : Config V E} {i j c v k r} {ch : Chan V} (hc : s.crashed = false) (h : SendsAt s i c v k)
      (hj : s.procs[j]? = some (.poll c r)) (hch : s.chans[c]? = some ch) (hcl : ch.closed = false)
      (hb : ch.buf = []) : Step s none ((s.to i k).to j (r (some (some v))))
  | recvBuf {s : Config V E} {j c r v b} {ch : Chan V} (hc : s.crashed = false) (hj : s.procs[j]? = some (.recv c r))
      (hch : s.chans[c]? = some ch) (hb : ch.buf = v :: b) :
      Step s none { s.to j (r (some v)) with chans := s.chans.set c { ch with buf := b } }
  | pollBuf {s : Config V E} {j c r v b} {ch : Chan V} (hc : s.crashed = false) (hj : s.procs[j]? = some (.poll c r))
      (hch : s.chans[c]? = some ch) (hb : ch.buf = v :: b) :
      Step s none { s.to j (r (some (some v))) with chans := s.chans.set c { ch with buf := b } }
  | recvClosed {s : Config V E} {j c r} {ch : Chan V} (hc : s.crashed = false) (hj : s.procs[j]? = some (.recv c r))
      (hch : s.chans[c]? = some ch) (hcl : ch.closed = true) (hb : ch.buf = []) : Step s none (s.to j (r none))
  | pollClosed {s : Config V E} {j c r} {ch : Chan V} (hc : s.crashed = false) (hj : s.procs[j]? = some (.poll c r))
      (hch : s.chans[c]? = some ch) (hcl : ch.closed = true) (hb : ch.buf = []) :
      Step s none (s.to j (r (some none)))
  /-- the default case: nothing in the buffer, not closed and no sender waits -/
  | pollDefault {s : Config V E} {j c r} {ch : Chan V} (hc : s.crashed = false) (hj : s.procs[j]? = some (.poll c r))
      (hch : s.chans[c]? = some ch) (hcl : ch.closed = false) (hb : ch.buf = [])
      (hn : ∀ (i : Nat) (v : V) (k : Proc V E), s.procs[i]? ≠ some (.parked c v k)) : Step s none (s.to j (r none))
  | close {s : Config V E} {i c k} {ch : Chan V} (hc : s.crashed = false) (h : s.procs[i]? = some (.close c k))
      (hch : s.chans[c]? = some ch) (hcl : ch.closed = false) :
      Step s none { s.to i k with chans := s.chans.set c { ch with closed := true } }
  | closeClosed {s : Config V E} {i c : Nat} {k : Proc V E} {ch : Chan V} (hc : s.crashed = false) (h : s.procs[i]? = some (.close c k))
      (hch : s.chans[c]? = some ch) (hcl : ch.closed = true) : Step s none { s with crashed := true }
  | lock {s : Config V E} {i m k} (hc : s.crashed = false) (h : s.procs[i]? = some (.lock m k)) (hl : s.locks m = false) :
      Step s none { s.to i k with locks := upd s.locks m true }
  | tryLock {s : Config V E} {i m k} (hc : s.crashed = false) (h : s.procs[i]? = some (.tryLock m k)) (hl : s.locks m = false) :
      Step s none { s.to i (k true) with locks := upd s.locks m true }
  /-- TryLock fails on a locked mutex; it may also fail on a free one that others compete for -/
  | tryLockFails {s : Config V E} {i m : Nat} {k : Bool → Proc V E} (hc : s.crashed = false)
      (h : s.procs[i]? = some (.tryLock m k))
      (hl : s.locks m = true ∨ ∃ j, j ≠ i ∧ ((∃ k', s.procs[j]? = some (.lock m k')) ∨
        ∃ k', s.procs[j]? = some (.tryLock m k'))) : Step s none (s.to i (k false))
  | unlock {s : Config V E} {i m k} (hc : s.crashed = false) (h : s.procs[i]? = some (.unlock m k)) (hl : s.locks m = true) :
      Step s none { s.to i k with locks := upd s.locks m false }
  | unlockFree {s : Config V E} {i m : Nat} {k : Proc V E} (hc : s.crashed = false) (h : s.procs[i]? = some (.unlock m k)) (hl : s.locks m = false) :
      Step s none { s with crashed := true }
  | load {s : Config V E} {i a k} (hc : s.crashed = false) (h : s.procs[i]? = some (.load a k)) : Step s none (s.to i (k (s.vars a)))
  | store {s : Config V E} {i a v k} (hc : s.crashed = false) (h : s.procs[i]? = some (.store a v k)) :
      Step s none { s.to i k with vars := upd s.vars a v }

/-- An execution with the events it shows. -/
inductive Run : Config V E → List E → Config V E → Prop
  | nil (s : Config V E) : Run s [] s
  | step {s t u : Config V E} {tr : List E} {e : Option E} (r : Run s tr t) (h : Step t e u) :
      Run s (tr ++ e.toList) u

/-- A program that has just started: one goroutine, nothing shared. -/
def start (vars : Nat → V) (p : Proc V E) : Config V E := ⟨[p], [], fun _ => false, vars, false⟩

/-- `go p` for each of the goroutines `ps`. -/
def goAll (ps : List (Proc V E)) (k : Proc V E) : Proc V E := ps.foldr .go k

theorem Run.trans {s t u : Config V E} {a b : List E} (h1 : Run s a t) (h2 : Run t b u) : Run s (a ++ b) u := by
  induction h2 with
  | nil => rw [List.append_nil]; exact h1
  | step _ h ih => rw [← List.append_assoc]; exact ih.step h

theorem Run.one {s t : Config V E} {e : Option E} (h : Step s e t) : Run s e.toList t :=
  (Run.nil s).step h
end Gost.Conc
