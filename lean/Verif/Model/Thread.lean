import Verif.Model.Conc
/-
Model of /repo/thread.go (Spawn, Join, IsFinished), /repo/gokio/gokio.go and /repo/sync.go on the semantics of
Model/Conc.lean.  Functions that may block are in continuation-passing style: `k` is what the caller does with
the result.
-/
namespace Gost
open Conc
variable {V E : Type}

namespace Thread
/-- thread.go:24-26 JoinHandle. -/
structure JoinHandle where
  channel : Nat

/-- thread.go:29-33 Join; its result is always Ok(Unit{}). -/
def join (self : JoinHandle) (k : Proc V E) : Proc V E := .recv self.channel fun _ => k
/-- thread.go:36-43 IsFinished. -/
def isFinished (self : JoinHandle) (k : Bool → Proc V E) : Proc V E :=
  .poll self.channel fun r => k r.isSome
/-- thread.go:46-57 Spawn; `f` is the function, with what comes after it as argument, `unit` the value
`Unit{}`. -/
def spawn (unit : V) (f : Proc V E → Proc V E) (k : JoinHandle → Proc V E) : Proc V E :=
  .make 0 fun channel => .go (f (.send channel unit .done)) (k ⟨channel⟩)
end Thread

namespace Gokio
/-- gokio/gokio.go:5-7 gokioFuture. -/
structure Future where
  ch : Nat

/-- gokio/gokio.go:9-11 Await; a closed channel gives the zero value. -/
def await (zero : V) (self : Future) (k : V → Proc V E) : Proc V E :=
  .recv self.ch fun r => k (r.getD zero)
/-- gokio/gokio.go:13-24 Spawn; `f` passes its result on; the deferred close comes after the send. -/
def spawn (f : (V → Proc V E) → Proc V E) (k : Future → Proc V E) : Proc V E :=
  .make 0 fun ch => .go (f fun v => .send ch v (.close ch .done)) (k ⟨ch⟩)
end Gokio

/-- sync.go:11-14 Mutex: the variable `value` points to, and the `sync.Mutex` (by its address). -/
structure Mutex where
  value : Nat
  lock : Nat
  deriving DecidableEq

namespace Mutex
/-- sync.go:16-21 MutexNew; `value` is the address of the new variable, `lock` that of the struct's mutex. -/
def new (value lock : Nat) : Mutex := ⟨value, lock⟩
/-- Assignment of the struct (`b := a`): the pointer is copied, the mutex becomes another one. -/
def copy (self : Mutex) (lock : Nat) : Mutex := ⟨self.value, lock⟩
/-- sync.go:28-31 Lock. -/
def lock_ (self : Mutex) (k : Nat → Proc V E) : Proc V E := .lock self.lock (k self.value)
/-- sync.go:39-41 Unlock. -/
def unlock (self : Mutex) (k : Proc V E) : Proc V E := .unlock self.lock k
/-- sync.go:59-65 TryLock; `none` is Err(TryLockError{}), whose Error (sync.go:46-48) is a constant. -/
def tryLock (self : Mutex) (k : Option Nat → Proc V E) : Proc V E :=
  .tryLock self.lock fun ok => if ok then k (some self.value) else k none
end Mutex
end Gost
