import Verif.Model.Thread
/-
Tasks given to Spawn of /repo/thread.go and /repo/gokio/gokio.go that do not return: they panic (and nobody recovers),
or end their goroutine by runtime.Goexit (as t.FailNow of package testing does).
-/
namespace Gost
open Conc
variable {V E : Type}

/-- How a goroutine ends without returning from its function. -/
inductive Exit where
  | panic
  | goexit
  deriving DecidableEq, Repr

/-- What happens after the deferred calls: a panic kills the program (here by an unlock of a mutex that is not locked),
runtime.Goexit ends the goroutine.  (Contract of the language and of package runtime.) -/
def Exit.proc : Exit → Proc V E
  | .panic => .unlock 1 .done
  | .goexit => .done

/-- thread.go:46-57 Spawn of a function that may also end by `exit`; nothing is deferred. -/
def Thread.spawnExit (unit : V) (f : (ret : Proc V E) → (exit : Exit → Proc V E) → Proc V E)
    (k : JoinHandle → Proc V E) : Proc V E :=
  .make 0 fun channel => .go (f (.send channel unit .done) fun x => x.proc) (k ⟨channel⟩)

/-- gokio/gokio.go:13-24 Spawn of a function that may also end by `exit`: the deferred close comes first. -/
def Gokio.spawnExit (f : (ret : V → Proc V E) → (exit : Exit → Proc V E) → Proc V E)
    (k : Future → Proc V E) : Proc V E :=
  .make 0 fun ch => .go (f (fun v => .send ch v (.close ch .done)) fun x => .close ch x.proc) (k ⟨ch⟩)
end Gost
