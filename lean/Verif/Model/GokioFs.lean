import Verif.Model.Thread
import Verif.Model.Fs
/-
Model of /repo/gokio/fs.go: each function spawns the function of /repo/fs.go of the same name (Model/Fs.lean) on a
goroutine (Model/Thread.lean).

The file system is the shared variable 0.  Simplification: a function of fs.go, which makes one to three system
calls, runs as one critical section of mutex 0; what two such functions do to each other when they overlap is left
out (the model says which of them comes first, not how their system calls interleave; for Write and Read that is the
subject of Model/FsConc.lean).
-/
namespace Gost.GokioFs
open Conc Os

/-- What is sent on the channels of the futures (the results of the functions) and what is in variable 0. -/
inductive Val where
  | fs (fs : FS)
  | unit (r : Res Errno Unit)
  | bytes (r : Res Errno (List UInt8))
  | str (r : Res Errno GoStr)
  | entries (r : Res Errno (Vec Fs.DirEntry))
  | zero

variable {E : Type}

/-- A panic outside of the goroutine that would recover: the program dies (here by an unlock of a mutex nobody
locks).  Simplification: the deferred close of the future's channel, which comes first, is left out here (see
Model/TaskExit.lean); of the functions of fs.go only ReadDir of a directory with 2^63 entries panics. -/
def die : Proc Val E := .unlock 1 .done

/-- A call of a function of fs.go: what it makes of the file system, and its result. -/
def call (f : FS → Go (Val × FS)) (k : Val → Proc Val E) : Proc Val E :=
  .lock 0 <| .load 0 fun v =>
    match v with
    | .fs fs =>
      match f fs with
      | .ok (r, fs) => .store 0 (.fs fs) (.unlock 0 (k r))
      | .error _ => die
    | _ => .done

/-- gokio/fs.go:8-12 CreateDir. -/
def createDir (fault : Option Errno) (path : Path) (k : Gokio.Future → Proc Val E) : Proc Val E :=
  Gokio.spawn (call fun fs => let (r, fs) := Fs.createDir fault fs path; .ok (.unit r, fs)) k
/-- gokio/fs.go:15-19 RemoveDir. -/
def removeDir (fault : Option Errno) (path : Path) (k : Gokio.Future → Proc Val E) : Proc Val E :=
  Gokio.spawn (call fun fs => let (r, fs) := Fs.removeDir fault fs path; .ok (.unit r, fs)) k
/-- gokio/fs.go:22-26 Write; the bytes of `data` are those the slice has when the goroutine reads them
(simplification: nobody changes the slice meanwhile). -/
def write (createFault : Option Errno) (writeFault : Option (Nat × Errno)) (path : Path) (data : List UInt8)
    (k : Gokio.Future → Proc Val E) : Proc Val E :=
  Gokio.spawn (call fun fs => let (r, fs) := Fs.write createFault writeFault fs path data; .ok (.unit r, fs)) k
/-- gokio/fs.go:29-33 RemoveFile. -/
def removeFile (fault : Option Errno) (path : Path) (k : Gokio.Future → Proc Val E) : Proc Val E :=
  Gokio.spawn (call fun fs => let (r, fs) := Fs.removeFile fault fs path; .ok (.unit r, fs)) k
/-- gokio/fs.go:37-41 Rename. -/
def rename (fault : Option Errno) (frm to : Path) (k : Gokio.Future → Proc Val E) : Proc Val E :=
  Gokio.spawn (call fun fs => let (r, fs) := Fs.rename fault fs frm to; .ok (.unit r, fs)) k
/-- gokio/fs.go:44-48 Read. -/
def read (openFault readFault : Option Errno) (path : Path) (k : Gokio.Future → Proc Val E) : Proc Val E :=
  Gokio.spawn (call fun fs => .ok (.bytes (Fs.read openFault readFault fs path), fs)) k
/-- gokio/fs.go:51-55 ReadDir. -/
def readDir (g : Growth) (fault : Option Errno) (path : Path) (k : Gokio.Future → Proc Val E) : Proc Val E :=
  Gokio.spawn (call fun fs => do let r ← Fs.readDir g fault fs path; .ok (.entries r, fs)) k
/-- gokio/fs.go:59-63 Copy. -/
def copy (fault : Option Errno) (frm to : Path) (k : Gokio.Future → Proc Val E) : Proc Val E :=
  Gokio.spawn (call fun fs => let (r, fs) := Fs.copy fault fs frm to; .ok (.unit r, fs)) k
/-- gokio/fs.go:66-70 ReadToString. -/
def readToString (openFault readFault : Option Errno) (path : Path) (k : Gokio.Future → Proc Val E) : Proc Val E :=
  Gokio.spawn (call fun fs => .ok (.str (Fs.readToString openFault readFault fs path), fs)) k

end Gost.GokioFs
