import Verif.Model.Fs
/-
Programs that use the functions of /repo/fs.go (or of /repo/gokio/fs.go, whose functions run them on goroutines) at the same
time.  The functions are taken apart into their system calls; a system call is atomic, between two of them anything
may happen, and any of them may fail.  A program makes one call after another and chooses the next one by what the
calls before have returned.
-/
namespace Gost.Fs
open Os

/-- A call of one of the functions. -/
inductive Call where
  /-- fs.go:9 CreateDir -/
  | createDir (path : Path)
  /-- fs.go:20 RemoveDir -/
  | removeDir (path : Path)
  /-- fs.go:31 Write -/
  | write (path : Path) (data : List UInt8)
  /-- fs.go:56 RemoveFile -/
  | removeFile (path : Path)
  /-- fs.go:68 Rename -/
  | rename (frm to : Path)
  /-- fs.go:79 Read and 179 ReadToString -/
  | read (path : Path)
  /-- fs.go:134 ReadDir -/
  | readDir (path : Path)
  /-- fs.go:168 Copy -/
  | copy (frm to : Path)
  deriving DecidableEq, Repr

/-- What a call returns. -/
inductive Outcome where
  | unit (r : Res Errno Unit)
  | data (r : Res Errno (List UInt8))
  /-- what os.ReadDir gives ReadDir (fs.go:135); the rest of ReadDir (fs.go:137-163) makes no system calls and depends on
  this and the path only, see `Fs.readDir` -/
  | list (r : Res Errno (List Os.DirEntry))
  deriving DecidableEq, Repr

/-- Where a program is in the call it makes. -/
inductive Task where
  /-- no call -/
  | idle
  /-- before the first system call -/
  | start (c : Call)
  /-- Write after os.Create (fs.go:32-38); `off` bytes have been written -/
  | writing (file off : Nat) (data : List UInt8)
  /-- os.Remove (fs.go:21, 57) after unlink(2) failed with `e` -/
  | rmdir (path : Path) (e : Errno)
  /-- os.Rename (fs.go:69) after Lstat has found a directory `j` at the new name -/
  | onto (frm to : Path) (j : Nat)
  /-- os.Rename (fs.go:69) before rename(2) -/
  | moving (frm to : Path)
  /-- Read after os.Open (fs.go:80-86, 180-186) -/
  | opened (file : Nat)
  /-- Read after file.Stat (fs.go:88-94, 188-194) -/
  | sized (file size : Nat)
  /-- ReadDir after the open(2) of os.ReadDir (fs.go:135) -/
  | listing (dir : Nat)
  | done (o : Outcome)
  deriving Repr

/-- `.Err(err)` or `.Ok(())` of a system call that changes the file system (fs.go:11-16, 22-27, 58-63, 70-75, 170-175). -/
def Task.settle (fs : FS) : Except Errno FS → Task × FS
  | .error e => (.done (.unit (Res.mkErr (some e))), fs)
  | .ok fs' => (.done (.unit (Res.mkOk ())), fs')

/-- os.Remove, first part (fs.go:21, 57): unlink(2). -/
def Task.unlinkFirst (fault : Option Errno) (fs : FS) (path : Path) : Task × FS :=
  match fault with
  | some e => (.rmdir path e, fs)
  | none =>
    match unlink fs path with
    | .ok fs' => (.done (.unit (Res.mkOk ())), fs')
    | .error e => (.rmdir path e, fs)

/-- fs.go:9-109, 134-203: the next system call, which may fail (`fault`).  One write(2) writes as much as it pleases (`amount`);
File.Write goes on until all is written.  A directory is read in one step (os.ReadDir may need several getdents(2)).  A
finished call does nothing. -/
def Task.next (amount : Nat) (fault : Option Errno) (fs : FS) : Task → Task × FS
  | .idle => (.idle, fs)
  | .done o => (.done o, fs)
  | .start (.createDir path) => Task.settle fs (mkdir fault fs path)
  | .start (.removeDir path) => Task.unlinkFirst fault fs path
  | .start (.removeFile path) => Task.unlinkFirst fault fs path
  | .rmdir path e =>
    match fault with
    | some e' => (.done (.unit (Res.mkErr (some (if e' = .ENOTDIR then e else e')))), fs)
    | none =>
      match Os.rmdir fs path with
      | .ok fs' => (.done (.unit (Res.mkOk ())), fs')
      | .error e' => (.done (.unit (Res.mkErr (some (if e' = .ENOTDIR then e else e')))), fs)
  | .start (.copy frm to) => Task.settle fs (link fault fs frm to)
  | .start (.write path data) =>
    match create fault fs path with
    | .error e => (.done (.unit (Res.mkErr (some e))), fs)
    | .ok (file, fs') => (.writing file 0 data, fs')
  | .writing file off data =>
    match fault with
    | some e => (.done (.unit (Res.mkErr (some e))), fs)
    | none =>
      if data.length ≤ off + ((data.drop off).take amount).length then
        (.done (.unit (Res.mkOk ())), writeAt fs file off ((data.drop off).take amount))
      else (.writing file (off + ((data.drop off).take amount).length) data, writeAt fs file off ((data.drop off).take amount))
  | .start (.rename frm to) =>
    match fault with
    | some _ => (.moving frm to, fs)
    | none =>
      match lstat fs to with
      | .error _ => (.moving frm to, fs)
      | .ok j =>
        match fs.nodes[j]? with
        | some (.dir _ _) => (.onto frm to j, fs)
        | _ => (.moving frm to, fs)
  | .onto frm to j =>
    match fault with
    | some e => (.done (.unit (Res.mkErr (some e))), fs)
    | none =>
      match lstat fs frm with
      | .error e => (.done (.unit (Res.mkErr (some e))), fs)
      | .ok i => if frm = to ∨ i ≠ j then (.done (.unit (Res.mkErr (some .EEXIST))), fs) else (.moving frm to, fs)
  | .moving frm to =>
    match fault with
    | some e => (.done (.unit (Res.mkErr (some e))), fs)
    | none => Task.settle fs (sysRename fs frm to)
  | .start (.read path) =>
    match open_ fault fs path with
    | .error e => (.done (.data (Res.mkErr (some e))), fs)
    | .ok file => (.opened file, fs)
  | .opened file =>
    match fault with
    | some e => (.done (.data (Res.mkErr (some e))), fs)
    | none => (.sized file (Os.size fs file), fs)
  | .sized file n =>
    match fileRead fault fs file n with
    | .error e => (.done (.data (Res.mkErr (some e))), fs)
    | .ok data => (.done (.data (Res.mkOk data)), fs)
  | .start (.readDir path) =>
    match open_ fault fs path with
    | .error e => (.done (.list (Res.mkErr (some e))), fs)
    | .ok dir => (.listing dir, fs)
  | .listing dir =>
    match fault with
    | some e => (.done (.list (Res.mkErr (some e))), fs)
    | none =>
      match fs.nodes[dir]? with
      | some (.dir _ entries) =>
        (.done (.list (Res.mkOk ((entries.mergeSort fun a b => nameLe a.1 b.1).map fun e => ⟨e.1, typeOf fs e.2⟩))), fs)
      | _ => (.done (.list (Res.mkErr (some .ENOTDIR))), fs)

/-- A program: the next call, by what the calls before have returned; no more calls if there is none. -/
abbrev Plan := List Outcome → Option Call

/-- Where a program is: in the call it makes, and what the calls before have returned. -/
structure Prog where
  now : Task
  out : List Outcome

/-- The next call of the plan. -/
def Plan.begin (plan : Plan) (out : List Outcome) : Prog :=
  match plan out with
  | none => ⟨.idle, out⟩
  | some c => ⟨.start c, out⟩

/-- The next system call of a program. -/
def Prog.step (plan : Plan) (amount : Nat) (fault : Option Errno) (s : FS × Prog) : FS × Prog :=
  match s.2.now.next amount fault s.1 with
  | (.done o, fs) => (fs, plan.begin (s.2.out ++ [o]))
  | (t, fs) => (fs, ⟨t, s.2.out⟩)

/-- One program alone; the list says for each of its system calls how much a write writes and whether the call fails. -/
def runAlone (plan : Plan) (s : FS × Prog) (sched : List (Nat × Option Errno)) : FS × Prog :=
  sched.foldl (fun s x => Prog.step plan x.1 x.2 s) s

/-- Programs that run at the same time; the list says who makes the next system call. -/
def runApart {ι : Type} [DecidableEq ι] (plan : ι → Plan) (s : FS × (ι → Prog)) (sched : List (ι × Nat × Option Errno)) :
    FS × (ι → Prog) :=
  sched.foldl (fun s x =>
    ((Prog.step (plan x.1) x.2.1 x.2.2 (s.1, s.2 x.1)).1,
      fun k => if k = x.1 then (Prog.step (plan x.1) x.2.1 x.2.2 (s.1, s.2 x.1)).2 else s.2 k)) s

end Gost.Fs
