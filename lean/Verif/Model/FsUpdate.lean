import Verif.Model.Fs
/-
Read and ReadToString of a file (/repo/fs.go and /repo/gokio/fs.go) while others replace it by Write to another file and Rename.
The functions are taken apart into their system calls; a system call is atomic, between two of them anything may happen, and any of
them may fail.
-/
namespace Gost.Fs
open Os

/-- A call of Read, or the two calls `Write(tmp, data)` and, if that succeeds, `Rename(tmp, path)`. -/
inductive Job where
  /-- fs.go:79 Read and 179 ReadToString -/
  | read (path : Path)
  /-- Read after os.Open (fs.go:80-86, 180-186) -/
  | opened (file : Nat)
  /-- Read after file.Stat (fs.go:88-94, 188-194) -/
  | sized (file size : Nat)
  | got (r : Res Errno (List UInt8))
  /-- fs.go:31 Write, not begun -/
  | update (tmp path : Path) (data : List UInt8)
  /-- Write after os.Create (fs.go:32-38); `off` bytes have been written -/
  | writing (tmp path : Path) (data : List UInt8) (file off : Nat)
  /-- fs.go:68 Rename, not begun -/
  | written (tmp path : Path)
  /-- os.Rename after Lstat of the new name -/
  | moving (tmp path : Path)
  /-- finished with the result of Write, if that is an error, or of Rename -/
  | updated (r : Res Errno Unit)
  deriving Repr

/-- fs.go:31-53 Write, 68-76 Rename, 79-109 Read, 179-203 ReadToString: the next system call, which may fail (`fault`).  One write(2)
writes as much as it pleases (`amount`); File.Write goes on until all is written.  os.Rename asks Lstat for the new name before
rename(2), and if that is a directory decides by another Lstat, which is taken together with rename(2) here.  A finished call does
nothing. -/
def Job.next (amount : Nat) (fault : Option Errno) (fs : FS) : Job → Job × FS
  | .read path =>
    match open_ fault fs path with
    | .error e => (.got (Res.mkErr (some e)), fs)
    | .ok file => (.opened file, fs)
  | .opened file =>
    match fault with
    | some e => (.got (Res.mkErr (some e)), fs)
    | none => (.sized file (Os.size fs file), fs)
  | .sized file n =>
    match fileRead fault fs file n with
    | .error e => (.got (Res.mkErr (some e)), fs)
    | .ok data => (.got (Res.mkOk data), fs)
  | .got r => (.got r, fs)
  | .update tmp path data =>
    match create fault fs tmp with
    | .error e => (.updated (Res.mkErr (some e)), fs)
    | .ok (file, fs) => (.writing tmp path data file 0, fs)
  | .writing tmp path data file off =>
    match fault with
    | some e => (.updated (Res.mkErr (some e)), fs)
    | none =>
      let chunk := (data.drop off).take amount
      let fs := writeAt fs file off chunk
      if data.length ≤ off + chunk.length then (.written tmp path, fs) else (.writing tmp path data file (off + chunk.length), fs)
  | .written tmp path =>
    match fault, lstat fs path with
    | none, .ok j =>
      match fs.nodes[j]? with
      | some (.dir _ _) => (.updated (Fs.rename none fs tmp path).1, (Fs.rename none fs tmp path).2)
      | _ => (.moving tmp path, fs)
    | _, _ => (.moving tmp path, fs)
  | .moving tmp path =>
    match fault with
    | some e => (.updated (Res.mkErr (some e)), fs)
    | none =>
      match sysRename fs tmp path with
      | .error e => (.updated (Res.mkErr (some e)), fs)
      | .ok fs => (.updated (Res.mkOk ()), fs)
  | .updated r => (.updated r, fs)

/-- Calls that run at the same time: any of them makes its next system call. -/
inductive Jobs : FS × List Job → FS × List Job → Prop
  | refl (s : FS × List Job) : Jobs s s
  | step {s : FS × List Job} {fs : FS} {js : List Job} {k : Nat} {j : Job} (amount : Nat) (fault : Option Errno) (h : Jobs s (fs, js))
      (hk : js[k]? = some j) : Jobs s ((j.next amount fault fs).2, js.set k (j.next amount fault fs).1)
end Gost.Fs
