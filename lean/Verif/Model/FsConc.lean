import Verif.Model.Fs
/-
Write, Read and ReadToString of /repo/fs.go (and of /repo/gokio/fs.go, whose functions run them on goroutines), running at
the same time.  Here they are taken apart into their system calls; a system call is atomic, between two of them
anything may happen.  No system call fails for reasons of its own (`fault` in Model/Os.lean is `none`).
-/
namespace Gost.Fs
open Os

/-- A call of one of the functions: not begun, under way, or finished with a result. -/
inductive Running where
  /-- fs.go:31 Write -/
  | write (path : Path) (data : List UInt8)
  /-- Write after os.Create (fs.go:32-38); `off` bytes have been written -/
  | writing (file off : Nat) (data : List UInt8)
  | wrote (r : Res Errno Unit)
  /-- fs.go:79 Read and 179 ReadToString -/
  | read (path : Path)
  /-- Read after os.Open (fs.go:80-86, 180-186) -/
  | opened (file : Nat)
  /-- Read after file.Stat (fs.go:88-94, 188-194) -/
  | sized (file size : Nat)
  | got (r : Res Errno (List UInt8))
  deriving Repr

/-- fs.go:31-53 Write, 79-109 Read and 179-203 ReadToString: the next system call.  File.Write asks the kernel for at most
1 GiB at a time and goes on until all is written.  A finished call does nothing. -/
def Running.next (fs : FS) : Running → Running × FS
  | .write path data =>
    match create none fs path with
    | .error e => (.wrote (Res.mkErr (some e)), fs)
    | .ok (file, fs) => (.writing file 0 data, fs)
  | .writing file off data =>
    let chunk := (data.drop off).take maxRW
    let fs := writeAt fs file off chunk
    if data.length ≤ off + chunk.length then (.wrote (Res.mkOk ()), fs) else (.writing file (off + chunk.length) data, fs)
  | .wrote r => (.wrote r, fs)
  | .read path =>
    match open_ none fs path with
    | .error e => (.got (Res.mkErr (some e)), fs)
    | .ok file => (.opened file, fs)
  | .opened file => (.sized file (Os.size fs file), fs)
  | .sized file n =>
    match fileRead none fs file n with
    | .error e => (.got (Res.mkErr (some e)), fs)
    | .ok data => (.got (Res.mkOk data), fs)
  | .got r => (.got r, fs)

/-- Calls that run at the same time: any of them makes its next system call. -/
inductive Interleave : FS × List Running → FS × List Running → Prop
  | refl (s : FS × List Running) : Interleave s s
  | step {s : FS × List Running} {fs : FS} {rs : List Running} {k : Nat} {r : Running} (h : Interleave s (fs, rs))
      (hk : rs[k]? = some r) : Interleave s ((r.next fs).2, rs.set k (r.next fs).1)

/-- The calls numbered in `order` make their next system calls in that order. -/
def schedule (order : List Nat) (s : FS × List Running) : FS × List Running :=
  order.foldl (fun (fs, rs) k =>
    match rs[k]? with
    | none => (fs, rs)
    | some r => ((r.next fs).2, rs.set k (r.next fs).1)) s

end Gost.Fs
