import Verif.Go
import Verif.Model.Utf8
/-
The file system and the functions of package os that fs.go calls: Mkdir, Remove, Create, File.Write, Rename, Open,
File.Stat, File.Read, ReadDir, Link, and filepath.Join.  Everything in this file is a contract of the trusted base
(POSIX semantics as seen through Go 1.20 on Linux); fs.go itself is modelled in Model/Fs.lean.

Simplifications.  A path is given by its components (splitting at `/` is left out; so are trailing slashes, and
the empty path is the relative path without components).  Permissions, mount points, full disks and other reasons
for which a system call may fail at any time are the argument `fault` of the modelled functions.  No other process
changes the file system.  A working directory that was removed still takes new entries here (Linux answers ENOENT);
theorems in which that matters assume that the working directory can be reached from the root.
-/
namespace Gost.Os

abbrev Name := GoStr

/-- A path: absolute or not, and its components. -/
structure Path where
  abs : Bool
  names : List Name
  deriving DecidableEq, Repr, Inhabited

/-- The errors of the system calls, and `io.EOF`. -/
inductive Errno where
  | ENOENT | ENOTDIR | EISDIR | EEXIST | ENOTEMPTY | ELOOP | EPERM | EINVAL | EIO | EACCES | EOF
  deriving DecidableEq, Repr

/-- An inode.  A directory knows its parent (`..`). -/
inductive Node where
  | file (data : List UInt8)
  | dir (parent : Nat) (entries : List (Name × Nat))
  | link (target : Path)
  deriving DecidableEq, Repr

/-- The file system: inodes by number, 0 is the root; the working directory; the bound on the number of path
components and symbolic links the kernel follows; the sizes stat reports for directories. -/
structure FS where
  nodes : List Node
  cwd : Nat
  limit : Nat
  dirSize : Nat → Nat

namespace FS
def set (fs : FS) (i : Nat) (n : Node) : FS := { fs with nodes := fs.nodes.set i n }
end FS

/-- "." and ".." -/
def dot : Name := [46]
def dotdot : Name := [46, 46]

/-- The result of path resolution: an inode, or the directory and name where it would have to be. -/
inductive Walk where
  | found (i : Nat)
  | absent (d : Nat) (n : Name)
  | fail (e : Errno)
  deriving DecidableEq, Repr

/-- Path resolution from directory `cur`; `follow`: also follow a symbolic link in the last component. -/
def walk (fs : FS) (follow : Bool) : Nat → Nat → List Name → Walk
  | _, cur, [] => .found cur
  | 0, _, _ :: _ => .fail .ELOOP
  | fuel + 1, cur, n :: rest =>
    match fs.nodes[cur]? with
    | some (.dir parent entries) =>
      if n = dot then walk fs follow fuel cur rest
      else if n = dotdot then walk fs follow fuel parent rest
      else match entries.lookup n with
        | none => if rest = [] then .absent cur n else .fail .ENOENT
        | some i =>
          match fs.nodes[i]? with
          | some (.link t) =>
            if rest = [] ∧ follow = false then .found i
            else walk fs follow fuel (if t.abs then 0 else cur) (t.names ++ rest)
          | _ => walk fs follow fuel i rest
    | _ => .fail .ENOTDIR

/-- Resolution of a path; the whole path may take one step more than its directory alone. -/
def resolve (fs : FS) (follow : Bool) (p : Path) : Walk :=
  if p.abs = false ∧ p.names = [] then .fail .ENOENT
  else walk fs follow (fs.limit + 1) (if p.abs then 0 else fs.cwd) p.names

/-- The last component of a path with its directory, for the system calls that change directories. -/
def parent (fs : FS) (p : Path) : Except Errno (Nat × Nat × List (Name × Nat) × Name) :=
  match p.names.getLast? with
  | none => .error .EINVAL
  | some n =>
    if n = dot ∨ n = dotdot then .error .EINVAL
    else match walk fs true fs.limit (if p.abs then 0 else fs.cwd) p.names.dropLast with
      | .found d =>
        match fs.nodes[d]? with
        | some (.dir up entries) => .ok (d, up, entries, n)
        | _ => .error .ENOTDIR
      | .absent _ _ => .error .ENOENT
      | .fail e => .error e

/-- A new inode under a new name. -/
def addNode (fs : FS) (d up : Nat) (entries : List (Name × Nat)) (n : Name) (node : Node) : FS :=
  { fs with nodes := (fs.nodes.set d (.dir up (entries ++ [(n, fs.nodes.length)]))) ++ [node] }

/-- os.Mkdir. -/
def mkdir (fault : Option Errno) (fs : FS) (p : Path) : Except Errno FS :=
  match fault with
  | some e => .error e
  | none =>
    match parent fs p with
    | .error .EINVAL => .error .EEXIST
    | .error e => .error e
    | .ok (d, up, entries, n) =>
      match entries.lookup n with
      | some _ => .error .EEXIST
      | none => .ok (addNode fs d up entries n (.dir d []))

/-- The directory without the name. -/
def unentry (fs : FS) (d up : Nat) (entries : List (Name × Nat)) (n : Name) : FS :=
  fs.set d (.dir up (entries.filter fun e => e.1 ≠ n))

/-- unlink(2). -/
def unlink (fs : FS) (p : Path) : Except Errno FS :=
  match parent fs p with
  | .error e => .error e
  | .ok (d, up, entries, n) =>
    match entries.lookup n with
    | none => .error .ENOENT
    | some i =>
      match fs.nodes[i]? with
      | some (.dir _ _) => .error .EISDIR
      | _ => .ok (unentry fs d up entries n)

/-- rmdir(2). -/
def rmdir (fs : FS) (p : Path) : Except Errno FS :=
  match parent fs p with
  | .error e => .error e
  | .ok (d, up, entries, n) =>
    match entries.lookup n with
    | none => .error .ENOENT
    | some i =>
      match fs.nodes[i]? with
      | some (.dir _ []) => .ok (unentry fs d up entries n)
      | some (.dir _ _) => .error .ENOTEMPTY
      | _ => .error .ENOTDIR

/-- os.Remove: unlink, and if that fails rmdir. -/
def remove (fault : Option Errno) (fs : FS) (p : Path) : Except Errno FS :=
  match fault with
  | some e => .error e
  | none =>
    match unlink fs p with
    | .ok fs' => .ok fs'
    | .error e =>
      match rmdir fs p with
      | .ok fs' => .ok fs'
      | .error e' => .error (if e' = .ENOTDIR then e else e')

/-- os.Create: open with O_CREAT and O_TRUNC; the inode that is open for writing at offset 0. -/
def create (fault : Option Errno) (fs : FS) (p : Path) : Except Errno (Nat × FS) :=
  match fault with
  | some e => .error e
  | none =>
    match resolve fs true p with
    | .fail e => .error e
    | .found i =>
      match fs.nodes[i]? with
      | some (.file _) => .ok (i, fs.set i (.file []))
      | some (.dir _ _) => .error .EISDIR
      | _ => .error .ELOOP
    | .absent d n =>
      match fs.nodes[d]? with
      | some (.dir up entries) => .ok (fs.nodes.length, addNode fs d up entries n (.file []))
      | _ => .error .ENOTDIR

/-- File.Write on a file just created: it goes on until all is written or an error occurs after some bytes. -/
def fileWrite (fault : Option (Nat × Errno)) (fs : FS) (i : Nat) (data : List UInt8) : FS × Option Errno :=
  match fault with
  | none => (fs.set i (.file data), none)
  | some (k, e) => (fs.set i (.file (data.take k)), some e)

/-- One write(2) at offset `off`: the bytes there are replaced, a gap before them is filled with zeros. -/
def writeAt (fs : FS) (i off : Nat) (data : List UInt8) : FS :=
  match fs.nodes[i]? with
  | some (.file old) =>
    fs.set i (.file (old.take off ++ List.replicate (off - old.length) 0 ++ data ++ old.drop (off + data.length)))
  | _ => fs

/-- Lstat: the inode itself, not what a symbolic link points to. -/
def lstat (fs : FS) (p : Path) : Except Errno Nat :=
  match resolve fs false p with
  | .found i => .ok i
  | .absent _ _ => .error .ENOENT
  | .fail e => .error e

/-- Directory `i` is `d` or above it (`fuel`: as many parents as there are inodes). -/
def isAbove (fs : FS) (i : Nat) : Nat → Nat → Bool
  | 0, d => i == d
  | fuel + 1, d =>
    i == d ||
      match fs.nodes[d]? with
      | some (.dir up _) => isAbove fs i fuel up
      | _ => false

/-- Sets the entry of a name in a directory. -/
def setEntry (fs : FS) (d : Nat) (n : Name) (i : Nat) : FS :=
  match fs.nodes[d]? with
  | some (.dir up entries) => fs.set d (.dir up (entries.filter (fun e => e.1 ≠ n) ++ [(n, i)]))
  | _ => fs
/-- Removes the entry of a name in a directory. -/
def dropEntry (fs : FS) (d : Nat) (n : Name) : FS :=
  match fs.nodes[d]? with
  | some (.dir up entries) => fs.set d (.dir up (entries.filter fun e => e.1 ≠ n))
  | _ => fs
/-- A directory that has moved gets its new parent. -/
def reparent (fs : FS) (i d : Nat) : FS :=
  match fs.nodes[i]? with
  | some (.dir _ entries) => fs.set i (.dir d entries)
  | _ => fs

/-- rename(2). -/
def sysRename (fs : FS) (a b : Path) : Except Errno FS :=
  match parent fs a, parent fs b with
  | .error e, _ => .error e
  | _, .error e => .error e
  | .ok (d, _, entries, n), .ok (d', _, entries', n') =>
    match entries.lookup n with
    | none => .error .ENOENT
    | some i =>
      if entries'.lookup n' = some i then .ok fs   -- both are links to the same file: nothing is done
      else
        let isDir := match fs.nodes[i]? with | some (.dir _ _) => true | _ => false
        let clash : Option Errno :=
          match entries'.lookup n' with
          | none => none
          | some j =>
            match fs.nodes[j]? with
            | some (.dir _ es) => if isDir then (if es = [] then none else some .ENOTEMPTY) else some .EISDIR
            | _ => if isDir then some .ENOTDIR else none
        match clash with
        | some e => .error e
        | none =>
          if isDir && isAbove fs i fs.nodes.length d' then .error .EINVAL
          else .ok (reparent (setEntry (dropEntry fs d n) d' n' i) i d')

/-- os.Rename: refuses a directory as the new name, unless it is the same file under another name. -/
def rename (fault : Option Errno) (fs : FS) (a b : Path) : Except Errno FS :=
  match fault with
  | some e => .error e
  | none =>
    match lstat fs b with
    | .ok j =>
      match fs.nodes[j]? with
      | some (.dir _ _) =>
        match lstat fs a with
        | .error e => .error e
        | .ok i => if a = b ∨ i ≠ j then .error .EEXIST else sysRename fs a b
      | _ => sysRename fs a b
    | .error _ => sysRename fs a b

/-- os.Link: link(2), which does not follow a symbolic link in the last component. -/
def link (fault : Option Errno) (fs : FS) (a b : Path) : Except Errno FS :=
  match fault with
  | some e => .error e
  | none =>
    match resolve fs false a with
    | .fail e => .error e
    | .absent _ _ => .error .ENOENT
    | .found i =>
      match parent fs b with
      | .error .EINVAL => .error .EEXIST
      | .error e => .error e
      | .ok (d, up, entries, n) =>
        match entries.lookup n with
        | some _ => .error .EEXIST
        | none =>
          match fs.nodes[i]? with
          | some (.dir _ _) => .error .EPERM
          | _ => .ok (fs.set d (.dir up (entries ++ [(n, i)])))

/-- os.Open for reading. -/
def open_ (fault : Option Errno) (fs : FS) (p : Path) : Except Errno Nat :=
  match fault with
  | some e => .error e
  | none =>
    match resolve fs true p with
    | .fail e => .error e
    | .absent _ _ => .error .ENOENT
    | .found i => .ok i

/-- File.Stat, Size. -/
def size (fs : FS) (i : Nat) : Nat :=
  match fs.nodes[i]? with
  | some (.file data) => data.length
  | _ => fs.dirSize i

/-- What one File.Read reads at most: package poll cuts it to 1 GiB. -/
def maxRW : Nat := 1073741824

/-- File.Read into a buffer of `len` zero bytes from offset 0: the buffer afterwards.  A read of nothing does
not reach the kernel; directories cannot be read; if there is nothing to read the error is io.EOF. -/
def fileRead (fault : Option Errno) (fs : FS) (i len : Nat) : Except Errno (List UInt8) :=
  if len = 0 then .ok []
  else match fault with
    | some e => .error e
    | none =>
      match fs.nodes[i]? with
      | some (.file data) =>
        let got := data.take (min len maxRW)
        if got = [] then .error .EOF
        else .ok (got ++ List.replicate (len - got.length) 0)
      | _ => .error .EISDIR

/-- fs.FileMode: the type bits fs.go looks at and the permission bits. -/
structure FileMode where
  dir : Bool
  symlink : Bool
  perm : Nat
  deriving DecidableEq, Repr
namespace FileMode
/-- Perm: the permission bits only. -/
def Perm (m : FileMode) : FileMode := ⟨false, false, m.perm⟩
def IsDir (m : FileMode) : Bool := m.dir
def IsRegular (m : FileMode) : Bool := !m.dir && !m.symlink
def isSymlink (m : FileMode) : Bool := m.symlink
end FileMode

/-- fs.DirEntry: name and type bits. -/
structure DirEntry where
  Name : Os.Name
  mode : FileMode
  deriving DecidableEq, Repr

/-- Comparison of strings. -/
def nameLe (a b : Name) : Bool := decide (a ≤ b)

/-- Type bits of an inode; `Type()` of an entry has no permission bits. -/
def typeOf (fs : FS) (i : Nat) : FileMode :=
  match fs.nodes[i]? with
  | some (.dir _ _) => ⟨true, false, 0⟩
  | some (.link _) => ⟨false, true, 0⟩
  | _ => ⟨false, false, 0⟩

/-- os.ReadDir: the entries (without "." and ".."), sorted by name. -/
def readDir (fault : Option Errno) (fs : FS) (p : Path) : Except Errno (List DirEntry) :=
  match fault with
  | some e => .error e
  | none =>
    match resolve fs true p with
    | .fail e => .error e
    | .absent _ _ => .error .ENOENT
    | .found i =>
      match fs.nodes[i]? with
      | some (.dir _ entries) =>
        .ok ((entries.mergeSort fun a b => nameLe a.1 b.1).map fun e => ⟨e.1, typeOf fs e.2⟩)
      | _ => .error .ENOTDIR

/-- Clean on components: "." is dropped and ".." takes away the component before it. -/
def cleanNames (abs : Bool) : List Name → List Name → List Name
  | acc, [] => acc
  | acc, n :: rest =>
    if n = dot then cleanNames abs acc rest
    else if n = dotdot then
      match acc.getLast? with
      | some m => if m = dotdot then cleanNames abs (acc ++ [n]) rest else cleanNames abs acc.dropLast rest
      | none => if abs then cleanNames abs acc rest else cleanNames abs (acc ++ [n]) rest
    else cleanNames abs (acc ++ [n]) rest
/-- filepath.Join of a path and a name. -/
def join (p : Path) (n : Name) : Path := ⟨p.abs, cleanNames p.abs [] (p.names ++ [n])⟩

end Gost.Os
