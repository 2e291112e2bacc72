import Verif.Model.Os
import Verif.Model.Option
import Verif.Model.Vec
/-
Model of /repo/fs.go on the file system of Model/Os.lean.  The functions take the file system and return the new
one; `fault` are the failures of the system calls they make (see Model/Os.lean).
-/
namespace Gost.Fs
open Os

/-- fs.go:9-17 CreateDir. -/
def createDir (fault : Option Errno) (fs : FS) (path : Path) : Res Errno Unit × FS :=
  match mkdir fault fs path with
  | .error e => (Res.mkErr (some e), fs)
  | .ok fs => (Res.mkOk (), fs)
/-- fs.go:20-28 RemoveDir. -/
def removeDir (fault : Option Errno) (fs : FS) (path : Path) : Res Errno Unit × FS :=
  match remove fault fs path with
  | .error e => (Res.mkErr (some e), fs)
  | .ok fs => (Res.mkOk (), fs)
/-- fs.go:31-53 Write. -/
def write (createFault : Option Errno) (writeFault : Option (Nat × Errno)) (fs : FS) (path : Path)
    (data : List UInt8) : Res Errno Unit × FS :=
  match create createFault fs path with
  | .error e => (Res.mkErr (some e), fs)
  | .ok (file, fs) =>
    match fileWrite writeFault fs file data with
    | (fs, some e) => (Res.mkErr (some e), fs)
    | (fs, none) => (Res.mkOk (), fs)
/-- fs.go:56-64 RemoveFile. -/
def removeFile (fault : Option Errno) (fs : FS) (path : Path) : Res Errno Unit × FS :=
  match remove fault fs path with
  | .error e => (Res.mkErr (some e), fs)
  | .ok fs => (Res.mkOk (), fs)
/-- fs.go:68-76 Rename. -/
def rename (fault : Option Errno) (fs : FS) (frm to : Path) : Res Errno Unit × FS :=
  match Os.rename fault fs frm to with
  | .error e => (Res.mkErr (some e), fs)
  | .ok fs => (Res.mkOk (), fs)
/-- fs.go:79-109 Read; the number of bytes `file.Read` reports is not looked at. -/
def read (openFault readFault : Option Errno) (fs : FS) (path : Path) : Res Errno (List UInt8) :=
  match open_ openFault fs path with
  | .error e => Res.mkErr (some e)
  | .ok file =>
    match fileRead readFault fs file (size fs file) with
    | .error e => Res.mkErr (some e)
    | .ok data => Res.mkOk data
/-- fs.go:179-203 ReadToString. -/
def readToString (openFault readFault : Option Errno) (fs : FS) (path : Path) : Res Errno GoStr :=
  match open_ openFault fs path with
  | .error e => Res.mkErr (some e)
  | .ok file =>
    match fileRead readFault fs file (size fs file) with
    | .error e => Res.mkErr (some e)
    | .ok data => Res.mkOk data

/-- fs.go:111-113 FileType; its string is one of the four the package uses. -/
inductive FileType where
  | none | dir | file | symlink
  deriving DecidableEq, Repr, Inhabited
namespace FileType
/-- fs.go:115-117 IsDir. -/
def isDir (self : FileType) : Bool := self = .dir
/-- fs.go:119-121 IsFile. -/
def isFile (self : FileType) : Bool := self = .file
/-- fs.go:123-125 IsSymlink. -/
def isSymlink (self : FileType) : Bool := self = .symlink
end FileType
/-- fs.go:127-131 DirEntry. -/
structure DirEntry where
  FileName : GoStr
  Path : Os.Path
  FileType : Fs.FileType
  deriving DecidableEq, Repr, Inhabited

/-- fs.go:143-151 the type of an entry, in ReadDir. -/
def entryType (entry : Os.DirEntry) : FileType :=
  if entry.mode.Perm.IsDir then .dir
  else if entry.mode.Perm.IsRegular then .file
  else if entry.mode.Perm.isSymlink then .symlink
  else .none
/-- fs.go:134-164 ReadDir. -/
def readDir (g : Growth) (fault : Option Errno) (fs : FS) (path : Path) : Go (Res Errno (Vec DirEntry)) :=
  match Os.readDir fault fs path with
  | .error e => .ok (Res.mkErr (some e))
  | .ok entries => do
    let vec ← Vec.withLen (α := DirEntry) entries.length
    .ok (Res.mkOk (entries.foldl (fun vec entry =>
      vec.push g ⟨entry.Name, join path entry.Name, entryType entry⟩) vec))
/-- fs.go:168-176 Copy. -/
def copy (fault : Option Errno) (fs : FS) (frm to : Path) : Res Errno Unit × FS :=
  match link fault fs frm to with
  | .error e => (Res.mkErr (some e), fs)
  | .ok fs => (Res.mkOk (), fs)

end Gost.Fs
