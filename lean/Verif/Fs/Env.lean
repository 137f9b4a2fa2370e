import Verif.Path.Model
import Verif.Path.Spec
/-!
# The POSIX file system underneath

This is the environment of rt/filesystem/impl/FileSystem_POSIX.cpp, not code of the project: what the
system calls it uses do.  There are no symbolic links, no permissions, no other processes.
-/
namespace Verif.Fs

/-- A file name. -/
abbrev Name := List Byte

/-- A place: the names that lead to it from the root. -/
abbrev Where := List Name

/-- What may be at a place. -/
inductive Ent where
  | file (contents : List Byte)
  | dir
  deriving DecidableEq, Repr

/-- The disk. -/
abbrev Disk := Where → Option Ent

/-- Change one place. -/
def Disk.set (d : Disk) (w : Where) (e : Ent) : Disk := fun v => if v = w then some e else d v

/-- `errno`. -/
inductive Errno where
  | noent
  | notdir
  | isdir
  | exist
  deriving DecidableEq, Repr

/-- One component of a path. -/
def next (cur : Where) (n : Name) : Where :=
  if n = [46, 46] then cur.dropLast else if n = [46] then cur else cur ++ [n]

/-- Follow components; each place passed must be a directory, the last need not exist. -/
def follow (d : Disk) : Where → List Name → Except Errno Where
  | cur, [] => .ok cur
  | cur, n :: ns =>
    match d cur with
    | none => .error .noent
    | some (.file _) => .error .notdir
    | some .dir => follow d (next cur n) ns

/-- Where a path starts. -/
def start (cwd : Where) (path : List Byte) : Where := if path.head? = some 47 then [] else cwd

/-- The components of a path; a path that ends with a slash is taken as if followed by a dot. -/
def comps (path : List Byte) : List Name :=
  Path.Spec.names false path ++ if path.getLast? = some 47 then [[46]] else []

/-- Path resolution. -/
def resolve (d : Disk) (cwd : Where) (path : List Byte) : Except Errno Where :=
  if path = [] then .error .noent else follow d (start cwd path) (comps path)

/-- `stat`. -/
def stat (d : Disk) (cwd : Where) (path : List Byte) : Except Errno Ent :=
  match resolve d cwd path with
  | .error e => .error e
  | .ok w => match d w with
    | none => .error .noent
    | some e => .ok e

/-- `mkdir`; a slash at the end does not matter. -/
def mkdir (d : Disk) (cwd : Where) (path : List Byte) : Except Errno Disk :=
  if path = [] then .error .noent
  else
    match follow d (start cwd path) (Path.Spec.names false path) with
    | .error e => .error e
    | .ok w => match d w with
      | none => .ok (d.set w .dir)
      | some _ => .error .exist

/-- `open(O_RDONLY)`. -/
def openRead (d : Disk) (cwd : Where) (path : List Byte) : Except Errno Ent := stat d cwd path

/-- `open(O_WRONLY | O_CREAT | O_TRUNC)`: the disk and the place written to. -/
def openWrite (d : Disk) (cwd : Where) (path : List Byte) : Except Errno (Disk × Where) :=
  match resolve d cwd path with
  | .error e => .error e
  | .ok w => match d w with
    | some .dir => .error .isdir
    | _ => .ok (d.set w (.file []), w)

/-- Bytes appended to the open file. -/
def append (d : Disk) (w : Where) (bytes : List Byte) : Disk :=
  match d w with
  | some (.file c) => d.set w (.file (c ++ bytes))
  | _ => d

end Verif.Fs
