import Verif.Fs.Env
/-!
# A file system with symbolic links

This is the environment of rt/filesystem/impl/FileSystem_POSIX.cpp:260-291, not code of the project: what the system
calls it uses do.  There are no permissions and no other processes.  Places, the components of paths and `errno` are as
in Verif/Fs/Env.lean.
-/
namespace Verif.Rm

open Verif.Fs (Name Where)

/-- What may be at a place. -/
inductive Node where
  | file
  | dir
  | link (target : List Byte)
  deriving DecidableEq, Repr

/-- The disk: what is at which place, in the order in which directories list it.  The root is always there. -/
abbrev Disk := List (Where × Node)

/-- What is at a place. -/
def lookup (d : Disk) (w : Where) : Option Node :=
  if w = [] then some .dir else (d.find? (fun e => e.1 = w)).map (·.2)

/-- `errno`. -/
inductive Errno where
  | noent
  | notdir
  | isdir
  | notempty
  | inval
  | busy
  | loop
  deriving DecidableEq, Repr

/-- Follow components from `cur`, a directory; `jump` continues after a link.  The last component is followed if it is a
link and `last` is set, and need not exist. -/
def follow (d : Disk) (jump : Where → List Name → Except Errno Where) (last : Bool) : Where → List Name → Except Errno Where
  | cur, [] => .ok cur
  | cur, n :: ns =>
    match lookup d cur with
    | none => .error .noent
    | some .dir =>
      match lookup d (Fs.next cur n) with
      | some (.link t) =>
        if ns = [] ∧ last = false then .ok (Fs.next cur n)
        else if t = [] then .error .noent
        else jump (Fs.start cur t) (Fs.comps t ++ ns)
      | _ => follow d jump last (Fs.next cur n) ns
    | some _ => .error .notdir

/-- `follow` through at most so many links. -/
def resolveN (d : Disk) (last : Bool) : Nat → Where → List Name → Except Errno Where
  | 0, _, _ => .error .loop
  | k + 1, cur, ns => follow d (resolveN d last k) last cur ns

/-- Path resolution; 40 links are followed at most. -/
def resolve (d : Disk) (last : Bool) (cwd : Where) (path : List Byte) (cs : List Name) : Except Errno Where :=
  if path = [] then .error .noent else resolveN d last 41 (Fs.start cwd path) cs

/-- `stat`. -/
def stat (d : Disk) (cwd : Where) (path : List Byte) : Except Errno Node :=
  match resolve d true cwd path (Fs.comps path) with
  | .error e => .error e
  | .ok w =>
    match lookup d w with
    | none => .error .noent
    | some n => .ok n

/-- `opendir`: the place of the directory. -/
def opendir (d : Disk) (cwd : Where) (path : List Byte) : Except Errno Where :=
  match resolve d true cwd path (Fs.comps path) with
  | .error e => .error e
  | .ok w =>
    match lookup d w with
    | none => .error .noent
    | some .dir => .ok w
    | some _ => .error .notdir

/-- What is in a directory. -/
def children (d : Disk) (w : Where) : List (Name × Node) :=
  d.filterMap fun e => if e.1.dropLast = w then e.1.getLast?.map (·, e.2) else none

/-- `readdir` to the end. -/
def readdir (d : Disk) (w : Where) : List (Name × Node) := ([46], .dir) :: ([46, 46], .dir) :: children d w

/-- Without what is at a place. -/
def erase (d : Disk) (w : Where) : Disk := d.filter fun e => e.1 ≠ w

/-- `unlink`. -/
def unlink (d : Disk) (cwd : Where) (path : List Byte) : Except Errno Disk :=
  match resolve d false cwd path (Fs.comps path) with
  | .error e => .error e
  | .ok w =>
    match lookup d w with
    | none => .error .noent
    | some .dir => .error .isdir
    | some _ => .ok (erase d w)

/-- `rmdir`; a slash at the end does not matter. -/
def rmdir (d : Disk) (cwd : Where) (path : List Byte) : Except Errno Disk :=
  if (Path.Spec.names false path).getLast? = some [46] then .error .inval
  else
    match resolve d false cwd path (Path.Spec.names false path) with
    | .error e => .error e
    | .ok w =>
      match lookup d w with
      | none => .error .noent
      | some .dir => if w = [] then .error .busy else if children d w ≠ [] then .error .notempty else .ok (erase d w)
      | some _ => .error .notdir

end Verif.Rm
