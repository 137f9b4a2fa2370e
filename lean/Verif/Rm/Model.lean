import Verif.Rm.Env
import Verif.Path.Model
import Verif.Fs.Model
/-!
# Removing files and directories

`rt/` stands for `runtime/ply-runtime/`.  A failed assertion is `none`; the disk is as it is by then.
-/
namespace Verif.Rm

open Verif.Fs (Name Where FSResult)

/-- `FileSystem_POSIX::deleteFile`, rt/filesystem/impl/FileSystem_POSIX.cpp:260-267. -/
def deleteFile (cwd : Where) (d : Disk) (path : List Byte) : Disk × Option FSResult :=
  match unlink d cwd path with
  | .error _ => (d, none)
  | .ok d => (d, some .ok)

/-- The loop of `removeDirTree`, rt/filesystem/impl/FileSystem_POSIX.cpp:270-284, with the steps of the listing,
FileSystem_POSIX.cpp:48-107: each entry is looked at when its turn comes (`listDir` asks for sizes and times by default,
rt/filesystem/FileSystem.h:325, so that `stat` is called).  `sub` removes a directory.  Simplified: the names in a
directory are read when it is opened. -/
def removeLoop (sub : Disk → List Byte → Disk × Option FSResult) (cwd : Where) (path : List Byte) :
    Disk → List (Name × Node) → Disk × Option (Option FSResult)
  | d, [] => (d, some none)
  | d, (name, node) :: rest =>
    if node = .dir ∧ (name = [46] ∨ name = [46, 46]) then removeLoop sub cwd path d rest
    else
      match Path.joinAndNormalize false [path, name] with
      | none => (d, none)
      | some joined =>
        match stat d cwd joined with
        | .error .noent => removeLoop sub cwd path d rest
        | .error _ => (d, none)
        | .ok _ =>
          if node = .dir then
            match sub d joined with
            | (d, none) => (d, none)
            | (d, some r) => if r ≠ .ok then (d, some (some r)) else removeLoop sub cwd path d rest
          else
            match unlink d cwd joined with
            | .error _ => (d, none)
            | .ok d => removeLoop sub cwd path d rest

/-- `FileSystem_POSIX::removeDirTree`, rt/filesystem/impl/FileSystem_POSIX.cpp:269-291; opening the directory,
FileSystem_POSIX.cpp:29-46.  `fuel` bounds the depth (the model's own device). -/
def removeDirTree (cwd : Where) : Nat → Disk → List Byte → Disk × Option FSResult
  | 0, d, _ => (d, none)
  | fuel + 1, d, path =>
    match (match opendir d cwd path with
      | .error .noent => some []
      | .error _ => none
      | .ok w => some (readdir d w)) with
    | none => (d, none)
    | some raw =>
      match removeLoop (removeDirTree cwd fuel) cwd path d raw with
      | (d, none) => (d, none)
      | (d, some (some r)) => (d, some r)
      | (d, some none) =>
        match rmdir d cwd path with
        | .error _ => (d, none)
        | .ok d => (d, some .ok)

end Verif.Rm
