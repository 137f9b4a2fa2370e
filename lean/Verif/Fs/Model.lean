import Verif.Fs.Env
/-!
# Saving files — model of rt/filesystem/FileSystem.cpp over rt/filesystem/impl/FileSystem_POSIX.cpp

Only POSIX.  A failed assertion is `none`; assertions are enabled and
`PLY_FSPOSIX_ALLOW_UNKNOWN_ERRORS` is 0 (FileSystem_POSIX.cpp:16).
-/
namespace Verif.Fs

/-- `FSResult` (rt/filesystem/FileSystem.h:32-40). -/
inductive FSResult where
  | unknown
  | notFound
  | locked
  | accessDenied
  | ok
  | alreadyExists
  | unchanged
  deriving DecidableEq, Repr

/-- `ExistsResult` (rt/filesystem/FileSystem.h:96-100). -/
inductive ExistsResult where
  | notFound
  | file
  | directory
  deriving DecidableEq, Repr

/-- A run so far: the disk, and all the disks there have been, the present one last.  (The process may
be killed at any of them.) -/
structure Run where
  disk : Disk
  past : List Disk

/-- Change the disk. -/
def Run.put (r : Run) (d : Disk) : Run := ⟨d, r.past ++ [d]⟩

/-- `FileSystem_POSIX::exists` (rt/filesystem/impl/FileSystem_POSIX.cpp:178-187). -/
def exists_ (d : Disk) (cwd : Where) (path : List Byte) : Option ExistsResult :=
  match stat d cwd path with
  | .ok .dir => some .directory
  | .ok (.file _) => some .file
  | .error .noent => some .notFound
  | .error _ => none

/-- `FileSystem_POSIX::makeDir` (rt/filesystem/impl/FileSystem_POSIX.cpp:116-132). -/
def makeDir (r : Run) (cwd : Where) (path : List Byte) : Run × Option FSResult :=
  match mkdir r.disk cwd path with
  | .ok d => (r.put d, some .ok)
  | .error .exist => (r, some .alreadyExists)
  | .error .isdir => (r, some .alreadyExists)
  | .error _ => (r, none)

/-- `FileSystem::makeDirs` (rt/filesystem/FileSystem.cpp:85-103).  `fuel` bounds the recursion (the
model's own device); running out is a fault. -/
def makeDirs (cwd : Where) : Nat → Run → List Byte → Run × Option FSResult
  | 0, r, _ => (r, none)
  | fuel + 1, r, path =>
    if path = Path.getDriveLetter false path then (r, some .ok)
    else
      match exists_ r.disk cwd path with
      | none => (r, none)
      | some .directory => (r, some .alreadyExists)
      | some .file => (r, some .accessDenied)
      | some .notFound =>
        match Path.split false path with
        | none => (r, none)
        | some (first, second) =>
          if first ≠ [] ∧ second ≠ [] then
            match makeDirs cwd fuel r first with
            | (r', some .ok) => makeDir r' cwd path
            | (r', some .alreadyExists) => makeDir r' cwd path
            | (r', res) => (r', res)
          else makeDir r cwd path

/-- `FileSystem::loadBinary` (rt/filesystem/FileSystem.cpp:136-146) with
`FileSystem_POSIX::openFDForRead` (FileSystem_POSIX.cpp:189-217) and `InPipe_FD_readSome`, which fails an
assertion on a directory (rt/io/impl/Pipe_FD.cpp:22-34).  The result code and the contents. -/
def loadBinary (d : Disk) (cwd : Where) (path : List Byte) : Option (FSResult × List Byte) :=
  match openRead d cwd path with
  | .error .noent => some (.notFound, [])
  | .error _ => none
  | .ok .dir => none
  | .ok (.file c) => if c.length < 2 ^ 32 then some (.ok, c) else none

/-- `OutPipe_FD_write` (rt/io/impl/Pipe_FD.cpp:64-76) on a file.  `sent` is what the calls of `write`
return one after the other; an end of that list stands for an error. -/
def writeLoop (w : Where) : Run → List Byte → List Nat → Run × Bool
  | r, [], _ => (r, true)
  | r, _ :: _, [] => (r, false)
  | r, b :: bs, n :: sent =>
    if n = 0 then (r, false)
    else writeLoop w (r.put (append r.disk w ((b :: bs).take n))) ((b :: bs).drop n) sent

/-- `FileSystem::makeDirsAndSaveBinaryIfDifferent` (rt/filesystem/FileSystem.cpp:174-206) with
`FileSystem_POSIX::openFDForWrite` (FileSystem_POSIX.cpp:219-248).  The result of `write` is ignored. -/
def save (r : Run) (cwd : Where) (path view : List Byte) (sent : List Nat) : Run × Option FSResult :=
  match loadBinary r.disk cwd path with
  | none => (r, none)
  | some (existing, contents) =>
    if existing = .ok ∧ contents = view then (r, some .unchanged)
    else if existing ≠ .ok ∧ existing ≠ .notFound then (r, some existing)
    else
      match Path.split false path with
      | none => (r, none)
      | some (first, _) =>
        match makeDirs cwd (first.length + 1) r first with
        | (r1, none) => (r1, none)
        | (r1, some res) =>
          if res ≠ .ok ∧ res ≠ .alreadyExists then (r1, some res)
          else
            match openWrite r1.disk cwd path with
            | .error .noent => (r1, some .notFound)
            | .error _ => (r1, none)
            | .ok (d, w) => ((writeLoop w (r1.put d) view sent).1, some .ok)

end Verif.Fs
