import Verif.Path.Model
/-!
# Walking directories — model of rt/filesystem/FileSystem.cpp:13-83 over
rt/filesystem/impl/FileSystem_POSIX.cpp:20-114

The disk does not change during a walk.  A failed assertion is `none`.  Sizes and times are left out.
-/
namespace Verif.Fs.Walk

/-- `d_type` of `readdir`: `DT_REG`, `DT_DIR` or another. -/
inductive DType where
  | reg
  | dir
  | other
  deriving DecidableEq, Repr

/-- `DirectoryEntry` (rt/filesystem/FileSystem.h:50-57), name and kind only. -/
structure Entry where
  name : List Byte
  isDir : Bool
  deriving DecidableEq, Repr

/-- What `readdir` gives for a path that can be opened (`none`: `opendir` fails), and whether `stat` of
an entry fails with `ENOENT`. -/
structure Sys where
  readdir : List Byte → Option (List (List Byte × DType))
  gone : List Byte → List Byte → Bool

/-- `FileSystem_POSIX::DirImpl::begin`/`nextImpl` driven to the end (FileSystem_POSIX.cpp:29-107): the
entries of a directory.  `flags` is whether sizes or times are asked for. -/
def entries (gone : List Byte → Bool) (flags : Bool) : List (List Byte × DType) → List Entry
  | [] => []
  | (name, ty) :: rest =>
    if ty = .dir ∧ (name = [46] ∨ name = [46, 46]) then entries gone flags rest
    else if flags = true ∧ gone name = true then entries gone flags rest
    else ⟨name, ty = .dir⟩ :: entries gone flags rest

/-- `FileSystem_POSIX::listDir` (FileSystem_POSIX.cpp:109-114) in a range-based loop, which stops at an
entry without a name (rt/filesystem/FileSystem.h:79-81). -/
def listDir (sys : Sys) (flags : Bool) (path : List Byte) : List Entry :=
  match sys.readdir path with
  | none => []
  | some raw => (entries (sys.gone path) flags raw).takeWhile (fun e => e.name ≠ [])

/-- `WalkTriple` (rt/filesystem/FileSystem.h:102-114). -/
structure Triple where
  dirPath : List Byte
  dirNames : List (List Byte)
  files : List (List Byte)
  deriving DecidableEq, Repr

/-- `WalkImpl::StackItem` (rt/filesystem/FileSystem.cpp:15-19). -/
structure Item where
  path : List Byte
  dirNames : List (List Byte)
  dirIndex : Nat
  deriving DecidableEq, Repr

/-- `WalkImpl` (rt/filesystem/FileSystem.cpp:14-23); the last item of the stack comes first here. -/
structure WalkImpl where
  triple : Triple
  stack : List Item
  deriving DecidableEq, Repr

/-- `WalkImpl::visit` (rt/filesystem/FileSystem.cpp:25-41). -/
def visit (sys : Sys) (flags : Bool) (dirPath : List Byte) : Triple :=
  { dirPath
    dirNames := ((listDir sys flags dirPath).filter (·.isDir)).map (·.name)
    files := ((listDir sys flags dirPath).filter (fun e => !e.isDir)).map (·.name) }

/-- The loop of `nextImpl` (rt/filesystem/FileSystem.cpp:60-70). -/
def nextLoop (sys : Sys) (flags : Bool) : List Item → Option WalkImpl
  | [] => some ⟨⟨[], [], []⟩, []⟩
  | item :: stack =>
    match item.dirNames[item.dirIndex]? with
    | some name =>
      match Path.joinAndNormalize false [item.path, name] with
      | none => none
      | some p => some ⟨visit sys flags p, { item with dirIndex := item.dirIndex + 1 } :: stack⟩
    | none => nextLoop sys flags stack

/-- `WalkImpl::nextImpl` (rt/filesystem/FileSystem.cpp:48-71). -/
def next (sys : Sys) (flags : Bool) (w : WalkImpl) : Option WalkImpl :=
  if w.triple.dirNames ≠ [] then
    nextLoop sys flags (⟨w.triple.dirPath, w.triple.dirNames, 0⟩ :: w.stack)
  else nextLoop sys flags w.stack

/-- A range-based loop over a walk (rt/filesystem/FileSystem.h:165-187): the triples it sees.  The body
of the loop may replace `dirNames`, as `body` says.  `fuel` bounds the rounds; `none` if it runs out. -/
def loop (sys : Sys) (flags : Bool) (body : Triple → List (List Byte)) : Nat → WalkImpl → Option (List Triple)
  | fuel, w =>
    if w.triple.dirPath = [] then some []
    else
      match fuel with
      | 0 => none
      | fuel + 1 =>
        match next sys flags { w with triple := { w.triple with dirNames := body w.triple } } with
        | none => none
        | some w' => (loop sys flags body fuel w').map (w.triple :: ·)

/-- `FileSystem::walk` (rt/filesystem/FileSystem.cpp:75-83). -/
def walk (sys : Sys) (flags : Bool) (top : List Byte) : WalkImpl := ⟨visit sys flags top, []⟩

end Verif.Fs.Walk
