import Verif.Fs.ModelWalk
import Verif.Path.Spec
/-!
# Walking directories — specification
-/
namespace Verif.Fs.Walk.Spec
open Verif.Path.Spec (Loc)

/-- The contents of a directory: files and directories in the order they are listed. -/
inductive Tree where
  | nil
  | file (name : List Byte) (regular : Bool) (rest : Tree)
  | dir (name : List Byte) (sub rest : Tree)
  deriving DecidableEq, Repr

/-- The listing of a directory, without itself and its parent. -/
def Tree.raw : Tree → List (List Byte × DType)
  | .nil => []
  | .file n r rest => (n, if r then .reg else .other) :: rest.raw
  | .dir n _ rest => (n, .dir) :: rest.raw

/-- The names of the directories. -/
def Tree.dirs : Tree → List (List Byte)
  | .nil => []
  | .file _ _ rest => rest.dirs
  | .dir n _ rest => n :: rest.dirs

/-- The names of the files. -/
def Tree.files : Tree → List (List Byte)
  | .nil => []
  | .file n _ rest => n :: rest.files
  | .dir _ _ rest => rest.files

/-- One directory down. -/
def down (l : Loc) (n : List Byte) : Loc := { l with down := l.down ++ [n] }

/-- An ordinary name. -/
def Plain (n : List Byte) : Prop := n ≠ [] ∧ (∀ c ∈ n, c ≠ 47) ∧ n ≠ [46] ∧ n ≠ [46, 46]

/-- All names are ordinary. -/
def Tree.PlainAll : Tree → Prop
  | .nil => True
  | .file n _ rest => Plain n ∧ rest.PlainAll
  | .dir n sub rest => Plain n ∧ sub.PlainAll ∧ rest.PlainAll

/-- What is below a directory at `l`, depth first, each directory before what is in it, leaving out
directories that are not wanted. -/
def below (want : Loc → List Byte → Bool) : Loc → Tree → List (Loc × List (List Byte) × List (List Byte))
  | _, .nil => []
  | l, .file _ _ rest => below want l rest
  | l, .dir n sub rest =>
    (if want l n then (down l n, sub.dirs, sub.files) :: below want (down l n) sub else []) ++ below want l rest

/-- The directory at `l` and what is below it. -/
def tour (want : Loc → List Byte → Bool) (l : Loc) (t : Tree) : List (Loc × List (List Byte) × List (List Byte)) :=
  (l, t.dirs, t.files) :: below want l t

/-- All directories below, without pruning. -/
def Tree.all : Loc → Tree → List Loc
  | _, .nil => []
  | l, .file _ _ rest => rest.all l
  | l, .dir n sub rest => down l n :: sub.all (down l n) ++ rest.all l

/-- `l'` is a directory below one at `l` with contents `t`. -/
inductive Below : Loc → Tree → Loc → Prop
  | here {l n sub rest} : Below l (.dir n sub rest) (down l n)
  | inside {l n sub rest l'} : Below (down l n) sub l' → Below l (.dir n sub rest) l'
  | skipDir {l n sub rest l'} : Below l rest l' → Below l (.dir n sub rest) l'
  | skipFile {l n r rest l'} : Below l rest l' → Below l (.file n r rest) l'

/-- No two entries of a directory have the same name. -/
def Tree.Distinct : Tree → Prop
  | .nil => True
  | .file n _ rest => n ∉ rest.dirs ∧ n ∉ rest.files ∧ rest.Distinct
  | .dir n sub rest => n ∉ rest.dirs ∧ n ∉ rest.files ∧ sub.Distinct ∧ rest.Distinct

/-- The system shows the directory at `l` with contents `t`: every path that leads there lists it,
along with `.` and `..` somewhere. -/
def Shows (sys : Sys) (l : Loc) (t : Tree) : Prop :=
  ∀ p, Path.Spec.meaning false [p] = l → ∃ raw, sys.readdir p = some raw ∧
    raw.filter (fun e => !decide (e.2 = .dir ∧ (e.1 = [46] ∨ e.1 = [46, 46]))) = t.raw

/-- So it does with everything below. -/
def ShowsBelow (sys : Sys) : Loc → Tree → Prop
  | _, .nil => True
  | l, .file _ _ rest => ShowsBelow sys l rest
  | l, .dir n sub rest => Shows sys (down l n) sub ∧ ShowsBelow sys (down l n) sub ∧ ShowsBelow sys l rest

end Verif.Fs.Walk.Spec
