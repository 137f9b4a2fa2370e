import Verif.Fs.Env
/-!
# Saving files — what it should do
-/
namespace Verif.Fs.Spec

/-- The places passed on the way, from the start on, the last one excluded. -/
def passed : Where → List Name → List Where
  | _, [] => []
  | cur, n :: ns => cur :: passed (next cur n) ns

/-- Where the way leads. -/
def target (cur : Where) (ns : List Name) : Where := ns.foldl next cur

/-- A disk is a tree: the root is a directory, and whatever exists is in a directory. -/
structure Tree (d : Disk) : Prop where
  root : d [] = some .dir
  parent : ∀ w n, d (w ++ [n]) ≠ none → d w = some .dir

/-- The disk with some more directories. -/
def withDirs (d : Disk) (ws : List Where) : Disk := fun v => if v ∈ ws then some .dir else d v

/-- No file at any of these places. -/
def Free (d : Disk) (ws : List Where) : Prop := ∀ w ∈ ws, ∀ c, d w ≠ some (.file c)

/-- The names in a path. -/
abbrev way (path : List Byte) : List Name := Path.Spec.names false path

/-- A file can be saved under this path: it is not empty and does not end with a slash, no file is in
the way, no directory is in its place, and none will be when those on the way have been made. -/
structure Savable (d : Disk) (cwd : Where) (path : List Byte) : Prop where
  tree : Tree d
  nonempty : path ≠ []
  noSlash : path.getLast? ≠ some 47
  starts : d (start cwd path) = some .dir
  free : Free d (passed (start cwd path) (way path))
  notDir : d (target (start cwd path) (way path)) ≠ some .dir
  apart : target (start cwd path) (way path) ∉ passed (start cwd path) (way path)

/-- The calls of `write` that return these numbers transfer `n` bytes. -/
def Transfers (n : Nat) (sent : List Nat) : Prop :=
  ∃ k, (∀ x ∈ sent.take k, x ≠ 0) ∧ n ≤ (sent.take k).sum

end Verif.Fs.Spec
