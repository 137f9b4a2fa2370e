import Verif.Basic
/-!
# What a path means

Lexical resolution of `.` and `..`.  Nothing here refers to the model.
-/
namespace Verif.Path.Spec
open Verif

/-- Separators. -/
def Sep (win : Bool) (c : Byte) : Prop := c = 47 ∨ (win = true ∧ c = 92)

instance (win : Bool) (c : Byte) : Decidable (Sep win c) := by unfold Sep; infer_instance

/-- Cut at every separator. -/
def fields (win : Bool) : List Byte → List (List Byte)
  | [] => [[]]
  | c :: cs =>
    if Sep win c then [] :: fields win cs
    else
      match fields win cs with
      | [] => [[c]]
      | f :: fs => (c :: f) :: fs

/-- The non-empty fields: the names in a path. -/
def names (win : Bool) (p : List Byte) : List (List Byte) := (fields win p).filter (· ≠ [])

/-- What a path starts from: the current directory, the root, the current directory of a drive, or
the root of a drive. -/
inductive Anchor where
  | here
  | root
  | drive (letter : Byte)
  | driveRoot (letter : Byte)
deriving DecidableEq, Repr

/-- `..` at such an anchor stays there. -/
def Anchor.isRoot : Anchor → Bool
  | .root => true
  | .driveRoot _ => true
  | _ => false

/-- Where a path leads: so many directories up from the anchor, then down these names. -/
structure Loc where
  anchor : Anchor
  ups : Nat
  down : List (List Byte)
deriving DecidableEq, Repr

/-- One step along a name. -/
def Loc.step (l : Loc) (name : List Byte) : Loc :=
  if name = [46, 46] then
    if l.down ≠ [] then { l with down := l.down.dropLast }
    else if l.anchor.isRoot then l
    else { l with ups := l.ups + 1 }
  else if name = [46] then l
  else { l with down := l.down ++ [name] }

/-- A letter A-Z or a-z. -/
def Letter (c : Byte) : Prop := (65 ≤ c.toNat ∧ c.toNat ≤ 90) ∨ (97 ≤ c.toNat ∧ c.toNat ≤ 122)

instance (c : Byte) : Decidable (Letter c) := by unfold Letter; infer_instance

/-- The anchor a path names, if any, and what follows.  POSIX: a leading separator.  Windows: a drive
letter, and a separator after it makes it absolute (a leading separator alone does not, see
rt/filesystem/Path.h:15-21). -/
def parse (win : Bool) (p : List Byte) : Option Anchor × List Byte :=
  if win then
    match p with
    | c :: 58 :: rest =>
      if Letter c then
        match rest with
        | d :: _ => if Sep win d then (some (.driveRoot c), rest) else (some (.drive c), rest)
        | [] => (some (.drive c), rest)
      else (none, p)
    | _ => (none, p)
  else
    match p with
    | c :: _ => if Sep win c then (some .root, p) else (none, p)
    | [] => (none, p)

/-- Where one gets from `l` by following `p`. -/
def follow (win : Bool) (l : Loc) (p : List Byte) : Loc :=
  match parse win p with
  | (some a, rest) => (names win rest).foldl Loc.step ⟨a, 0, []⟩
  | (none, rest) => (names win rest).foldl Loc.step l

/-- The meaning of paths joined together. -/
def meaning (win : Bool) (ps : List (List Byte)) : Loc := ps.foldl (follow win) ⟨.here, 0, []⟩

/-- Steps that neither climb above an anchor nor climb two directories above the start. -/
def okStep (l : Loc) (name : List Byte) : Bool :=
  !(name == [46, 46] && l.down == []) || (l.anchor == .here && l.ups == 0)

/-- A step, and whether all steps so far were such. -/
def stepT (x : Loc × Bool) (n : List Byte) : Loc × Bool := (x.1.step n, x.2 && okStep x.1 n)

/-- `follow`, keeping track of `okStep` since the last anchor. -/
def followT (win : Bool) (x : Loc × Bool) (p : List Byte) : Loc × Bool :=
  match parse win p with
  | (some a, rest) => (names win rest).foldl stepT (⟨a, 0, []⟩, true)
  | (none, rest) => (names win rest).foldl stepT x

/-- No `..` of the joined paths climbs above a root or drive, nor two directories above the start. -/
def tame (win : Bool) (ps : List (List Byte)) : Bool :=
  (ps.foldl (followT win) (⟨.here, 0, []⟩, true)).2

/-- No directory or file name looks like a drive letter with a colon. -/
def NoDrive (win : Bool) (ps : List (List Byte)) : Prop :=
  ∀ p ∈ ps, ∀ n ∈ names win (parse win p).2, (parse win n).1 = none

instance (win : Bool) (ps : List (List Byte)) : Decidable (NoDrive win ps) := by
  unfold NoDrive; infer_instance

/-- A path with nothing after its last separator. -/
def OpenEnd (win : Bool) (p : List Byte) : Prop :=
  match p.getLast? with
  | none => True
  | some c => Sep win c

instance (win : Bool) (p : List Byte) : Decidable (OpenEnd win p) := by
  unfold OpenEnd; split <;> infer_instance

/-- Nothing left to simplify: no `.`, and `..` only in front, at most once and not after an anchor. -/
def Plainly (ns : List (List Byte)) : Prop := ∀ n ∈ ns, n ≠ [46] ∧ n ≠ [46, 46]

end Verif.Path.Spec
