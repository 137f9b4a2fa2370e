import Verif.Basic
import Verif.Str.Model
/-!
# Paths (rt/filesystem/Path.h, rt/filesystem/Path.cpp)

Paths are byte strings shorter than 2^31 bytes, so that the `s32` positions do not wrap.  A fault
(`none`) is a failing assertion or a read outside a view.  `win` is `PathFormat::isWindows`.
Output through `MemOutStream` is the list of bytes written (see `Verif.Stream` for the stream).
-/
namespace Verif.Path
open Verif

/-- `'.'`. -/
abbrev dot : Byte := 46
/-- `".."`. -/
abbrev dotdot : List Byte := [46, 46]

/-- `PathFormat::isSepByte` (rt/filesystem/Path.h:32-34). -/
def isSep (win : Bool) (c : Byte) : Bool := c == 47 || (win && c == 92)

/-- `PathFormat::sepByte` (rt/filesystem/Path.h:35-37). -/
def sepByte (win : Bool) : Byte := if win then 92 else 47

/-- `PathFormat::hasDriveLetter` (rt/filesystem/Path.h:38-42). -/
def hasDriveLetter (win : Bool) (path : List Byte) : Bool :=
  if !win then false
  else
    match path with
    | c :: d :: _ => Str.isAsciiLetter c && d == 58
    | _ => false

/-- `PathFormat::getDriveLetter` (rt/filesystem/Path.h:43-45). -/
def getDriveLetter (win : Bool) (path : List Byte) : List Byte :=
  if hasDriveLetter win path then path.take 2 else []

/-- `PathFormat::isAbsolute` (rt/filesystem/Path.h:46-52). -/
def isAbsolute (win : Bool) (path : List Byte) : Bool :=
  if win then
    match path with
    | _ :: _ :: c :: _ => hasDriveLetter win path && isSep win c
    | _ => false
  else
    match path with
    | c :: _ => isSep win c
    | [] => false

/-- `PathFormat::isRelative` (rt/filesystem/Path.h:53-55). -/
def isRelative (win : Bool) (path : List Byte) : Bool :=
  match path with
  | [] => false
  | c :: _ => !hasDriveLetter win path && !isSep win c

/-- `PathFormat::split` (rt/filesystem/Path.cpp:15-27).  The second search starts at the last
separator. -/
def split (win : Bool) (path : List Byte) : Option (List Byte × List Byte) :=
  match Str.rfindByte (isSep win) path with
  | none => none
  | some (.ofNat lastSep) =>
    match Str.rfindLoop (fun c => !isSep win c) path (lastSep + 1) with
    | none => none
    | some p =>
      let prefixLen := (p + 1).toNat
      let prefixLen :=
        if path.take prefixLen = getDriveLetter win path then prefixLen + 1 else prefixLen
      some (path.take prefixLen, path.drop (lastSep + 1))
  | some (.negSucc _) => some ([], path)

/-- The loop of `splitFull` (rt/filesystem/Path.cpp:53-70).  `fuel` bounds the rounds (the model's own
device); out of fuel is a fault. -/
def splitFullLoop (win : Bool) : Nat → List Byte → Option (List (List Byte))
  | 0, _ => none
  | _, [] => none
  | fuel + 1, c :: cs =>
    if isSep win c then none
    else
      let path := c :: cs
      match Str.findByte (isSep win) 0 path with
      | .negSucc _ => some [path]
      | .ofNat sepPos =>
        let rest := path.drop sepPos
        match Str.findByte (fun c => !isSep win c) 0 rest with
        | .negSucc _ => some [path.take sepPos, []]
        | .ofNat nonSepPos =>
          (splitFullLoop win fuel (rest.drop nonSepPos)).map (path.take sepPos :: ·)

/-- The start of `splitFull` (rt/filesystem/Path.cpp:31-51): the root or drive and what is left. -/
def splitHead (win : Bool) (path : List Byte) : List (List Byte) × List Byte :=
  if hasDriveLetter win path then
    if isAbsolute win path then ([path.take 3], (path.drop 3).dropWhile (isSep win))
    else ([path.take 2], path.drop 2)
  else
    match path with
    | [] => ([], [])
    | c :: cs => if isSep win c then ([[c]], cs.dropWhile (isSep win)) else ([], c :: cs)

/-- `PathFormat::splitFull` (rt/filesystem/Path.cpp:29-73). -/
def splitFull (win : Bool) (path : List Byte) : Option (List (List Byte)) :=
  if (splitHead win path).2 = [] then some (splitHead win path).1
  else (splitFullLoop win ((splitHead win path).2.length + 1) (splitHead win path).2).map
    ((splitHead win path).1 ++ ·)

/-- `PathFormat::splitExt` (rt/filesystem/Path.cpp:75-86). -/
def splitExt (win : Bool) (path : List Byte) : Option (List Byte × List Byte) :=
  match Str.rfindByte (isSep win) path with
  | none => none
  | some slashPos =>
    let lastComp :=
      match slashPos with
      | .ofNat i => path.drop (i + 1)
      | .negSucc _ => path
    match Str.rfindByte (fun c => c == dot) lastComp with
    | none => none
    | some dotPos =>
      let dotPos :=
        match dotPos with
        | .ofNat (i + 1) => i + 1
        | _ => lastComp.length
      some (path.take (path.length - (lastComp.length - dotPos)), lastComp.drop dotPos)

/-- The loop over one path argument (rt/filesystem/Path.cpp:136-148): the maximal runs of
non-separators.  `fuel` bounds the rounds. -/
def compLoop (win : Bool) (comp : List Byte) : Nat → Int → List (List Byte)
  | 0, _ => []
  | _, .negSucc _ => []
  | fuel + 1, .ofNat nonSep =>
    match Str.findByte (isSep win) (nonSep + 1) comp with
    | .negSucc _ => [comp.drop nonSep]
    | .ofNat sep =>
      (comp.drop nonSep).take (sep - nonSep) ::
        compLoop win comp fuel (Str.findByte (fun c => !isSep win c) (sep + 1) comp)

/-- rt/filesystem/Path.cpp:136-148. -/
def compsOf (win : Bool) (comp : List Byte) : List (List Byte) :=
  compLoop win comp (comp.length + 1) (Str.findByte (fun c => !isSep win c) 0 comp)

/-- The backward scan (rt/filesystem/Path.cpp:94-104) over the arguments before position `i`; gives
`absoluteIndex` and `driveLetterIndex`. -/
def scanBack (win : Bool) (comps : List (List Byte)) :
    Nat → Option Nat → Option Nat × Option Nat
  | 0, absIdx => (absIdx, none)
  | i + 1, absIdx =>
    match comps[i]? with
    | none => (absIdx, none)
    | some c =>
      let absIdx := if absIdx = none ∧ isAbsolute win c = true then some i else absIdx
      if hasDriveLetter win c then (absIdx, some i) else scanBack win comps i absIdx

/-- The arguments from position `i` on (rt/filesystem/Path.cpp:130-149). -/
def restComps (win : Bool) (driveIdx : Option Nat) : Nat → List (List Byte) → List (List Byte)
  | _, [] => []
  | i, c :: cs =>
    compsOf win (if some i = driveIdx then c.drop 2 else c) ++ restComps win driveIdx (i + 1) cs

/-- `PathCompIterator::iterateOver` (rt/filesystem/Path.cpp:91-150): the strings passed to the
callback. -/
def iterateOver (win : Bool) (comps : List (List Byte)) : Option (List (List Byte)) :=
  match scanBack win comps comps.length none with
  | (absIdx, some d) =>
    match comps[d]? with
    | none => none
    | some comp =>
      match comp with
      | [] => none
      | letter :: _ =>
        match absIdx with
        | some a =>
          if a ≥ d then
            some ([letter, 58, sepByte win] :: restComps win (some d) a (comps.drop a))
          else none
        | none => some ([letter, 58] :: restComps win (some d) d (comps.drop d))
  | (some a, none) => some ([sepByte win] :: restComps win none a (comps.drop a))
  | (none, none) => some (restComps win none 0 comps)

/-- The callback of `getNormalizedComps` (rt/filesystem/Path.cpp:158-167); `upCount` stays 0. -/
def normStep (upCount : Nat) (norm : List (List Byte)) (comp : List Byte) :
    Option (List (List Byte)) :=
  if comp = dotdot then
    if norm.length > upCount then some norm.dropLast
    else if norm.length = upCount then some (norm ++ [dotdot])
    else none
  else if comp ≠ [dot] ∧ comp ≠ [] then some (norm ++ [comp])
  else some norm

/-- The callbacks one after another. -/
def normLoop : List (List Byte) → List (List Byte) → Option (List (List Byte))
  | norm, [] => some norm
  | norm, c :: cs =>
    match normStep 0 norm c with
    | none => none
    | some norm => normLoop norm cs

/-- `PathCompIterator::getNormalizedComps` (rt/filesystem/Path.cpp:153-170). -/
def normComps (win : Bool) (comps : List (List Byte)) : Option (List (List Byte)) :=
  (iterateOver win comps).bind (normLoop [])

/-- Whether the last byte is no separator (rt/filesystem/Path.cpp:190, 243). -/
def wantsSep (win : Bool) (comp : List Byte) : Bool :=
  match comp.getLast? with
  | some c => !isSep win c
  | none => false

/-- The output loop of `joinAndNormalize` (rt/filesystem/Path.cpp:184-194); gives `needSep` too. -/
def writeLoop (win : Bool) : Bool → List (List Byte) → List Byte × Bool
  | needSep, [] => ([], needSep)
  | true, c :: cs =>
    let r := writeLoop win true cs
    (sepByte win :: (c ++ r.1), r.2)
  | false, c :: cs =>
    let r := writeLoop win (wantsSep win c) cs
    (c ++ r.1, r.2)

/-- `PathFormat::joinAndNormalize` (rt/filesystem/Path.cpp:173-200). -/
def joinAndNormalize (win : Bool) (comps : List (List Byte)) : Option (List Byte) :=
  match normComps win comps with
  | none => none
  | some [] =>
    if comps.getLast? = some [] then some [dot, sepByte win] else some [dot]
  | some (n :: ns) =>
    match comps.getLast? with
    | none => none
    | some last =>
      let r := writeLoop win false (n :: ns)
      if (last = [] ∨ (last.getLast?.map (isSep win)) = some true) ∧ r.2 = true then
        some (r.1 ++ [sepByte win])
      else some r.1

/-- The number of matching components (rt/filesystem/Path.cpp:215-220). -/
def matching : List (List Byte) → List (List Byte) → Nat
  | a :: as, b :: bs => if a ≠ b then 0 else matching as bs + 1
  | _, _ => 0

/-- The loop writing `..` (rt/filesystem/Path.cpp:231-237). -/
def upLoop (win : Bool) : Nat → Bool → List Byte × Bool
  | 0, needSep => ([], needSep)
  | n + 1, needSep =>
    let r := upLoop win n true
    ((if needSep then [sepByte win] else []) ++ dotdot ++ r.1, r.2)

/-- The loop writing the rest of the descendant (rt/filesystem/Path.cpp:238-244).  `back()` of an
empty component is a fault. -/
def downLoop (win : Bool) : Bool → List (List Byte) → Option (List Byte × Bool)
  | needSep, [] => some ([], needSep)
  | needSep, c :: cs =>
    match c.getLast? with
    | none => none
    | some l =>
      (downLoop win (!isSep win l) cs).map fun r =>
        ((if needSep then [sepByte win] else []) ++ c ++ r.1, r.2)

/-- `PathFormat::makeRelative` (rt/filesystem/Path.cpp:202-258). -/
def makeRelative (win : Bool) (anc desc : List Byte) : Option (List Byte) :=
  if isAbsolute win anc = isAbsolute win desc then
    match normComps win [anc], normComps win [desc] with
    | some a, some d =>
      let mc := matching a d
      let upFolders := if !isAbsolute win anc || mc > 0 then a.length - mc else 0
      let r1 := upLoop win upFolders false
      match downLoop win r1.2 (d.drop mc) with
      | none => none
      | some r2 =>
        let out := r1.1 ++ r2.1
        let r3 : List Byte × Bool := if out.length = 0 then ([dot], true) else (out, r2.2)
        if desc.getLast?.map (isSep win) = some true ∧ r3.2 = true then
          some (r3.1 ++ [sepByte win])
        else some r3.1
    | _, _ => none
  else none

/-- `PathFormat::from` (rt/filesystem/Path.cpp:260-271). -/
def convert (win srcWin : Bool) (path : List Byte) : List Byte :=
  if win = srcWin then path
  else path.map fun c => if isSep srcWin c then sepByte win else c

/-- `PathFormat::endsWithSep` (rt/filesystem/Path.h:78-80). -/
def endsWithSep (win : Bool) (path : List Byte) : Bool :=
  match path.getLast? with
  | some c => isSep win c
  | none => false

end Verif.Path
