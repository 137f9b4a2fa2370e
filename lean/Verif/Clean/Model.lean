import Verif.Cpp.Model
import Verif.FLoc.Model
import Verif.Str.Model
/-!
# Putting the header of the project on top of a source file

`plytool cleanup`, apps/plytool/plytool/Command_Cleanup.cpp.  Paths are relative to /repo/repos/plywood/src;
`rt/` stands for `runtime/ply-runtime/`, `cpp/` for `cpp/ply-cpp/`.  A missing result (`none`) is a failed
assertion or undefined behaviour.

Not modelled: reading and writing the file (C39, C43, C45), the walk over the folder (C66), and `clang-format`,
which `command_cleanup` does not ask for.
-/
namespace Verif.Clean
open Verif

/-- The loop that looks for the first token that is no comment,
apps/plytool/plytool/Command_Cleanup.cpp:49-53.  `fuel` bounds the number of tokens. -/
def firstCode : (fuel : Nat) → Cpp.PP → Option Cpp.Token
  | 0, _ => none
  | fuel + 1, pp =>
    match Cpp.readToken pp with
    | none => none
    | some (tok, pp') =>
      if tok.type ≠ .lineComment ∧ tok.type ≠ .cStyleComment then some tok else firstCode fuel pp'

/-- The loop that trims the header at the first blank line,
apps/plytool/plytool/Command_Cleanup.cpp:61-69: what is left of it.  `readView<fmt::Line>`
(rt/io/InStream.h:451-457, rt/io/impl/TypeParser.h:122-129) returns what was passed over, with the end of the
line.  `fuel` bounds the number of lines. -/
def trimHeader : (fuel : Nat) → List Byte → List Byte
  | 0, _ => []
  | fuel + 1, header =>
    let rest := Cpp.skipLine header
    let line := header.take (header.length - rest.length)
    if line = [] then []
    else if Str.trim Str.isWhite false true line = [] then []
    else line ++ trimHeader fuel rest

/-- `expandFileLocation`, cpp/ErrorFormatting.cpp:12-22, as `checkFileHeader` uses it: there is one file, no
macro, and one item in `locationMap` that maps the location 0 to the offset 0, so the offset is the location
itself; for a location below 0 there is no item. -/
def bytesIntoLine (contents : List Byte) (loc : Int) : Option Nat :=
  if loc < 0 then none
  else (FLoc.getFileLocation contents (FLoc.fromView contents) loc.toNat).map FLoc.Loc.numBytesIntoLine

/-- `checkFileHeader`, apps/plytool/plytool/Command_Cleanup.cpp:12-75: the text that is written, for the text
`contents` that was read.  `PP.init` is lines 18-44.  `tok.identifier` (line 58) is not set at the end of the
file; elsewhere it starts at the byte that `tok.linearLoc` stands for. -/
def checkFileHeader (desiredHeader contents : List Byte) : Option (List Byte) :=
  match firstCode (contents.length + 1) (Cpp.PP.init [] contents) with
  | none => none
  | some tok =>
    if tok.type = .endOfFile then none
    else
      match bytesIntoLine contents tok.loc with
      | none => none
      | some n =>
        let existing := contents.take (tok.loc.toNat - n)
        let kept := trimHeader (existing.length + 1) existing
        some (desiredHeader ++ contents.drop kept.length)

/-- `desiredHeader`, apps/plytool/plytool/Command_Cleanup.cpp:102-106. -/
def plywoodHeader : List Byte :=
  ("/*------------------------------------\n  ///\\  Plywood C++ Framework\n  \\\\\\/  https://plywood.arc80.com/\n------------------------------------*/\n").toList.map
    fun c => UInt8.ofNat c.toNat

end Verif.Clean
