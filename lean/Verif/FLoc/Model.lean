import Verif.Enc.Model
/-!
# File location map (rt/io/text/FileLocationMap.h, rt/io/text/FileLocationMap.cpp)

Offsets are natural numbers: views of fewer than 2^32 - 256 bytes are assumed.  The view's address is
left out: pointers into it are offsets.  A failed assertion or a read outside the table is `none`.
-/
namespace Verif.FLoc
open Verif

/-- `FileLocation` (rt/io/text/FileLocationMap.h:12-23). -/
structure Loc where
  lineNumber : Nat
  numBytesIntoLine : Nat
  columnNumber : Nat
  numBytesIntoColumn : Nat
deriving DecidableEq, Repr

/-- The constructor (rt/io/text/FileLocationMap.h:19-22): the column is a field of 28 bits, the bytes into
the column one of 4. -/
def Loc.mk' (line intoLine col intoCol : Nat) : Loc := ⟨line, intoLine, col % 2 ^ 28, intoCol % 2 ^ 4⟩

/-- Line, column and offset of the start of the line, while scanning. -/
structure Cur where
  line : Nat
  col : Nat
  lineStart : Nat
deriving DecidableEq, Repr

/-- What a character does to line and column (rt/io/text/FileLocationMap.cpp:35-45, 71-81); `ofs` is the
offset after it. -/
def Cur.advance (c : Cur) (point : Int) (ofs : Nat) : Cur :=
  if point = 10 then ⟨c.line + 1, 1, ofs⟩
  else if point = 9 then { c with col := c.col + (4 - c.col % 4) }
  else if point = 13 then c
  else { c with col := c.col + 1 }

/-- The loop of `FileLocationMap::fromView` (rt/io/text/FileLocationMap.cpp:22-46).  Every round takes at
least one byte, so `fuel = src.length` is enough.  `ofs - 256` is a `u32` subtraction. -/
def build : Nat → List Byte → Cur → Nat → Nat → List Loc → List Loc
  | 0, _, _, _, _, table => table
  | fuel + 1, src, c, ofs, nextChunk, table =>
    if src.length = 0 then table
    else
      let decoded := Enc.decodeUTF8 src
      let nextOfs := ofs + decoded.numBytes
      let table' := if nextOfs > nextChunk then
          table ++ [Loc.mk' c.line (nextChunk - c.lineStart) c.col (u32 (ofs + 2 ^ 32 - 256))]
        else table
      let nextChunk' := if nextOfs > nextChunk then nextChunk + 256 else nextChunk
      build fuel (src.drop decoded.numBytes) (c.advance decoded.point nextOfs) nextOfs nextChunk' table'

/-- `FileLocationMap::fromView` (rt/io/text/FileLocationMap.cpp:12-48): the table. -/
def fromView (src : List Byte) : List Loc :=
  build src.length src ⟨1, 1, 0⟩ 0 256 [Loc.mk' 1 0 1 0]

/-- The loop of `FileLocationMap::getFileLocation` (rt/io/text/FileLocationMap.cpp:60-82); `pos` is
`src.bytes`. -/
def scan (view : List Byte) (target : Nat) : Nat → Nat → Cur → Option Loc
  | 0, _, _ => none
  | fuel + 1, pos, c =>
    if pos ≥ target then
      if pos ≤ target ∧ c.lineStart ≤ target then
        some (Loc.mk' c.line (target - c.lineStart) c.col (target - pos))
      else none
    else
      let decoded := Enc.decodeUTF8 (view.drop pos)
      let pos' := pos + decoded.numBytes
      scan view target fuel pos' (c.advance decoded.point pos')

/-- `FileLocationMap::getFileLocation` (rt/io/text/FileLocationMap.cpp:50-83). -/
def getFileLocation (view : List Byte) (table : List Loc) (offset : Nat) : Option Loc :=
  if offset ≤ view.length then
    match table[offset / 256]? with
    | none => none
    | some l =>
      let chunkOfs := offset / 256 * 256
      if l.numBytesIntoLine ≤ chunkOfs ∧ l.numBytesIntoColumn ≤ chunkOfs then
        scan view offset (offset + 1) (chunkOfs - l.numBytesIntoColumn)
          ⟨l.lineNumber, l.columnNumber, chunkOfs - l.numBytesIntoLine⟩
      else none
  else none

end Verif.FLoc
