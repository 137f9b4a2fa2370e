import Verif.TConv.Spec
import Verif.Stream.Spec
/-!
# Text formats — model of rt/io/text/TextFormat.h and rt/io/text/TextFormat.cpp

Detecting the format of a text file, reading text in a given format, and writing it.  Streams are
given by the bytes they deliver: the text converter and the newline filter that the importer and the
exporter are made of are modelled with their buffers elsewhere (`Verif.TConv`, property C04, and
`Verif.Stream`, property C05), where it is proved that what comes out does not depend on how the
bytes are cut into blocks.
-/
namespace Verif.TFmt
open Verif Verif.Enc Verif.TConv

/-- `TextFormat::Encoding`, rt/io/text/TextFormat.h:25-30. -/
inductive Enc where
  | bytes | utf8 | utf16be | utf16le
  deriving DecidableEq, Repr

/-- `TextFormat::NewLine`, rt/io/text/TextFormat.h:31-34. -/
inductive NewLine where
  | lf | crlf
  deriving DecidableEq, Repr

/-- `TextFormat`, rt/io/text/TextFormat.h:23-50. -/
structure Format where
  encoding : Enc := .utf8
  newLine : NewLine := .lf
  bom : Bool := false
  deriving DecidableEq, Repr

/-- `TextFormat::NumBytesForAutodetect`, rt/io/text/TextFormat.h:35. -/
def numBytesForAutodetect : Nat := 4000

/-- `encodingFromEnum`, rt/io/text/TextFormat.cpp:56-69 (the `default` label is not reachable with a
value of the enumeration). -/
def encodingFromEnum : Enc → Encoding
  | .bytes => bytesE
  | .utf8 => utf8E
  | .utf16be => utf16E true
  | .utf16le => utf16E false

/-- `TextFileStats`, rt/io/text/TextFormat.cpp:24-35.  `denom` stands for `ooNumPoints`: the number
whose reciprocal it holds, 0 standing for `0.f`.  `totalPointValue` is left out: nothing reads it.
The counters are `u32` in the code; at most 4003 bytes are counted, so they do not wrap. -/
structure Stats where
  numPoints : Nat := 0
  numValidPoints : Nat := 0
  numLines : Nat := 0
  numCRLF : Nat := 0
  numControl : Nat := 0
  numNull : Nat := 0
  numPlainAscii : Nat := 0
  numWhitespace : Nat := 0
  numExtended : Nat := 0
  denom : Nat := 0
  deriving DecidableEq, Repr

/-- `TextFileStats::numInvalidPoints`, rt/io/text/TextFormat.cpp:37-39. -/
def Stats.numInvalidPoints (s : Stats) : Nat := s.numPoints - s.numValidPoints

/-- `TextFileStats::getNewLineType`, rt/io/text/TextFormat.cpp:40-47.  `none` = assertion failure. -/
def Stats.getNewLineType (s : Stats) : Option NewLine :=
  if ¬ s.numCRLF ≤ s.numLines then none
  else if s.numCRLF = 0 ∨ s.numCRLF * 2 < s.numLines then some .lf
  else some .crlf

/-- The floating-point comparisons of `guessFileEncoding`, whose rounding is not modelled: all
theorems hold for every choice of these functions, or say what they need of them.
`gt a b`: `a.getScore() > b.getScore()` (`getScore`, rt/io/text/TextFormat.cpp:48-53, compared at
line 167); `ge a b`: `a.getScore() >= b.getScore()` (line 173); `tooMany i h`: `i >= h * 0.2f`
(line 145). -/
structure Scoring where
  gt : Stats → Stats → Bool
  ge : Stats → Stats → Bool
  tooMany : Nat → Nat → Bool

/-- What `scanTextFile` adds to the counters for one valid point,
rt/io/text/TextFormat.cpp:85-113. -/
def tallyValid (s : Stats) (p : Nat) (prevWasCR : Bool) : Stats :=
  let s := { s with numValidPoints := s.numValidPoints + 1 }
  if p < 32 then
    if p = 10 then
      { s with numPlainAscii := s.numPlainAscii + 1, numLines := s.numLines + 1,
               numWhitespace := s.numWhitespace + 1,
               numCRLF := if prevWasCR then s.numCRLF + 1 else s.numCRLF }
    else if p = 9 then
      { s with numPlainAscii := s.numPlainAscii + 1, numWhitespace := s.numWhitespace + 1 }
    else if p = 13 then { s with numPlainAscii := s.numPlainAscii + 1 }
    else
      { s with numControl := s.numControl + 1, numNull := if p = 0 then s.numNull + 1 else s.numNull }
  else if p < 127 then
    { s with numPlainAscii := s.numPlainAscii + 1,
             numWhitespace := if p = 32 then s.numWhitespace + 1 else s.numWhitespace }
  else if 65536 ≤ p then { s with numExtended := s.numExtended + 1 }
  else s

/-- The body of the loop of `scanTextFile` after decoding, rt/io/text/TextFormat.cpp:83-114. -/
def tally (s : Stats) (d : DecodeResult) (prevWasCR : Bool) : Stats :=
  let s := { s with numPoints := s.numPoints + 1 }
  if d.status = .valid then tallyValid s d.point.toNat prevWasCR else s

/-- The loop of `scanTextFile`, rt/io/text/TextFormat.cpp:75-116.  The decoder is shown all that is
left: `tryMakeBytesAvailable(4)` makes at least four bytes or the rest of the file available, and no
decoder looks further than four bytes (`GoodDec.four`).  `fuel` bounds the iterations; `none` =
assertion failure (line 80) or no end. -/
def scanLoop (dec : List Byte → DecodeResult) (maxBytes : Nat) :
    Nat → Nat → Bool → Stats → List Byte → Option (Stats × Nat)
  | fuel, numBytes, prevWasCR, s, rest =>
    if maxBytes ≤ numBytes then some (s, numBytes) else
    let d := dec rest
    if d.status = .truncated then some (s, numBytes) else
    if ¬ (0 ≤ d.point ∧ 0 < d.numBytes) then none else
    match fuel with
    | 0 => none
    | fuel + 1 =>
      scanLoop dec maxBytes fuel (numBytes + d.numBytes) (decide (d.point = 13))
        (tally s d prevWasCR) (rest.drop d.numBytes)

/-- `scanTextFile`, rt/io/text/TextFormat.cpp:71-121, on fresh counters: the counters and the number
of bytes scanned. -/
def scanTextFile (enc : Encoding) (data : List Byte) : Option (Stats × Nat) :=
  match scanLoop enc.dec numBytesForAutodetect data.length 0 false {} data with
  | none => none
  | some (s, n) => some ({ s with denom := s.numPoints }, n)

/-- The last part of `guessFileEncoding`, rt/io/text/TextFormat.cpp:164-179: the best of three. -/
def choose (cmp : Scoring) (encoding8 : Enc) (stats8 le be : Stats) : Option Format :=
  let (stats, encoding) := if cmp.gt be le then (be, Enc.utf16be) else (le, Enc.utf16le)
  let (stats, encoding) := if cmp.ge stats8 stats then (stats8, encoding8) else (stats, encoding)
  match stats.getNewLineType with
  | none => none
  | some nl => some ⟨encoding, nl, false⟩

/-- The middle of `guessFileEncoding`, rt/io/text/TextFormat.cpp:140-162: is it bytes rather than
UTF-8?  Then scan for both kinds of UTF-16. -/
def guess16 (cmp : Scoring) (stats8 : Stats) (numBytesRead : Nat) (data : List Byte) :
    Option Format :=
  let numHighBytes := numBytesRead - stats8.numPlainAscii - stats8.numControl
  let asBytes := cmp.tooMany stats8.numInvalidPoints numHighBytes
  let encoding8 := if asBytes then Enc.bytes else Enc.utf8
  let stats8 :=
    if asBytes then { stats8 with numPoints := numBytesRead, numValidPoints := numBytesRead }
    else stats8
  match scanTextFile (utf16E false) data, scanTextFile (utf16E true) data with
  | some (le, _), some (be, _) => choose cmp encoding8 stats8 le be
  | _, _ => none

/-- `guessFileEncoding`, rt/io/text/TextFormat.cpp:123-180.  After each scan the stream is rewound
to the start. -/
def guessFileEncoding (cmp : Scoring) (data : List Byte) : Option Format :=
  match scanTextFile utf8E data with
  | none => none
  | some (stats8, numBytesRead) =>
    if numBytesRead = 0 then some ⟨.utf8, .lf, false⟩
    else if stats8.numInvalidPoints = 0 ∧ stats8.numControl = 0 then
      match stats8.getNewLineType with
      | none => none
      | some nl => some ⟨.utf8, nl, false⟩
    else guess16 cmp stats8 numBytesRead data

/-- `InStream::readByte` at the given offset, rt/io/InStream.h:224-228: 0 at the end of the file. -/
def readByteAt (data : List Byte) (i : Nat) : Byte := data.getD i 0

/-- Which byte order mark the file starts with, rt/io/text/TextFormat.cpp:185-200. -/
def bomOf (data : List Byte) : Option Enc :=
  let h0 := readByteAt data 0
  let h1 := readByteAt data 1
  if h0 = 0xef ∧ h1 = 0xbb then
    if readByteAt data 2 = 0xbf then some .utf8 else none
  else if h0 = 0xfe ∧ h1 = 0xff then some .utf16be
  else if h0 = 0xff ∧ h1 = 0xfe then some .utf16le
  else none

/-- `TextFormat::autodetect`, rt/io/text/TextFormat.cpp:182-213.  `none` = assertion failure. -/
def autodetect (cmp : Scoring) (data : List Byte) : Option Format :=
  match bomOf data with
  | none => guessFileEncoding cmp data
  | some enc =>
    match scanTextFile (encodingFromEnum enc) data with
    | none => none
    | some (stats, _) =>
      match stats.getNewLineType with
      | none => none
      | some nl => some ⟨enc, nl, true⟩

/-- The byte order marks compared with and written at rt/io/text/TextFormat.cpp:230, 236, 242, 277,
284, 293; none for `Bytes`. -/
def bomBytes : Enc → List Byte
  | .bytes => []
  | .utf8 => [0xef, 0xbb, 0xbf]
  | .utf16be => [0xfe, 0xff]
  | .utf16le => [0xff, 0xfe]

/-- Skipping the byte order mark in `createImporter`, rt/io/text/TextFormat.cpp:219-251: without the
expected mark the stream is rewound.  `none` = assertion failure (line 224). -/
def skipBom (f : Format) (data : List Byte) : Option (List Byte) :=
  if f.bom = false then some data
  else if f.encoding = .bytes then none
  else if (bomBytes f.encoding).isPrefixOf data then some (data.drop (bomBytes f.encoding).length)
  else some data

/-- What is left of the data when the decoder finds no more point, see `convertIn`. -/
def leftover (dec : List Byte → DecodeResult) : Nat → List Byte → List Byte
  | 0, text => text
  | fuel + 1, text =>
    if text = [] ∨ (dec text).point < 0 then text
    else leftover dec fuel (text.drop (dec text).numBytes)

/-- Reading everything through an `InPipe_TextConverter` to UTF-8, rt/io/text/TextConverter.cpp:160-187,
207-210, installed at rt/io/text/TextFormat.cpp:258-259: the whole text converted.  A last byte that
cannot be decoded fails an assertion (line 182 there) if it is still in the buffer of the stream when
its end is found (`atEnd`), and is passed over if the converter has taken it before; which of the two
depends on the sizes of the blocks the stream delivers.  `C71_import_pipe` shows that reading block by
block does one or the other. -/
def convertIn (atEnd : Bool) (src : Encoding) (data : List Byte) : Option (List Byte) :=
  if atEnd = true ∧ leftover src.dec data.length data ≠ [] then none
  else some (Spec.converted utf8E src data)

/-- Everything read from `TextFormat::createImporter`, rt/io/text/TextFormat.cpp:217-265; for
`atEnd` see `convertIn`. -/
def importText (atEnd : Bool) (f : Format) (data : List Byte) : Option (List Byte) :=
  match skipBom f data with
  | none => none
  | some data =>
    if f.encoding = .utf8 then some (Stream.Spec.newlines false data)
    else
      match convertIn atEnd (encodingFromEnum f.encoding) data with
      | none => none
      | some text => some (Stream.Spec.newlines false text)

/-- Everything that reaches the underlying stream when `text` is written to
`TextFormat::createExporter` and the exporter is closed, rt/io/text/TextFormat.cpp:267-304.  The
newline filter comes first; no mark is written for `Bytes`. -/
def exportText (f : Format) (text : List Byte) : List Byte :=
  let t := Stream.Spec.newlines (decide (f.newLine = .crlf)) text
  (if f.bom then bomBytes f.encoding else []) ++
    match f.encoding with
    | .bytes => t
    | .utf8 => t
    | .utf16be => Spec.converted (utf16E true) utf8E t
    | .utf16le => Spec.converted (utf16E false) utf8E t

/-- `FileSystem::loadTextAutodetect`, rt/filesystem/FileSystem.cpp:127-134, 157-164, on a file with
the given contents; for `atEnd` see `convertIn`. -/
def loadTextAutodetect (cmp : Scoring) (atEnd : Bool) (data : List Byte) : Option (List Byte × Format) :=
  match autodetect cmp data with
  | none => none
  | some f =>
    match importText atEnd f data with
    | none => none
    | some text => some (text, f)

end Verif.TFmt
