import Verif.Enc.Model
import Verif.Num.Model
import Verif.Str.Model
/-!
# Escaping printers and their readers — model

rt/io/impl/FormatString.cpp, rt/io/impl/TypeParser.cpp, web/common/web-common/URLEscape.cpp,
web/common/web-common/OutPipe_HTTPChunked.cpp.

Output streams are the list of bytes written, input streams the list of bytes still to be read
(see C25/C26 for the streams themselves).
-/
namespace Verif.Esc
open Verif Verif.Enc

/-- The loop shared by the `EscapedString` and `XMLEscape` printers,
rt/io/impl/FormatString.cpp:210-254 and 258-292: decode a point, write `emit point bytes`, step over
its bytes; after `maxPoints` points (if positive) write `...` and stop.  `none`: no progress within
`fuel` steps. -/
def escapeLoop (emit : Int → List Byte → List Byte) (maxPoints : Nat) :
    (fuel : Nat) → (points : Nat) → List Byte → Option (List Byte)
  | _, _, [] => some []
  | 0, _, _ :: _ => none
  | fuel + 1, points, b :: bs =>
    if maxPoints > 0 ∧ points ≥ maxPoints then some [46, 46, 46]
    else
      let decoded := decodeUTF8 (b :: bs)
      match escapeLoop emit maxPoints fuel (points + 1) ((b :: bs).drop decoded.numBytes) with
      | none => none
      | some out => some (emit decoded.point ((b :: bs).take decoded.numBytes) ++ out)

/-- The hex digit table of line 245, rt/io/impl/FormatString.cpp. -/
def hexDigit (n : Nat) : Byte := if n < 10 then UInt8.ofNat (48 + n) else UInt8.ofNat (87 + n)

/-- What the `EscapedString` printer writes for one decoded point,
rt/io/impl/FormatString.cpp:218-251. -/
def emitEscaped (point : Int) (bytes : List Byte) : List Byte :=
  if point = 34 then [92, 34]
  else if point = 92 then [92, 92]
  else if point = 13 then [92, 114]
  else if point = 10 then [92, 110]
  else if point = 9 then [92, 116]
  else if point ≥ 32 then bytes
  else [92, hexDigit (point.toNat / 16 % 16), hexDigit (point.toNat % 16)]

/-- `TypePrinter<EscapedString>::print`, rt/io/impl/FormatString.cpp:208-255. -/
def escapeString (maxPoints : Nat) (s : List Byte) : Option (List Byte) :=
  escapeLoop emitEscaped maxPoints s.length 0 s

/-- What the `XMLEscape` printer writes for one decoded point,
rt/io/impl/FormatString.cpp:266-289: `&lt;`, `&gt;`, `&quot;`, `&amp;` or the bytes themselves. -/
def emitXML (point : Int) (bytes : List Byte) : List Byte :=
  if point = 60 then [38, 108, 116, 59]
  else if point = 62 then [38, 103, 116, 59]
  else if point = 34 then [38, 113, 117, 111, 116, 59]
  else if point = 38 then [38, 97, 109, 112, 59]
  else bytes

/-- `TypePrinter<XMLEscape>::print`, rt/io/impl/FormatString.cpp:257-293. -/
def xmlEscape (maxPoints : Nat) (s : List Byte) : Option (List Byte) :=
  escapeLoop emitXML maxPoints s.length 0 s

/-- The quoting loop of `TypePrinter<CmdLineArg_WinCrt>::print`,
rt/io/impl/FormatString.cpp:308-324, with loop variable `backslashCount`. -/
def winLoop : (backslashCount : Nat) → List Byte → List Byte
  | _, [] => []
  | n, c :: cs =>
    if c = 92 then winLoop (n + 1) cs
    else if c = 34 then List.replicate (2 * n) 92 ++ ([92, 34] ++ winLoop 0 cs)
    else List.replicate n 92 ++ (c :: winLoop 0 cs)

/-- `TypePrinter<CmdLineArg_WinCrt>::print`, rt/io/impl/FormatString.cpp:295-329. -/
def winQuote (arg : List Byte) : List Byte :=
  if arg.any (fun c => Str.isWhite c || c == 34) then 34 :: (winLoop 0 arg ++ [34]) else arg

/-- Is `c` printed unchanged by the URL escaper, web/common/web-common/URLEscape.cpp:14. -/
def urlPlain (c : Byte) : Bool :=
  Str.isAsciiLetter c || Str.isDecimalDigit c || c == 45 || c == 95 || c == 46 || c == 126

/-- `TypePrinter<web::URLEscape>::print`, web/common/web-common/URLEscape.cpp:10-21: a byte is
printed as is, or as `%` and the last two bytes of the upper-cased string `"0" + hex(c)`. -/
def urlEscape : List Byte → Option (List Byte)
  | [] => some []
  | c :: cs =>
    match urlEscape cs with
    | none => none
    | some out =>
      if urlPlain c then some (c :: out)
      else match Num.printU64 c.toNat 16 false with
        | none => none
        | some h =>
          let s := Str.upperAsc (48 :: h)
          some (37 :: (s.drop (s.length - 2) ++ out))

/-- One call of `OutPipe_HTTPChunked_write`, web/common/web-common/OutPipe_HTTPChunked.cpp:18-29.
`none` = assertion failure (empty write in chunk mode). -/
def chunkWrite (chunkMode : Bool) (srcBuf : List Byte) : Option (List Byte) :=
  if chunkMode then
    if srcBuf.length > 0 then
      match Num.printU64 srcBuf.length 16 true with
      | none => none
      | some h => some (h ++ [13, 10] ++ srcBuf ++ [13, 10])
    else none
  else some srcBuf

/-- A handler's whole response body: any sequence of writes followed by the destructor
`OutPipe_HTTPChunked_destroy`, web/common/web-common/OutPipe_HTTPChunked.cpp:11-16, which
writes `0 CRLF CRLF` (whatever the mode). -/
def chunkResponse (chunkMode : Bool) : List (List Byte) → Option (List Byte)
  | [] => some [48, 13, 10, 13, 10]
  | w :: ws =>
    match chunkWrite chunkMode w, chunkResponse chunkMode ws with
    | some a, some b => some (a ++ b)
    | _, _ => none

/-- `OutStream::formatInternal`, rt/io/impl/FormatString.cpp:109-145.  `args` are the texts printed
by the argument formatters in order; `none` = one of the assertions (bad format string, too few or
too many arguments). -/
def format : List Byte → List (List Byte) → Option (List Byte)
  | [], [] => some []
  | [], _ :: _ => none
  | c :: rest, args =>
    if c = 123 then
      match rest with
      | [] => none
      | d :: rest' =>
        if d = 123 then (format rest' args).map (123 :: ·)
        else if d = 125 then
          match args with
          | [] => none
          | a :: args' => (format rest' args').map (a ++ ·)
        else none
    else if c = 125 then
      match rest with
      | [] => none
      | d :: rest' => if d = 125 then (format rest' args).map (125 :: ·) else none
    else (format rest args).map (c :: ·)

/-- Error codes of the quoted string reader, rt/io/impl/TypeParser.h:93-99. -/
inductive QErr where
  | noOpeningQuote | unexpectedEndOfLine | unexpectedEndOfFile | badEscapeSequence
  deriving DecidableEq, Repr

/-- Result of reading a quoted string: text, errors reported (in order), unread input. -/
structure QResult where
  text : List Byte
  errors : List QErr
  rest : List Byte
  deriving DecidableEq, Repr

/-- Prepend bytes to the text of a result. -/
def QResult.push (bs : List Byte) (r : QResult) : QResult := { r with text := bs ++ r.text }

/-- Prepend an error to a result. -/
def QResult.err (e : QErr) (r : QResult) : QResult := { r with errors := e :: r.errors }

/-- Meaning of the character after a backslash in the quoted string reader,
rt/io/impl/TypeParser.cpp:329-349 (`none` = default case). -/
def unescape (code : Byte) : Option Byte :=
  if code = 92 ∨ code = 39 ∨ code = 34 then some code
  else if code = 114 then some 13
  else if code = 110 then some 10
  else if code = 116 then some 9
  else none

/-- The loop of `FormatParser<QuotedString>::parse`, rt/io/impl/TypeParser.cpp:260-370, with loop
variables `quoteRun` and `multiline`. -/
def quotedLoop (quoteType : Byte) : (quoteRun : Nat) → (multiline : Bool) → List Byte → QResult
  | _, _, [] => ⟨[], [.unexpectedEndOfFile], []⟩
  | quoteRun, multiline, nextByte :: rest =>
    if nextByte = quoteType then
      if quoteRun = 0 then
        if multiline then quotedLoop quoteType 1 multiline rest else ⟨[], [], rest⟩
      else if quoteRun + 1 = 3 then
        if multiline then ⟨[], [], rest⟩ else quotedLoop quoteType 0 true rest
      else quotedLoop quoteType (quoteRun + 1) multiline rest
    else if quoteRun > 0 ∧ multiline = false ∧ quoteRun = 2 then ⟨[], [], nextByte :: rest⟩
    else
      let held := if multiline then List.replicate quoteRun quoteType else []
      QResult.push held <|
        if nextByte = 13 ∨ nextByte = 10 then
          if multiline then
            QResult.push (if nextByte = 10 then [nextByte] else []) (quotedLoop quoteType 0 multiline rest)
          else ⟨[], [.unexpectedEndOfLine], nextByte :: rest⟩
        else if nextByte = 92 then
          match rest with
          | [] => ⟨[], [.unexpectedEndOfFile], []⟩
          | code :: rest' =>
            if code = 13 ∨ code = 10 then ⟨[], [.unexpectedEndOfLine], code :: rest'⟩
            else match unescape code with
              | some b => QResult.push [b] (quotedLoop quoteType 0 multiline rest')
              | none => QResult.err .badEscapeSequence (quotedLoop quoteType 0 multiline rest')
        else QResult.push [nextByte] (quotedLoop quoteType 0 multiline rest)

/-- `FormatParser<QuotedString>::parse`, rt/io/impl/TypeParser.cpp:233-374.  `allowSingle` is the
flag `AllowSingleQuote`; the other flags are not looked at by the code. -/
def readQuoted (allowSingle : Bool) : List Byte → QResult
  | [] => ⟨[], [.unexpectedEndOfFile], []⟩
  | q :: rest =>
    if q = 34 ∨ (allowSingle ∧ q = 39) then quotedLoop q 1 false rest
    else ⟨[], [.noOpeningQuote], q :: rest⟩

/-- The loop of `scanUpToAndIncludingSpecial`, rt/io/impl/TypeParser.cpp:63-79; `some rest` = found,
`rest` is unread; `none` = input exhausted, parse error.  `special[matched]` is always in range
because `matched < special.length` is maintained; the model uses an optional lookup. -/
def scanLoop (special : List Byte) : (matched : Nat) → List Byte → Option (List Byte)
  | _, [] => none
  | matched, c :: cs =>
    if special[matched]? = some c then
      if matched + 1 ≥ special.length then some cs else scanLoop special (matched + 1) cs
    else scanLoop special 0 cs

/-- Outcome of a scan: assertion on the terminator, not found, or found. -/
inductive ScanResult where
  | assertFailed
  | notFound
  | found (rest : List Byte)
  deriving DecidableEq, Repr

/-- `scanUpToAndIncludingSpecial`, rt/io/impl/TypeParser.cpp:60-80. -/
def scanSpecial (special input : List Byte) : ScanResult :=
  match special with
  | [] => .assertFailed
  | a :: as =>
    if a ∈ as then .assertFailed
    else match scanLoop special 0 input with
      | none => .notFound
      | some rest => .found rest

/-- The byte class of `FormatParser<Identifier>`, rt/io/impl/TypeParser.cpp:377-383 and the change
of line 392: bit masks spelled out (letters, `_`, bytes ≥ 128; digits after the first unit; `$` and
`-` by flag).  `first` is the loop variable. -/
def identByte (dollar dash first : Bool) (c : Byte) : Bool :=
  Str.isAsciiLetter c || c == 95 || decide (128 ≤ c.toNat) || (dollar && c == 36) ||
    (dash && c == 45) || (!first && Str.isDecimalDigit c)

/-- The loop of `FormatParser<Identifier>::parse`, rt/io/impl/TypeParser.cpp:385-396: remaining
input and whether no byte was consumed. -/
def identLoop (dollar dash : Bool) : (first : Bool) → List Byte → List Byte × Bool
  | first, [] => ([], first)
  | first, c :: cs =>
    if identByte dollar dash first c then identLoop dollar dash false cs else (c :: cs, first)

/-- `FormatParser<Identifier>::parse`, rt/io/impl/TypeParser.cpp:376-403.  The success test
`mask[1] == 0` is true only if no digit bits were added *and* no flag bits were set. -/
def parseIdentifier (dollar dash : Bool) (input : List Byte) : Bool × List Byte :=
  let (rest, first) := identLoop dollar dash true input
  let maskOneIsZero := first && !dollar && !dash
  (!maskOneIsZero, rest)

/-- `scanUsingMask` with `WhitespaceMask`, rt/io/impl/TypeParser.cpp:33-48 (mask bits 9, 10, 13 of
word 0 and bit 0 of word 1: tab, LF, CR, space).  `invert = false` skips whitespace
(`FormatParser<Whitespace>`), `invert = true` skips non-whitespace. -/
def scanWhite (invert : Bool) : List Byte → List Byte
  | [] => []
  | c :: cs => if (Str.isWhite c) == invert then c :: cs else scanWhite invert cs

end Verif.Esc
