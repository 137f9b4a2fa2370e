import Verif.Basic
import Verif.Num.Model

/-!
# The Crowbar tokenizer

Paths are relative to /repo/repos/plywood/src; `cb/` is `crowbar/ply-crowbar/`.

The input is a `List Byte`.  A token's label is represented by the text it was made from (two labels are equal
exactly when their texts are, see the `Label` area), so a token that carries no label has no counterpart of it
here and `token.label == ifKey` becomes "an identifier spelled `if`".
-/

namespace Verif.Crowbar

/-- `TokenType`, cb/Tokenizer.h:13-60. -/
inductive TokTy
  | invalid | endOfFile | newLine | lineComment | cStyleComment
  | identifier | numericLiteral | beginString | stringLiteral | beginStringEmbed | endString
  | openCurly | closeCurly | openParen | closeParen | openSquare | closeSquare
  | colon | semicolon | dot | comma
  | equal | slashEqual | lessThan | lessThanOrEqual | greaterThan | greaterThanOrEqual | doubleEqual
  | plus | minus | asterisk | slash | percent | bang | tilde
  | verticalBar | doubleVerticalBar | ampersand | doubleAmpersand
  deriving DecidableEq, Repr

/-- `ExpandedToken`, cb/Tokenizer.h:65-73, without `tokenIdx` (the place in the compact store, see
`ModelStore`); `text` also stands for the label. -/
structure Tok where
  ty : TokTy
  off : Nat
  text : List Byte
  deriving DecidableEq, Repr

/-- The first byte of an identifier, cb/Tokenizer.cpp:288 (`char` is signed: `c < 0` is a byte of at least
128). -/
def isIdStart (c : Byte) : Bool :=
  decide (128 ≤ c) || (decide (97 ≤ c) && decide (c ≤ 122)) || (decide (65 ≤ c) && decide (c ≤ 90)) || c == 95

/-- cb/Tokenizer.cpp:204, 292. -/
def isDig (c : Byte) : Bool := decide (48 ≤ c) && decide (c ≤ 57)

/-- A later byte of an identifier, cb/Tokenizer.cpp:184-185. -/
def isIdChar (c : Byte) : Bool := isIdStart c || isDig c

/-- White space other than the end of the line, cb/Tokenizer.cpp:308-313. -/
def isBlank (c : Byte) : Bool := c == 13 || c == 9 || c == 32

/-- `skipLineComment`, cb/Tokenizer.cpp:153-161, after the second slash. -/
def skipLine : List Byte → List Byte
  | [] => []
  | c :: r => if c = 10 then c :: r else skipLine r

/-- `skipCStyleComment`, cb/Tokenizer.cpp:163-176, after the opening asterisk. -/
def skipC : List Byte → List Byte
  | [] => []
  | c :: r =>
    if c = 42 then
      match r with
      | [] => []
      | d :: r' => if d = 47 then r' else skipC r
    else skipC r

/-- The type of a token of one byte, the cases of the `switch` in cb/Tokenizer.cpp:297-477 that look no
further.  Square brackets and the colon have token types, but no case. -/
def punct (c : Byte) : TokTy :=
  if c = 59 then .semicolon else if c = 34 then .beginString else if c = 37 then .percent
  else if c = 33 then .bang else if c = 126 then .tilde else if c = 123 then .openCurly
  else if c = 125 then .closeCurly else if c = 40 then .openParen else if c = 41 then .closeParen
  else if c = 46 then .dot else if c = 44 then .comma else if c = 43 then .plus
  else if c = 45 then .minus else if c = 42 then .asterisk else .invalid

/-- The cases of cb/Tokenizer.cpp:413-471 that look one byte ahead: for the first byte the expected second
byte, the type of both together and the type of the first alone. -/
def twoByte (c : Byte) : Option (Byte × TokTy × TokTy) :=
  if c = 61 then some (61, .doubleEqual, .equal)
  else if c = 60 then some (61, .lessThanOrEqual, .lessThan)
  else if c = 62 then some (61, .greaterThanOrEqual, .greaterThan)
  else if c = 124 then some (124, .doubleVerticalBar, .verticalBar)
  else if c = 38 then some (38, .doubleAmpersand, .ampersand)
  else none

/-- The loop of `Tokenizer::readToken` outside strings, cb/Tokenizer.cpp:272-484: the token and what is left
of the input.  `total` is the length of the whole input, so that `total - src.length` is the file offset
(line 280).  Every turn of the loop consumes a byte; `fuel` counts turns. -/
def lexF (total : Nat) (nl : Bool) : (fuel : Nat) → List Byte → Tok × List Byte
  | 0, src => (⟨.endOfFile, total, []⟩, src)
  | _ + 1, [] => (⟨.endOfFile, total, []⟩, [])
  | fuel + 1, c :: r =>
    let off := total - (r.length + 1)
    if isIdStart c then (⟨.identifier, off, c :: r.takeWhile isIdChar⟩, r.dropWhile isIdChar)
    else if isDig c then (⟨.numericLiteral, off, c :: r.takeWhile isDig⟩, r.dropWhile isDig)
    else if c = 10 then
      if nl then (⟨.newLine, off, [c]⟩, r) else lexF total nl fuel r
    else if isBlank c then lexF total nl fuel (r.dropWhile isBlank)
    else if c = 47 then
      match r with
      | [] => (⟨.slash, off, [c]⟩, r)
      | d :: r' =>
        if d = 47 then lexF total nl fuel (skipLine r')
        else if d = 42 then lexF total nl fuel (skipC r')
        else if d = 61 then (⟨.slashEqual, off, [c, d]⟩, r')
        else (⟨.slash, off, [c]⟩, r)
    else
      match twoByte c with
      | some (second, both, single) =>
        match r with
        | [] => (⟨single, off, [c]⟩, r)
        | d :: r' => if d = second then (⟨both, off, [c, d]⟩, r') else (⟨single, off, [c]⟩, r)
      | none => (⟨punct c, off, [c]⟩, r)

/-- `Tokenizer::readToken` outside strings with nothing pushed back, cb/Tokenizer.cpp:272-484. -/
def lex (total : Nat) (nl : Bool) (src : List Byte) : Tok × List Byte :=
  lexF total nl (src.length + 1) src

/-- `readString`, cb/Tokenizer.cpp:216-261: type and text of the token, and what is left.  `acc` is the
contents of `mout`; `none` is the assertion of line 255 (end of the input inside a string). -/
def readStr : (acc : List Byte) → List Byte → Option (TokTy × List Byte × List Byte)
  | _, [] => none
  | acc, c :: r =>
    if c = 92 then
      match r with
      | [] => none
      | d :: r' => readStr (acc ++ [d]) r'
    else if c = 34 then
      if acc = [] then some (.endString, [], r) else some (.stringLiteral, acc, c :: r)
    else if c = 36 then
      match r with
      | [] => readStr (acc ++ [36]) r
      | d :: r' =>
        if d = 123 then
          if acc = [] then some (.beginStringEmbed, [], r') else some (.stringLiteral, acc, c :: r)
        else readStr (acc ++ [36]) r
    else readStr (acc ++ [c]) r

end Verif.Crowbar
