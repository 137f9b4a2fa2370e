import Verif.Esc.Model
/-!
# Pylon — model of pylon/pylon/pylon/{Node,Write,Parse}.{h,cpp}

A configuration tree, its printer and its parser.
-/
namespace Verif.Pylon
open Verif

/-- `Node`, pylon/pylon/pylon/Node.h:11-47: text, array or object (items in order).  Not modelled:
file offsets, the invalid node.  The hash index of an object is modelled separately
(`Verif/Pylon/Obj.lean`). -/
inductive Node where
  | text (s : List Byte)
  | arr (items : List Node)
  | obj (items : List (List Byte × Node))

/-- `WriteContext::indent`, pylon/pylon/pylon/Write.cpp:17-21. -/
def indent : Nat → List Byte
  | 0 => []
  | d + 1 => 32 :: 32 :: indent d

/-- A quoted, escaped string as written at pylon/pylon/pylon/Write.cpp:32 and 59 (`none`: the printer
of escaped strings does not come to an end — never, by C10). -/
def quote (s : List Byte) : Option (List Byte) :=
  match Esc.escapeString 0 s with
  | none => none
  | some o => some (34 :: (o ++ [34]))

mutual
/-- `WriteContext::write`, pylon/pylon/pylon/Write.cpp:23-63, at the given depth. -/
def write : Nat → Node → Option (List Byte)
  | _, .text s => quote s
  | d, .arr items =>
    match writeItems (d + 1) items with
    | none => none
    | some o => some (91 :: 10 :: (o ++ (indent d ++ [93])))
  | d, .obj items =>
    match writeProps (d + 1) items with
    | none => none
    | some o => some (123 :: 10 :: (o ++ (indent d ++ [125])))

/-- The loop over array items, pylon/pylon/pylon/Write.cpp:47-54. -/
def writeItems : Nat → List Node → Option (List Byte)
  | _, [] => some []
  | d, n :: ns =>
    match write d n, writeItems d ns with
    | some a, some b => some (indent d ++ (a ++ ((if ns.isEmpty then [] else [44]) ++ (10 :: b))))
    | _, _ => none

/-- The loop over object properties, pylon/pylon/pylon/Write.cpp:29-38. -/
def writeProps : Nat → List (List Byte × Node) → Option (List Byte)
  | _, [] => some []
  | d, (k, n) :: ns =>
    match quote k, write d n, writeProps d ns with
    | some q, some a, some b =>
      some (indent d ++ (q ++ (58 :: 32 :: (a ++ ((if ns.isEmpty then [] else [44]) ++ (10 :: b))))))
    | _, _, _ => none
end

/-- How a parsing function ends: normally; `bad` = an error was reported (or an assertion failed) and
the code goes on to dereference a null `Owned<Node>` (Parse.cpp:398, 431, 476 test
`value->isValid()` on the null pointer that `return {}` produces); `hang` = an infinite loop;
`fuel` = the model's step bound was too small. -/
inductive Out (α : Type) where
  | ok (a : α) (rest : List Byte)
  | bad
  | hang
  | fuel
  deriving DecidableEq, Repr

/-- `Parser::Token`, pylon/pylon/pylon/Parse.h:42-65 (offsets left out; an invalid token is `Out.bad`,
since every use of one reports an error or asserts, Parse.cpp:299, 365-374, 386-391, 453). -/
inductive Token where
  | openCurly | closeCurly | openSquare | closeSquare | colon | equals | comma | semicolon
  | text (s : List Byte)
  | junk | newLine | endOfFile
  deriving DecidableEq, Repr

/-- `isAlnumUnit`, pylon/pylon/pylon/Parse.cpp:11-14, on a source byte (a byte from 128 on is negative
as a `char`, hence a large `u32`). -/
def isAlnum (b : Byte) : Bool :=
  let c := b.toNat
  c = 95 ∨ c = 36 ∨ c = 45 ∨ c = 46 ∨ (97 ≤ c ∧ c ≤ 122) ∨ (65 ≤ c ∧ c ≤ 90) ∨ (48 ≤ c ∧ c ≤ 57) ∨
    128 ≤ c

/-- `Parser::readLiteral`, pylon/pylon/pylon/Parse.cpp:205-216.  At the end of the source `nextUnit` is
-1, which `isAlnumUnit` accepts, and `advanceChar` (53-60) leaves it there: the loop never ends. -/
def readLiteral : List Byte → List Byte → Out Token
  | _, [] => .hang
  | acc, b :: t => if isAlnum b then readLiteral (acc ++ [b]) t else .ok (.text acc) (b :: t)

/-- Meaning of the character after a backslash, pylon/pylon/pylon/Parse.cpp:141-188 (`none`: an error is
reported, or — for `\x` — an assertion fails, line 69). -/
def unescape (code : Byte) : Option Byte :=
  if code = 92 ∨ code = 39 ∨ code = 34 then some code
  else if code = 114 then some 13
  else if code = 110 then some 10
  else if code = 116 then some 9
  else none

/-- The loop of `Parser::readQuotedString`, pylon/pylon/pylon/Parse.cpp:83-202, with the loop variables
`quoteRun`, `multiline` and the text collected so far.  The source is represented by the bytes from
`readOfs` on; `nextUnit` is -1 at its end and also when the next byte is 0xFF. -/
def quoted (endByte : Byte) : (quoteRun : Nat) → (multiline : Bool) → (acc : List Byte) →
    List Byte → Out Token
  | quoteRun, multiline, acc, [] =>
    if multiline = false ∧ quoteRun = 2 then .ok (.text acc) [] else .bad
  | quoteRun, multiline, acc, b :: t =>
    if b = endByte then
      if quoteRun = 0 then
        if multiline then quoted endByte 1 multiline acc t else .ok (.text acc) t
      else if quoteRun + 1 = 3 then
        if multiline then .ok (.text acc) t else quoted endByte 0 true acc t
      else quoted endByte (quoteRun + 1) multiline acc t
    else if multiline = false ∧ quoteRun = 2 then .ok (.text acc) (b :: t)
    else
      let acc := if multiline then acc ++ List.replicate quoteRun endByte else acc
      if b = 255 then .bad
      else if b = 13 ∨ b = 10 then
        if multiline then quoted endByte 0 multiline (if b = 10 then acc ++ [b] else acc) t else .bad
      else if b = 92 then
        match t with
        | [] => .bad
        | code :: t' =>
          match unescape code with
          | none => .bad
          | some c => quoted endByte 0 multiline (acc ++ [c]) t'
      else quoted endByte 0 multiline (acc ++ [b]) t

/-- `Parser::readToken`, pylon/pylon/pylon/Parse.cpp:218-271 (`pushBackToken` is never set by the code;
`nl` is `tokenizeNewLine`). -/
def readToken (nl : Bool) : List Byte → Out Token
  | [] => .ok .endOfFile []
  | b :: t =>
    if b = 32 ∨ b = 9 ∨ b = 13 then readToken nl t
    else if b = 10 then if nl then .ok .newLine t else readToken nl t
    else if b = 255 then .ok .endOfFile (b :: t)
    else if b = 123 then .ok .openCurly t
    else if b = 125 then .ok .closeCurly t
    else if b = 91 then .ok .openSquare t
    else if b = 93 then .ok .closeSquare t
    else if b = 58 then .ok .colon t
    else if b = 61 then .ok .equals t
    else if b = 44 then .ok .comma t
    else if b = 59 then .ok .semicolon t
    else if b = 34 ∨ b = 39 then quoted b 1 false [] t
    else if isAlnum b then readLiteral [] (b :: t)
    else .ok .junk (b :: t)

/-- The checks on the first token of a property, pylon/pylon/pylon/Parse.cpp:356-383: `some name` if it
may start one, given whether a property came before (`prev`), whether a separator was seen, and the
properties read so far.  The table of property locations (lines 333, 376-383) is modelled as the
list of names. -/
def propName (prev gotSep : Bool) (items : List (List Byte × Node)) : Token → Option (List Byte)
  | .text s =>
    if prev = true ∧ gotSep = false then none
    else if items.any (fun it => it.1 == s) then none
    else some s
  | _ => none

mutual
/-- `Parser::readExpression`, pylon/pylon/pylon/Parse.cpp:442-466. -/
def readExpression : Nat → Token → List Byte → Out Node
  | 0, _, _ => .fuel
  | fuel + 1, tok, rest =>
    match tok with
    | .openCurly => readObject fuel [] false rest
    | .openSquare => readArray fuel [] rest
    | .text s => .ok (.text s) rest
    | _ => .bad

/-- The loop of `Parser::readObject`, pylon/pylon/pylon/Parse.cpp:335-406: `items` are the properties
read so far (`prevProperty` is valid exactly when there are any), `gotSep` the separator flag. -/
def readObject : Nat → List (List Byte × Node) → Bool → List Byte → Out Node
  | 0, _, _, _ => .fuel
  | fuel + 1, items, gotSep, rest =>
    match readToken true rest with
    | .bad => .bad
    | .hang => .hang
    | .fuel => .fuel
    | .ok .closeCurly rest' => .ok (.obj items) rest'
    | .ok .comma rest' => readObject fuel items true rest'
    | .ok .semicolon rest' => readObject fuel items true rest'
    | .ok .newLine rest' => readObject fuel items true rest'
    | .ok tok rest' =>
      match propName (!items.isEmpty) gotSep items tok with
      | none => .bad
      | some name =>
        match readToken false rest' with
        | .bad => .bad
        | .hang => .hang
        | .fuel => .fuel
        | .ok sep rest2 =>
          if ¬ (sep = .colon ∨ sep = .equals) then .bad
          else
            match readToken false rest2 with
            | .bad => .bad
            | .hang => .hang
            | .fuel => .fuel
            | .ok tok2 rest3 =>
              match readExpression fuel tok2 rest3 with
              | .bad => .bad
              | .hang => .hang
              | .fuel => .fuel
              | .ok v rest4 => readObject fuel (items ++ [(name, v)]) false rest4

/-- The loop of `Parser::readArray`, pylon/pylon/pylon/Parse.cpp:416-439. -/
def readArray : Nat → List Node → List Byte → Out Node
  | 0, _, _ => .fuel
  | fuel + 1, items, rest =>
    match readToken true rest with
    | .bad => .bad
    | .hang => .hang
    | .fuel => .fuel
    | .ok .closeSquare rest' => .ok (.arr items) rest'
    | .ok .comma rest' => readArray fuel items rest'
    | .ok .semicolon rest' => readArray fuel items rest'
    | .ok .newLine rest' => readArray fuel items rest'
    | .ok tok rest' =>
      match readExpression fuel tok rest' with
      | .bad => .bad
      | .hang => .hang
      | .fuel => .fuel
      | .ok v rest2 => readArray fuel (items ++ [v]) rest2
end

/-- What `Parser::parse` gives back: a tree; a null root after reporting an error; undefined behaviour
(null pointer dereference or assertion) after reporting one; no answer at all. -/
inductive Parsed where
  | tree (n : Node)
  | null
  | bad
  | hang
  | fuel

/-- `Parser::parse`, pylon/pylon/pylon/Parse.cpp:468-487. -/
def parse (src : List Byte) : Parsed :=
  match readToken false src with
  | .bad => .bad
  | .hang => .hang
  | .fuel => .fuel
  | .ok tok rest =>
    match readExpression (2 * src.length + 3) tok rest with
    | .bad => .bad
    | .hang => .hang
    | .fuel => .fuel
    | .ok root rest' =>
      match readToken false rest' with
      | .bad => .bad
      | .hang => .hang
      | .fuel => .fuel
      | .ok .endOfFile _ => .tree root
      | .ok _ _ => .null

end Verif.Pylon
