import Verif.Esc.Model
import Verif.Num.ModelReal
/-!
# The tokenizer and preprocessor for C++ — model

repos/plywood/src/cpp/ply-cpp/ (here `cpp/`): Preprocessor.h, Preprocessor.cpp, Token.h, Token.cpp,
PPVisitedFiles.h, and the set-up in ParseAPI.cpp.  A `ViewInStream` is the list of bytes left to read; a
pointer into it is given by what is left from there on.
-/
namespace Verif.Cpp
open Verif

/-- `Token::Type`, cpp/Token.h:15-66. -/
inductive TT where
  | invalid | lineComment | cStyleComment | macro | macroArgument | directive
  | openCurly | closeCurly | openParen | closeParen | openAngle | closeAngle
  | lessThanOrEqual | greaterThanOrEqual | openSquare | closeSquare | semicolon
  | singleColon | doubleColon | singleEqual | doubleEqual | notEqual | plusEqual | minusEqual
  | arrow | starEqual | slashEqual | comma | questionMark | forwardSlash | star | percent
  | singleAmpersand | doubleAmpersand | singleVerticalBar | doubleVerticalBar
  | singlePlus | doublePlus | singleMinus | doubleMinus | leftShift | rightShift
  | dot | tilde | caret | bang | ellipsis
  | identifier | stringLiteral | numericLiteral | endOfFile
  deriving DecidableEq, Repr

/-- `Token`, cpp/Token.h:14-96.  `linearLoc` is an `s64`; it cannot overflow, because it grows by at most
the number of bytes read. -/
structure Token where
  loc : Int := -1
  type : TT := .invalid
  text : List Byte := []
  deriving DecidableEq, Repr

/-- `Preprocessor::Error::Type`, cpp/Preprocessor.h:19-31 (without `Unknown`). -/
inductive ErrT where
  | invalidDirective | eofInMacro | eofInComment | eofInStringLiteral | eofInRawStringDelimiter
  | invalidCharInRawStringDelimiter | directiveNotAtStartOfLine | garbageCharacters
  deriving DecidableEq, Repr

/-- `Preprocessor::Error`, cpp/Preprocessor.h:18-43. -/
structure Err where
  type : ErrT
  loc : Int
  other : Int := -1
  deriving DecidableEq, Repr

/-- The ASCII bytes of some characters. -/
def bs (cs : List Char) : List Byte := cs.map fun c => UInt8.ofNat c.toNat

/-- `getLinearLocation`, cpp/Preprocessor.cpp:26-31, where `e` is `linearLocAtEndOfStackTop` and `rest` is
what is left of the view. -/
def locAt (e : Int) (rest : List Byte) : Int := e - rest.length

/-! ## Pieces of the source -/

/-- `parse<fmt::Line>`, rt/io/impl/TypeParser.h:125-129. -/
def skipLine (s : List Byte) : List Byte := (Esc.scanLoop [10] 0 s).getD []

/-- The arithmetic of the numbers that are read, which does not matter here: they are thrown away. -/
def noArith : Num.Arith := ⟨id, fun _ _ => 0⟩

/-- `parse<u64>(fmt::Radix{16})` as used at cpp/Preprocessor.cpp:119. -/
def skipHex (s : List Byte) : List Byte := (Num.parseLoop 16 0 false false s).rest

/-- `parse<double>()` as used at cpp/Preprocessor.cpp:123. -/
def skipReal (s : List Byte) : List Byte :=
  match Num.parseReal noArith 10 s with
  | none => s
  | some p => p.rest

/-- Skips one byte if it is the given one: the steps of cpp/Preprocessor.cpp:125-136. -/
def skipByte (b : Byte) : List Byte → List Byte
  | [] => []
  | c :: cs => if c = b then cs else c :: cs

/-- The suffix of a number, cpp/Preprocessor.cpp:124-137. -/
def skipSuffix : List Byte → List Byte
  | [] => []
  | c :: cs =>
    if c = 102 then cs
    else
      let s := skipByte 85 (c :: cs)
      match s with
      | [] => []
      | d :: ds => if d = 76 then skipByte 76 ds else d :: ds

/-- `readNumericLiteral`, cpp/Preprocessor.cpp:113-138. -/
def readNumericLiteral : List Byte → List Byte
  | [] => skipSuffix (skipReal [])
  | c :: cs =>
    if c = 48 then
      match cs with
      | [] => skipSuffix (skipReal [])
      | d :: ds => if d = 120 then skipSuffix (skipHex ds) else skipSuffix (skipReal (d :: ds))
    else skipSuffix (skipReal (c :: cs))

/-- The loop of `readPreprocessorDirective` that skips white space, cpp/Preprocessor.cpp:149-156: `none` =
the line ended. -/
def directiveWhite : List Byte → Option (List Byte)
  | [] => some []
  | c :: cs =>
    if Str.isWhite c = false then some (c :: cs)
    else if c = 10 then none
    else directiveWhite cs

/-- What the line ended with, for `directiveWhite`. -/
def afterNull : List Byte → List Byte
  | [] => []
  | c :: cs => if c = 10 then cs else afterNull cs

/-- The loop over the lines of a `#define`, cpp/Preprocessor.cpp:177-188. -/
def skipDefine : (escaping : Bool) → List Byte → List Byte
  | _, [] => []
  | escaping, c :: cs =>
    if c = 10 then (if escaping then skipDefine escaping cs else cs)
    else if c ≠ 13 then skipDefine (decide (c = 92)) cs
    else skipDefine escaping cs

/-- The directives of which the line is skipped, cpp/Preprocessor.cpp:171-174. -/
def plainDirectives : List (List Byte) :=
  [bs ['p', 'r', 'a', 'g', 'm', 'a'], bs ['i', 'f'], bs ['e', 'l', 's', 'e'], bs ['e', 'l', 'i', 'f'],
    bs ['e', 'n', 'd', 'i', 'f'], bs ['i', 'f', 'd', 'e', 'f'], bs ['i', 'f', 'n', 'd', 'e', 'f'],
    bs ['e', 'r', 'r', 'o', 'r'], bs ['u', 'n', 'd', 'e', 'f'], bs ['i', 'm', 'p', 'o', 'r', 't']]

/-- What reading a directive does: what is left, errors, the directive passed to `includeCallback`, and
whether `atStartOfLine` is set. -/
structure DirRes where
  rest : List Byte
  errs : List Err := []
  incl : Bool := false
  setStart : Bool := true
  deriving DecidableEq, Repr

/-- `readPreprocessorDirective`, cpp/Preprocessor.cpp:140-198, on what follows the `#`. -/
def readDirective (e : Int) (s : List Byte) : DirRes :=
  match directiveWhite s with
  | none => { rest := afterNull s, setStart := false }
  | some s1 =>
    let s2 := (Esc.parseIdentifier true false s1).2
    let name := s1.take (s1.length - s2.length)
    if name = [] then { rest := skipLine s2, errs := [⟨.invalidDirective, locAt e s2, -1⟩] }
    else if name = bs ['i', 'n', 'c', 'l', 'u', 'd', 'e'] then { rest := skipLine s2, incl := true }
    else if name ∈ plainDirectives then { rest := skipLine s2 }
    else if name = bs ['d', 'e', 'f', 'i', 'n', 'e'] then { rest := skipDefine false s2 }
    else { rest := skipLine s2, errs := [⟨.invalidDirective, locAt e s1, -1⟩] }

/-- What reading the arguments of a macro does: the arguments, what is left, and errors. -/
structure ArgRes where
  args : List Token
  rest : List Byte
  errs : List Err := []
  deriving DecidableEq, Repr

/-- The loop of `readMacroArguments`, cpp/Preprocessor.cpp:221-283, with `argStart` the text from the start
of the argument, and the number of bytes left.  `fuel` is the number of bytes left or more. -/
def argLoop (e openLoc : Int) : (fuel : Nat) → (nest : Nat) → (argLoc : Int) → (argStart : List Byte) →
    (acc : List Token) → List Byte → ArgRes
  | 0, _, _, _, acc, s => ⟨acc, s, []⟩
  | _ + 1, _, _, _, acc, [] => ⟨acc, [], [⟨.eofInMacro, locAt e [], openLoc⟩]⟩
  | fuel + 1, nest, argLoc, argStart, acc, c :: cs =>
    let arg : Token := ⟨argLoc, .macroArgument, argStart.take (argStart.length - cs.length - 1)⟩
    if c = 47 then
      match cs with
      | [] => ⟨acc, [], [⟨.eofInMacro, locAt e [], openLoc⟩]⟩
      | d :: ds =>
        if d = 47 then argLoop e openLoc fuel nest argLoc argStart acc (skipLine ds)
        else if d = 42 then
          match Esc.scanLoop [42, 47] 0 ds with
          | none => ⟨acc, [], [⟨.eofInComment, locAt e [], openLoc⟩]⟩
          | some r => argLoop e openLoc fuel nest argLoc argStart acc r
        else argLoop e openLoc fuel nest argLoc argStart acc (d :: ds)
    else if c = 40 then argLoop e openLoc fuel (nest + 1) argLoc argStart acc cs
    else if c = 41 then
      if nest ≤ 1 then ⟨acc ++ [arg], cs, []⟩
      else argLoop e openLoc fuel (nest - 1) argLoc argStart acc cs
    else if c = 44 then
      if nest = 1 then argLoop e openLoc fuel nest (locAt e cs) cs (acc ++ [arg]) cs
      else argLoop e openLoc fuel nest argLoc argStart acc cs
    else argLoop e openLoc fuel nest argLoc argStart acc cs

/-- `readMacroArguments`, cpp/Preprocessor.cpp:203-284. -/
def readMacroArguments (e : Int) (s : List Byte) : ArgRes :=
  match Esc.scanWhite false s with
  | [] => ⟨[], [], []⟩
  | c :: cs =>
    if c = 40 then argLoop e (locAt e (c :: cs)) (cs.length + 1) 1 (locAt e (c :: cs) + 1) cs [] cs
    else ⟨[], c :: cs, []⟩

/-- `readStringLiteral`, cpp/Preprocessor.cpp:286-310: what is left behind the closing quote, or `none` at
the end of the view (after an error `eofInStringLiteral`). -/
def readString (quote : Byte) : List Byte → Option (List Byte)
  | [] => none
  | c :: cs =>
    if c = 92 then
      match cs with
      | [] => none
      | _ :: ds => readString quote ds
    else if c = quote then some cs
    else readString quote cs

/-- The loop that reads the delimiter of a raw string, cpp/Preprocessor.cpp:319-338: what is left at the
opening parenthesis, or the error and what is left. -/
def rawDelimiter : List Byte → Except (ErrT × List Byte) (List Byte)
  | [] => .error (.eofInRawStringDelimiter, [])
  | c :: cs =>
    if c = 40 then .ok (c :: cs)
    else if Str.isWhite c = true ∨ c = 41 ∨ c = 92 then
      .error (.invalidCharInRawStringDelimiter, c :: cs)
    else rawDelimiter cs

/-- The loops of `readDelimiterAndRawStringLiteral` behind the parenthesis,
cpp/Preprocessor.cpp:345-385.  `delim` is the source from `delimiterStart` on, `n` the number of bytes from
`delimiterEnd` to the end of the view; `d` is `none` outside of a match, else the source from `d` on.  `*d`
is a `char`, negative from 128 on, and compared with a `u8`: such bytes are never equal.  `some` = what is
left behind the literal, `none` = the view ended (error `eofInStringLiteral`). -/
def rawLoop (delim : List Byte) (n : Nat) : (d : Option (List Byte)) → List Byte → Option (List Byte)
  | _, [] => none
  | none, c :: cs => if c = 41 then rawLoop delim n (some delim) cs else rawLoop delim n none cs
  | some d, c :: cs =>
    if d.length = n ∧ c = 34 then some cs
    else
      match d with
      | [] => none
      | x :: d' =>
        if c ≠ x ∨ 128 ≤ c.toNat then rawLoop delim n none cs else rawLoop delim n (some d') cs

/-- `readDelimiterAndRawStringLiteral`, cpp/Preprocessor.cpp:312-387, on what follows the quote. -/
def readRaw (s : List Byte) : Except (ErrT × List Byte) (List Byte) :=
  match rawDelimiter s with
  | .error x => .error x
  | .ok [] => .error (.eofInRawStringDelimiter, [])
  | .ok (_ :: r) =>
    match rawLoop s (r.length + 1) none r with
    | none => .error (.eofInStringLiteral, [])
    | some r => .ok r

/-- The loop of `readIdentifierOrLiteral`, cpp/Preprocessor.cpp:408-437: `n` bytes have been read since
`startByte`, the first of which is `b`.  `loc` is `beginTokenLoc`.  The type, what is left, and errors;
`none` = assertion in `advanceByte` (line 436, after an unfinished raw string).  `fuel` is the number of
bytes left plus one or more. -/
def identLoop (e loc : Int) (b : Byte) : (fuel : Nat) → (n : Nat) → (errs : List Err) → List Byte →
    Option (TT × List Byte × List Err)
  | 0, _, _, _ => none
  | _ + 1, n, errs, [] => if n = 0 then none else some (.identifier, [], errs)
  | fuel + 1, n, errs, c :: cs =>
    if Esc.identByte true false false c = true then identLoop e loc b fuel (n + 1) errs cs
    else if c = 34 then
      if n = 1 ∧ b = 82 then
        match readRaw cs with
        | .ok r => some (.stringLiteral, r, errs)
        | .error (_, []) => none
        | .error (t, x :: r) =>
          identLoop e loc b fuel (n + (c :: cs).length - r.length)
            (errs ++ [⟨t, locAt e (x :: r), loc⟩]) r
      else
        match readString c cs with
        | none => some (.invalid, [], errs ++ [⟨.eofInStringLiteral, locAt e [], loc⟩])
        | some r => some (.stringLiteral, r, errs)
    else if n = 0 then some (.invalid, cs, errs ++ [⟨.garbageCharacters, loc, -1⟩])
    else some (.identifier, c :: cs, errs)

/-- `readIdentifierOrLiteral`, cpp/Preprocessor.cpp:395-438. -/
def readIdentifierOrLiteral (e : Int) (s : List Byte) : Option (TT × List Byte × List Err) :=
  match s with
  | [] => none
  | c :: cs =>
    if 48 ≤ c ∧ c ≤ 57 then some (.numericLiteral, readNumericLiteral (c :: cs), [])
    else identLoop e (locAt e (c :: cs)) c ((c :: cs).length + 1) 0 [] (c :: cs)

/-! ## Punctuation -/

/-- The next byte. -/
def nextIs (b : Byte) (s : List Byte) : Bool := s.head? == some b

/-- The cases of `readToken` for punctuation, cpp/Preprocessor.cpp:541-776, without `/`: the type and the
number of bytes, if the byte `c`, with `s` behind it, is the start of one.  `angles` is
`tokenizeCloseAnglesOnly`. -/
def punct (angles : Bool) (c : Byte) (s : List Byte) : Option (TT × Nat) :=
  if c = 123 then some (.openCurly, 1)
  else if c = 125 then some (.closeCurly, 1)
  else if c = 59 then some (.semicolon, 1)
  else if c = 40 then some (.openParen, 1)
  else if c = 41 then some (.closeParen, 1)
  else if c = 60 then
    if nextIs 60 s then some (.leftShift, 2)
    else if nextIs 61 s then some (.lessThanOrEqual, 2)
    else some (.openAngle, 1)
  else if c = 62 then
    if angles = false ∧ nextIs 62 s = true then some (.rightShift, 2)
    else if angles = false ∧ nextIs 61 s = true then some (.greaterThanOrEqual, 2)
    else some (.closeAngle, 1)
  else if c = 91 then some (.openSquare, 1)
  else if c = 93 then some (.closeSquare, 1)
  else if c = 58 then (if nextIs 58 s then some (.doubleColon, 2) else some (.singleColon, 1))
  else if c = 44 then some (.comma, 1)
  else if c = 63 then some (.questionMark, 1)
  else if c = 61 then (if nextIs 61 s then some (.doubleEqual, 2) else some (.singleEqual, 1))
  else if c = 42 then (if nextIs 61 s then some (.starEqual, 2) else some (.star, 1))
  else if c = 37 then some (.percent, 1)
  else if c = 38 then (if nextIs 38 s then some (.doubleAmpersand, 2) else some (.singleAmpersand, 1))
  else if c = 124 then
    (if nextIs 124 s then some (.doubleVerticalBar, 2) else some (.singleVerticalBar, 1))
  else if c = 43 then
    if nextIs 43 s then some (.doublePlus, 2)
    else if nextIs 61 s then some (.plusEqual, 2)
    else some (.singlePlus, 1)
  else if c = 45 then
    if nextIs 45 s then some (.doubleMinus, 2)
    else if nextIs 61 s then some (.minusEqual, 2)
    else if nextIs 62 s then some (.arrow, 2)
    else some (.singleMinus, 1)
  else if c = 46 then
    if nextIs 46 s = true ∧ nextIs 46 (s.drop 1) = true then some (.ellipsis, 3) else some (.dot, 1)
  else if c = 126 then some (.tilde, 1)
  else if c = 94 then some (.caret, 1)
  else if c = 33 then (if nextIs 61 s then some (.notEqual, 2) else some (.bang, 1))
  else none

/-- The white space skipped in `readToken`, cpp/Preprocessor.cpp:470-491: what is left and
`atStartOfLine`. -/
def skipWhite : (start : Bool) → List Byte → List Byte × Bool
  | start, [] => ([], start)
  | start, c :: cs =>
    if c = 10 then skipWhite true cs
    else if c = 13 ∨ c = 9 ∨ c = 32 then skipWhite start cs
    else (c :: cs, start)

/-! ## One step -/

/-- What one pass through the `switch` in `readToken` can do, before macros are looked up. -/
inductive Lex where
  /-- `break`: something was skipped. -/
  | skip (rest : List Byte) (errs : List Err) (start : Bool)
  /-- `goto gotToken`. -/
  | tok (type : TT) (rest : List Byte) (errs : List Err) (start : Bool) (incl : Bool)
  /-- An identifier, which may be a macro. -/
  | ident (rest : List Byte) (errs : List Err)
  deriving DecidableEq, Repr

/-- The `switch` of `readToken`, cpp/Preprocessor.cpp:467-857, up to the search for a macro (line 802), on a
view that is not at its end.  `start` is `wasAtStartOfLine`.  `none` = assertion failure. -/
def lex (angles : Bool) (e : Int) (start : Bool) : List Byte → Option Lex
  | [] => none
  | c :: cs =>
    if c = 10 ∨ c = 13 ∨ c = 9 ∨ c = 32 then
      some (.skip (skipWhite start (c :: cs)).1 [] (skipWhite start (c :: cs)).2)
    else if c = 35 then
      if start = true then
        let d := readDirective e cs
        some (.tok .directive d.rest d.errs d.setStart d.incl)
      else some (.skip cs [⟨.directiveNotAtStartOfLine, locAt e (c :: cs), -1⟩] false)
    else if c = 47 then
      match cs with
      | [] => some (.tok .forwardSlash [] [] false false)
      | d :: ds =>
        if d = 47 then some (.tok .lineComment (skipLine ds) [] true false)
        else if d = 42 then
          match Esc.scanLoop [42, 47] 0 ds with
          | some r => some (.tok .cStyleComment r [] false false)
          | none => some (.skip [] [⟨.eofInComment, locAt e [], locAt e (c :: cs)⟩] false)
        else if d = 61 then some (.tok .slashEqual ds [] false false)
        else some (.tok .forwardSlash cs [] false false)
    else
      match punct angles c cs with
      | some (t, n) => some (.tok t ((c :: cs).drop n) [] false false)
      | none =>
        if c = 39 ∨ c = 34 then
          match readString c cs with
          | none => some (.skip [] [⟨.eofInStringLiteral, locAt e [], locAt e (c :: cs)⟩] false)
          | some r => some (.tok .stringLiteral r [] false false)
        else
          match readIdentifierOrLiteral e (c :: cs) with
          | none => none
          | some (t, r, errs) =>
            if t = .identifier then some (.ident r errs)
            else if t = .invalid then some (.skip r errs false)
            else some (.tok t r errs false false)

/-! ## The state -/

/-- `Preprocessor::StackItem`, cpp/Preprocessor.h:48-51: the contents of the view and what is left of it. -/
structure Frame where
  chain : Nat
  contents : List Byte
  rest : List Byte
  deriving DecidableEq, Repr

/-- `vins.curByte - vins.getStartByte()`. -/
def Frame.offset (f : Frame) : Nat := f.contents.length - f.rest.length

/-- `PPVisitedFiles::LocationMapTraits::Item`, cpp/PPVisitedFiles.h:59-63. -/
structure LocItem where
  loc : Int
  chain : Nat
  offset : Nat
  deriving DecidableEq, Repr

/-- `PPVisitedFiles::IncludeChain`, cpp/PPVisitedFiles.h:49-56. -/
structure Chain where
  isMacro : Bool
  idx : Nat
  parent : Int := -1
  deriving DecidableEq, Repr

/-- A macro: `Preprocessor::MacrosTraits::Item`, cpp/Preprocessor.h:57-60, with the
`PPVisitedFiles::MacroExpansion` it refers to, cpp/PPVisitedFiles.h:24-46, which is always a string here:
`addPPDef` is the only function that makes any. -/
structure Macro where
  name : List Byte
  expansion : List Byte
  takesArgs : Bool
  deriving DecidableEq, Repr

/-- `Preprocessor` with the parts of `PPVisitedFiles` it uses.  The top of the stack comes first;
`locMap` are the items put into `locationMap`, in the order of insertion; `macros` are the calls of
`addPPDef`, the last first; `errors` and `includes` are what was passed to `errorHandler` and
`includeCallback`. -/
structure PP where
  macros : List Macro := []
  angles : Bool := false
  stack : List Frame := []
  endLoc : Int := -1
  atStart : Bool := true
  chains : List Chain := []
  locMap : List LocItem := []
  errors : List Err := []
  includes : List (List Byte) := []
  macroArgs : List Token := []
  deriving DecidableEq, Repr

/-- `pp->macros.find`, cpp/Preprocessor.cpp:804: what `addPPDef` (cpp/Preprocessor.cpp:12-24) was last
called with; and the index of the expansion. -/
def findMacro : List Macro → List Byte → Option (Macro × Nat)
  | [], _ => none
  | m :: ms, name => if m.name = name then some (m, ms.length) else findMacro ms name

/-- The result of one pass through the loop of `readToken`. -/
inductive Step where
  | again (pp : PP) (loc : Int)
  | got (t : Token) (pp : PP)
  | ended
  deriving DecidableEq, Repr

/-- A stack item at its end is popped, cpp/Preprocessor.cpp:446-463. -/
def popFrame (pp : PP) (below : List Frame) : PP :=
  match below with
  | [] => { pp with stack := [] }
  | g :: _ =>
    { pp with
      stack := below
      locMap := pp.locMap ++ [⟨pp.endLoc, g.chain, g.offset⟩]
      endLoc := pp.endLoc + g.rest.length }

/-- A macro is entered, cpp/Preprocessor.cpp:828-855: `f` is the stack item with the macro call read, `loc`
is `linearLocAtMacro`. -/
def enterMacro (pp : PP) (f : Frame) (below : List Frame) (m : Macro) (idx : Nat) (loc : Int) : PP :=
  { pp with
    stack := ⟨pp.chains.length, m.expansion, m.expansion⟩ :: f :: below
    endLoc := loc + m.expansion.length
    chains := pp.chains ++ [⟨true, idx, f.chain⟩]
    locMap := pp.locMap ++ [⟨loc, pp.chains.length, 0⟩] }

/-- An identifier that may be the name of a macro, cpp/Preprocessor.cpp:801-861: `f` is the stack item with
the identifier read, `name` the identifier, and `loc` where it starts. -/
def gotIdent (pp : PP) (f : Frame) (below : List Frame) (name : List Byte) (loc : Int) : Token × PP :=
  match findMacro pp.macros name with
  | none => (⟨loc, .identifier, name⟩, { pp with stack := f :: below })
  | some (m, idx) =>
    if m.takesArgs = true then
      let a := readMacroArguments pp.endLoc f.rest
      let pp := { pp with errors := pp.errors ++ a.errs, macroArgs := a.args }
      if a.args = [] then (⟨loc, .identifier, name⟩, { pp with stack := f :: below })
      else (⟨loc, .macro, name⟩, enterMacro pp { f with rest := a.rest } below m idx loc)
    else (⟨loc, .macro, name⟩, enterMacro { pp with macroArgs := [] } f below m idx loc)

/-- One pass through the loop of `readToken`, cpp/Preprocessor.cpp:443-870.  `loc` is `token.linearLoc`,
which is set before anything is read.  `none` = assertion failure. -/
def step (pp : PP) (loc : Int) : Option Step :=
  match pp.stack with
  | [] => some .ended
  | f :: below =>
    if f.rest = [] then some (.again (popFrame pp below) loc)
    else if pp.endLoc < 0 then none
    else
      let loc := locAt pp.endLoc f.rest
      match lex pp.angles pp.endLoc pp.atStart f.rest with
      | none => none
      | some (.skip r errs start) =>
        some (.again { pp with stack := { f with rest := r } :: below, errors := pp.errors ++ errs,
                               atStart := start } loc)
      | some (.tok t r errs start incl) =>
        let text := f.rest.take (f.rest.length - r.length)
        some (.got ⟨loc, t, text⟩
          { pp with stack := { f with rest := r } :: below, errors := pp.errors ++ errs,
                    atStart := start,
                    includes := if incl then pp.includes ++ [text] else pp.includes })
      | some (.ident r errs) =>
        let text := f.rest.take (f.rest.length - r.length)
        let q := gotIdent { pp with errors := pp.errors ++ errs, atStart := false }
          { f with rest := r } below text loc
        some (.got q.1 q.2)

/-- Bytes that are left and stack items: what the loop of `readToken` uses up. -/
def PP.size (pp : PP) : Nat := (pp.stack.map fun f => f.rest.length + 1).sum

/-- The loop of `readToken`, cpp/Preprocessor.cpp:443-874, with at most `fuel` passes; `none` = assertion
failure, or more passes. -/
def readLoop : (fuel : Nat) → PP → (loc : Int) → Option (Token × PP)
  | 0, _, _ => none
  | fuel + 1, pp, loc =>
    match step pp loc with
    | none => none
    | some (.again pp' loc') => readLoop fuel pp' loc'
    | some (.got t pp') => some (t, pp')
    | some .ended => some (⟨loc, .endOfFile, []⟩, pp)

/-- `readToken`, cpp/Preprocessor.cpp:440-874.  `C72_call_ends` shows that this many passes are enough. -/
def readToken (pp : PP) : Option (Token × PP) := readLoop (pp.size + 1) pp (-1)

/-- A preprocessor set up for one source, cpp/ParseAPI.cpp:20-50 (as in
cpp/ParsePlywoodSrcFile.cpp:16-54). -/
def PP.init (macros : List Macro) (source : List Byte) : PP :=
  { macros := macros
    stack := [⟨0, source, source⟩]
    endLoc := source.length
    chains := [⟨false, 0, -1⟩]
    locMap := [⟨0, 0, 0⟩] }

/-- Reading tokens until the end of the file, at most `n`: the tokens before the end, and the state at
the end; `none` = assertion failure or more tokens. -/
def readAll : (n : Nat) → PP → Option (List Token × PP)
  | 0, _ => none
  | n + 1, pp =>
    match readToken pp with
    | none => none
    | some (t, pp') =>
      if t.type = .endOfFile then some ([], pp')
      else
        match readAll n pp' with
        | none => none
        | some (ts, q) => some (t :: ts, q)

/-- `getPunctuationString`, cpp/Token.cpp:10-107.  `none` = assertion failure. -/
def punctuationString : TT → Option (List Byte)
  | .openCurly => some [123]
  | .closeCurly => some [125]
  | .openParen => some [40]
  | .closeParen => some [41]
  | .openAngle => some [60]
  | .closeAngle => some [62]
  | .openSquare => some [91]
  | .closeSquare => some [93]
  | .semicolon => some [59]
  | .singleColon => some [58]
  | .doubleColon => some [58, 58]
  | .singleEqual => some [61]
  | .doubleEqual => some [61, 61]
  | .notEqual => some [33, 61]
  | .plusEqual => some [43, 61]
  | .minusEqual => some [45, 61]
  | .comma => some [44]
  | .questionMark => some [63]
  | .forwardSlash => some [47]
  | .star => some [42]
  | .percent => some [37]
  | .singleAmpersand => some [38]
  | .doubleAmpersand => some [38, 38]
  | .singleVerticalBar => some [124]
  | .doubleVerticalBar => some [124, 124]
  | .singlePlus => some [43]
  | .doublePlus => some [43, 43]
  | .singleMinus => some [45]
  | .doubleMinus => some [45, 45]
  | .leftShift => some [60, 60]
  | .rightShift => some [62, 62]
  | .dot => some [46]
  | .tilde => some [126]
  | .bang => some [33]
  | .ellipsis => some [46, 46, 46]
  | .lineComment => some [47, 47]
  | .cStyleComment => some [47, 42]
  | .lessThanOrEqual => some [60, 61]
  | .greaterThanOrEqual => some [62, 61]
  | .arrow => some [45, 62]
  | .starEqual => some [42, 61]
  | .slashEqual => some [47, 61]
  | .caret => some [94]
  | _ => none

/-- `Token::toString`, cpp/Token.cpp:109-123.  `none` = assertion failure. -/
def Token.toBytes (t : Token) : Option (List Byte) :=
  match t.type with
  | .identifier | .stringLiteral | .numericLiteral => some t.text
  | .endOfFile => some (bs ['e', 'n', 'd', '-', 'o', 'f', '-', 'f', 'i', 'l', 'e'])
  | ty => punctuationString ty

end Verif.Cpp
