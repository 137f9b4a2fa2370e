import Verif.Esc.Props
/-!
# Titles of members — model

Models web/cook-docs/ply-web-cook-docs/SymbolTitle.cpp: the titles given to members in documentation pages, with
spans in square brackets, and the HTML written for them.  Paths are relative to that directory.
-/
namespace Verif.Title
open Verif

/-- `TitleSpan::Type`, SymbolTitle.h. -/
inductive Kind where
  | normal | strong | em | qid
  deriving DecidableEq, Repr

/-- `TitleSpan`, SymbolTitle.h. -/
structure Span where
  kind : Kind
  text : List Byte
  deriving DecidableEq, Repr

/-- `ParseTitleError`, SymbolTitle.h, with the argument of the callback; the place in the text is left out. -/
inductive Err where
  | expectedSpanType
  | unclosedSpan
  | unrecognizedSpanType (name : List Byte)
  | expectedSpace (name : List Byte)
  | unexpectedClose
  deriving DecidableEq, Repr

/-- `flushSpan`, SymbolTitle.cpp:50-56: empty text makes no span. -/
def flush (kind : Kind) (text : List Byte) : List Span := if text = [] then [] else [⟨kind, text⟩]

/-- What comes after `readView<fmt::Identifier>`, SymbolTitle.cpp:70 (modelled in Verif.Esc). -/
def afterName (s : List Byte) : List Byte := (Esc.parseIdentifier false false s).2

/-- The identifier itself, SymbolTitle.cpp:70. -/
def spanName (s : List Byte) : List Byte := s.take (s.length - (afterName s).length)

/-- The kind of span, SymbolTitle.cpp:71-82, and what is reported; without a name it stays what it was. -/
def spanKind (old : Kind) (name : List Byte) : Kind × List Err :=
  if name = [] then (old, [.expectedSpanType])
  else if name = [115, 116, 114, 111, 110, 103] then (.strong, [])
  else if name = [101, 109] then (.em, [])
  else if name = [113, 105, 100] then (.qid, [])
  else (.strong, [.unrecognizedSpanType name])

/-- What follows the name, SymbolTitle.cpp:83-88: a space is stepped over, anything else reported. -/
def afterSpace (s : List Byte) : List Byte × List Err :=
  match afterName s with
  | c :: rest => if c = 32 then (rest, []) else (c :: rest, [.expectedSpace (spanName s)])
  | [] => ([], [.expectedSpace (spanName s)])

/-- The loop of `parseTitle`, SymbolTitle.cpp:58-105: spans and errors.  `kind` is `inSpanType` and `text` what has been
written to `mout`.  Each round steps over a byte, so that the length of the text bounds the number of rounds. -/
def titleLoop : (fuel : Nat) → (kind : Kind) → (text : List Byte) → List Byte → List Span × List Err
  | _, kind, text, [] => (flush kind text, if kind ≠ .normal then [.unclosedSpan] else [])
  | 0, _, _, _ :: _ => ([], [])
  | fuel + 1, kind, text, c :: cs =>
    if c = 92 then
      match cs with
      | [] => titleLoop fuel kind text []
      | d :: ds => titleLoop fuel kind (text ++ [d]) ds
    else if c = 91 then
      let k := spanKind kind (spanName cs)
      let r := titleLoop fuel k.1 [] (afterSpace cs).1
      (flush kind text ++ r.1, (if kind ≠ .normal then [.unclosedSpan] else []) ++ k.2 ++ (afterSpace cs).2 ++ r.2)
    else if c = 93 then
      if kind = .normal then
        let r := titleLoop fuel kind text cs
        (r.1, .unexpectedClose :: r.2)
      else
        let r := titleLoop fuel .normal [] cs
        (flush kind text ++ r.1, r.2)
    else titleLoop fuel kind (text ++ [c]) cs

/-- `parseTitle`, SymbolTitle.cpp:41-108. -/
def parseTitle (src : List Byte) : List Span × List Err := titleLoop src.length .normal [] src

/-- The body of the loop in `writeAltMemberTitle`, SymbolTitle.cpp:114-142; `link` is `getLinkDestination` with its
context. -/
def writeSpan (link : List Byte → List Byte) (s : Span) : Option (List Byte) :=
  match Esc.xmlEscape 0 s.text with
  | none => none
  | some t =>
    match s.kind with
    | .normal => some t
    | .strong => some ([60, 115, 116, 114, 111, 110, 103, 62] ++ t ++ [60, 47, 115, 116, 114, 111, 110, 103, 62])
    | .em => some ([60, 101, 109, 62] ++ t ++ [60, 47, 101, 109, 62])
    | .qid =>
      if link s.text = [] then some t
      else match Esc.xmlEscape 0 (link s.text) with
        | none => none
        | some l => some ([60, 97, 32, 104, 114, 101, 102, 61, 34] ++ l ++ [34, 62] ++ t ++ [60, 47, 97, 62])

/-- `writeAltMemberTitle`, SymbolTitle.cpp:110-144. -/
def writeTitle (link : List Byte → List Byte) : List Span → Option (List Byte)
  | [] => some []
  | s :: rest =>
    match writeSpan link s, writeTitle link rest with
    | some a, some b => some (a ++ b)
    | _, _ => none

end Verif.Title
