import Verif.Str.Model
/-!
# Generated lines in source files — model

Models how the code generator takes out the lines it put into a source file before and puts in new ones:
apps/plytool/plytool/ReflectionHooks.cpp and Command_CodeGen.cpp.  The parser (modelled in Verif.CppParse) calls the
hooks; here its calls are given as a list of events in the order of the file.
-/
namespace Verif.Gen
open Verif

/-- What the parser tells: an `#include` directive from its `#` up to and with the end of its line
(cpp/Preprocessor.cpp:167-171), or the closing brace of a class with the command `make switch`, with the name of the
file generated for it (apps/plytool/plytool/ReflectionHooks.cpp:205-218). -/
inductive Event where
  | incl (start len : Nat)
  | close (pos : Nat) (name : List Byte)
  deriving DecidableEq, Repr

/-- `Subst`, apps/plytool/plytool/ReflectionHooks.h:16-19. -/
structure Subst where
  start : Nat
  numBytes : Nat
  replacement : List Byte
  deriving DecidableEq, Repr

/-- The walk to the start of the line, apps/plytool/plytool/ReflectionHooks.cpp:262-264. -/
def lineStart (src : List Byte) : Nat → Nat
  | 0 => 0
  | n + 1 => if src[n]? = some 10 then n + 1 else lineStart src n

/-- The walk to the start of the line with the first byte in it that is not white space,
apps/plytool/plytool/ReflectionHooks.cpp:33-42: the values of `lineStart` and `firstNonWhite` at its end. -/
def indentStart (src : List Byte) : Nat → Nat → Nat × Nat
  | 0, first => (0, first)
  | n + 1, first =>
    match src[n]? with
    | none => (n + 1, first)
    | some c => if c = 10 then (n + 1, first) else indentStart src n (if Str.isWhite c then first else n)

/-- `insertDirectiveSubst`, apps/plytool/plytool/ReflectionHooks.cpp:23-53, with the marker at the position of the third
argument, which counts down as `insertPos` does. -/
def insertDirective (src : List Byte) (repl : List Byte) : Nat → Subst
  | 0 => ⟨0, 0, repl⟩
  | n + 1 =>
    match src[n]? with
    | none => ⟨n + 1, 0, repl⟩
    | some c =>
      if c = 10 then ⟨n + 1, 0, repl⟩
      else if !Str.isWhite c then
        let r := indentStart src n n
        ⟨n + 1, 0, 10 :: (repl ++ (src.drop r.1).take (r.2 - r.1))⟩
      else insertDirective src repl n

/-- `//@@ply`, apps/plytool/plytool/ReflectionHooks.cpp:257. -/
def mark : List Byte := [47, 47, 64, 64, 112, 108, 121]

/-- Whether a directive was generated, apps/plytool/plytool/ReflectionHooks.cpp:257. -/
def marked (d : List Byte) : Bool := mark.isSuffixOf (d.reverse.dropWhile Str.isWhite).reverse

/-- The line put in, apps/plytool/plytool/ReflectionHooks.cpp:221: `#include "codegen/` and so on. -/
def directive (name : List Byte) : List Byte :=
  [35, 105, 110, 99, 108, 117, 100, 101, 32, 34, 99, 111, 100, 101, 103, 101, 110, 47] ++ name ++ [34, 32] ++ mark ++ [10]

/-- What an event adds to the list of changes: `onGotInclude`, apps/plytool/plytool/ReflectionHooks.cpp:252-268, and the
end of `exit`, 219-221. -/
def onEvent (src : List Byte) : Event → List Subst
  | .incl start len =>
    if !marked ((src.drop start).take len) then []
    else [⟨lineStart src start, start + len - lineStart src start, []⟩]
  | .close pos name => [insertDirective src (directive name) pos]

/-- The loop of `performSubsts`, apps/plytool/plytool/Command_CodeGen.cpp:70-79; `none` if an assertion fails. -/
def performLoop (src : List Byte) : List Subst → (prevEndPos : Nat) → Option (List Byte)
  | [], prev => some (src.drop prev)
  | s :: ss, prev =>
    if s.start < prev then none
    else if src.length ≤ s.start + s.numBytes then none
    else (performLoop src ss (s.start + s.numBytes)).map fun r =>
      (src.drop prev).take (s.start - prev) ++ (s.replacement ++ r)

/-- A file after the code generator, apps/plytool/plytool/Command_CodeGen.cpp:64-81 and 249-255. -/
def generate (src : List Byte) (events : List Event) : Option (List Byte) :=
  performLoop src (events.flatMap (onEvent src)) 0

end Verif.Gen
