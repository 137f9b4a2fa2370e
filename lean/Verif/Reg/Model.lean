import Verif.Esc.Props
import Verif.Title.Model
/-!
# Commands in module definition files — model

Models build/repo/ply-build-repo/ExtractModuleFunctions.cpp: comments such as `// [ply module="name"]` in front of
functions.  The parser (modelled in Verif.CppParse) calls the hooks; here its calls are given as a list of events.
Lines without a file name are of that file.
-/
namespace Verif.Reg
open Verif

/-- `InstantiatorHooks::Command`, lines 105-120. -/
inductive Cmd where
  | module (name : List Byte)
  | external (name provider : List Byte)
  deriving DecidableEq, Repr

/-- `RepoRegError::Type`, lines 24-37, with the exception of those that are not used. -/
inductive Err where
  | alreadyInside | expectedModuleName | mustBeAtFileScope | expectedExternName | expectedProviderKeyword
  | expectedProviderName | unrecognized | couldNotApply | expectedEqualSign | extraneousText | oldFormat
  deriving DecidableEq, Repr

/-- What a comment means: nothing, a complaint about the old format, or text in brackets that begins with `ply`, which is
a command or wrong. -/
inductive Meaning where
  | nothing
  | old
  | ply (r : Except Err Cmd)

/-- `parse<fmt::Whitespace>`, line 155 and so on (modelled in Verif.Esc). -/
def skip (s : List Byte) : List Byte := Esc.scanWhite false s

/-- `=` and a string in quotes, lines 163-171, 191-199 and 213-221: the string and what is left. -/
def equalQuoted (s : List Byte) : Option (List Byte × List Byte) :=
  match skip s with
  | 61 :: t => some ((Esc.readQuoted false (skip t)).text, (Esc.readQuoted false (skip t)).rest)
  | _ => none

/-- What follows `ply` in the brackets, lines 155-247.  `fileScope` is `scopeStack.numItems() == 1`. -/
def command (fileScope : Bool) (s : List Byte) : Except Err Cmd :=
  let second := Title.spanName (skip s)
  let s := Title.afterName (skip s)
  if second = [109, 111, 100, 117, 108, 101] then
    if !fileScope then .error .mustBeAtFileScope
    else match equalQuoted s with
      | none => .error .expectedEqualSign
      | some (name, s) =>
        if name = [] then .error .expectedModuleName
        else if skip s ≠ [] then .error .extraneousText
        else .ok (.module name)
  else if second = [101, 120, 116, 101, 114, 110] then
    if !fileScope then .error .mustBeAtFileScope
    else match equalQuoted s with
      | none => .error .expectedEqualSign
      | some (name, s) =>
        if name = [] then .error .expectedExternName
        else if Title.spanName (skip s) ≠ [112, 114, 111, 118, 105, 100, 101, 114] then .error .expectedProviderKeyword
        else match equalQuoted (Title.afterName (skip s)) with
          | none => .error .expectedEqualSign
          | some (provider, s) =>
            if provider = [] then .error .expectedProviderName
            else if skip s ≠ [] then .error .extraneousText
            else .ok (.external name provider)
  else .error .unrecognized

/-- The meaning of a comment at declaration scope, lines 136-262; the text is that after the two slashes. -/
def meaning (fileScope : Bool) (comment : List Byte) : Meaning :=
  let text := Str.trim Str.isWhite true true comment
  if Str.startsWith text [91] && Str.endsWith text [93] then
    let inner := (text.drop 1).take (text.length - 2)
    if Title.spanName inner ≠ [112, 108, 121] then .nothing
    else .ply (command fileScope (Title.afterName inner))
  else if text.takeWhile (fun c => !Str.isWhite c) = [112, 108, 121] then .old
  else .nothing

/-- What the parser tells: a line comment, lines 133-135, or a declaration, line 265.  A declaration is `some name` if it
is a simple one with a single declarator that is a function, lines 268-272. -/
inductive Event where
  | comment (declScope fileScope : Bool) (text : List Byte)
  | decl (function : Option (List Byte))

/-- The hooks, lines 122-124, with the functions found (`ModuleDefinitionFile`) and the errors. -/
structure State where
  cmd : Option Cmd := none
  found : List (Cmd × List Byte) := []
  errs : List Err := []
  deriving DecidableEq, Repr

/-- `gotMacroOrComment`, lines 133-263, and `onGotDeclaration`, lines 265-300. -/
def step (st : State) : Event → State
  | .comment false _ _ => st
  | .comment true fileScope text =>
    match meaning fileScope text with
    | .nothing => st
    | .old => { st with errs := st.errs ++ [.oldFormat] }
    | .ply r =>
      let before := if st.cmd.isSome then [Err.alreadyInside] else []
      match r with
      | .error e => { st with cmd := none, errs := st.errs ++ before ++ [e] }
      | .ok c => { st with cmd := some c, errs := st.errs ++ before }
  | .decl function =>
    match st.cmd with
    | none => st
    | some c =>
      match function with
      | some f => { st with cmd := none, found := st.found ++ [(c, f)] }
      | none => { st with cmd := none, errs := st.errs ++ [.couldNotApply] }

/-- `extractInstantiatorFunctions`, lines 312-320. -/
def extract (evs : List Event) : State := evs.foldl step {}

end Verif.Reg
