import Verif.Str.Model
/-!
# The command line of plytool

apps/plytool/plytool/ConsoleUtils.cpp and Main.cpp, and what each command reads from the command line.  Paths are
relative to /repo/repos/plywood/src/apps/plytool/plytool.

Each command reads its words and options before it does anything else, except that some look first whether there
is a current build folder; what it does afterwards is not modelled here, only which command it is and with what
(`Command`).  `RepoRegistry::create` (Command_Target.cpp:44), which may print errors before the words are read, is
not modelled.
-/
namespace Verif.Cmd
open Verif

/-- A word of the command line. -/
abbrev Word := List Byte

/-- The ASCII bytes of a text. -/
def word (s : String) : Word := s.toList.map fun c => UInt8.ofNat c.toNat

/-- What `fatalError` is called with, ConsoleUtils.cpp:17-25; it ends the program with exit code 1. -/
inductive Fatal where
  /-- ConsoleUtils.cpp:61 -/
  | unexpectedToken (w : Word)
  /-- ConsoleUtils.cpp:53 -/
  | unrecognizedOption (w : Word)
  /-- Main.cpp:106 -/
  | unrecognizedCommand (w : Word)
  /-- Command_Folder.cpp:109, Command_Target.cpp:186, Command_Module.cpp:68, Command_Extern.cpp:228 -/
  | unrecognizedSub (w : Word)
  /-- Command_Folder.cpp:46, 74, 95, Command_Target.cpp:87, 111, 137, Command_Extern.cpp:108, 169, 215 -/
  | expectedName
  /-- Command_Target.cpp:41, Command_Extern.cpp:70, Command_Generate.cpp:17 -/
  | noFolder
  deriving DecidableEq, Repr

/-- `BuildParams`, CommandHelpers.h:26-31, as `extractOptions` leaves it.  An empty name or configuration is as
good as none. -/
structure BuildParams where
  targetName : Word := []
  configName : Word := []
  doAdd : Bool := false
  doAuto : Bool := false
  makeShared : Bool := false
  deriving DecidableEq, Repr

/-- What plytool is told to do. -/
inductive Command where
  | rpc
  | folderList | folderCreate (name : Word) | folderDelete (name : Word) | folderSet (name : Word)
  | targetList | targetAdd (name : Word) (makeShared : Bool) | targetRemove (name : Word) | targetSet (name : Word)
  | targetGraph
  | moduleList | moduleUpdate
  | externList | externInfo (name : Word) | externSelect (name : Word) (install : Bool) | externSelected
  | externInstall (name : Word)
  | generate (configName : Word)
  | build (params : BuildParams)
  | run (params : BuildParams) (doBuild : Bool)
  | «open» | codegen | bootstrap | cleanup
  deriving DecidableEq, Repr

/-- How plytool goes on after the command line has been read. -/
inductive Outcome where
  | fatal (f : Fatal)
  /-- `printUsage`, for all of plytool or for one command. -/
  | usage (command : Word)
  /-- The command is carried out.  `finalized` is `CommandLine::finalized`. -/
  | does (c : Command) (finalized : Bool)
  deriving DecidableEq, Repr

/-- `CommandLine`, ConsoleUtils.h:15-35: the arguments from `index` on, and `skippedOpts`. -/
structure CL where
  rest : List Word
  skipped : List Word := []
  deriving DecidableEq, Repr

/-- `CommandLine::readToken`, ConsoleUtils.cpp:27-38.  An empty word is returned at the end. -/
def readToken : List Word → List Word → Word × CL
  | [], skipped => ([], ⟨[], skipped⟩)
  | arg :: rest, skipped =>
    if Str.startsWith arg (word "-") = true then readToken rest (skipped ++ [arg]) else (arg, ⟨rest, skipped⟩)

/-- `CommandLine::checkForSkippedOpt`, ConsoleUtils.cpp:40-48: the first option that matches is taken out; an empty
word if there is none. -/
def checkOpt (matcher : Word → Bool) : List Word → Word × List Word
  | [] => ([], [])
  | o :: os => if matcher o = true then (o, os) else ((checkOpt matcher os).1, o :: (checkOpt matcher os).2)

/-- `CommandLine::checkForSkippedOpt` with a text, ConsoleUtils.h:30-33. -/
def checkFlag (flag : Word) (os : List Word) : Bool × List Word :=
  (decide ((checkOpt (fun o => o == flag) os).1 ≠ []), (checkOpt (fun o => o == flag) os).2)

/-- `CommandLine::finalize`, ConsoleUtils.cpp:50-56, and what follows. -/
def finalize (os : List Word) (next : Outcome) : Outcome :=
  match os with
  | [] => next
  | o :: _ => .fatal (.unrecognizedOption o)

/-- `ensureTerminated`, ConsoleUtils.cpp:58-63, and what follows, which is given the options. -/
def terminated (cl : CL) (next : List Word → Outcome) : Outcome :=
  let t := readToken cl.rest cl.skipped
  if t.1 ≠ [] then .fatal (.unexpectedToken t.1) else next t.2.skipped

/-- `ensureTerminated` and `finalize` one after the other, as in Command_Folder.cpp:33-34 and many other places. -/
def done (cl : CL) (next : Outcome) : Outcome := terminated cl fun os => finalize os next

/-- A name is read, as in Command_Folder.cpp:44-47 and many other places, and what follows. -/
def named (cl : CL) (next : Word → CL → Outcome) : Outcome :=
  let t := readToken cl.rest cl.skipped
  if t.1 = [] then .fatal .expectedName else next t.1 t.2

/-- `prefixMatch`, ConsoleUtils.cpp:11-15, with the default of ConsoleUtils.h:44. -/
def prefixMatch (input cmd : Word) : Bool := if input.length < 2 then false else Str.startsWith cmd input

/-- The option `--config=`: CommandHelpers.cpp:38-42, Command_Generate.cpp:21-25. -/
def takeConfig (os : List Word) : Word × List Word :=
  let t := checkOpt (fun arg => Str.startsWith arg (word "--config=")) os
  (if t.1 ≠ [] then t.1.drop 9 else t.1, t.2)

/-- `BuildParams::extractOptions`, CommandHelpers.cpp:37-49, with `AddParams::extractOptions`,
CommandHelpers.cpp:16-18. -/
def extractOptions (targetName : Word) (os : List Word) : BuildParams × List Word :=
  let c := takeConfig os
  let add := checkFlag (word "--add") c.2
  let auto := checkFlag (word "--auto") add.2
  let shared := if add.1 ∨ auto.1 then checkFlag (word "--shared") auto.2 else (false, auto.2)
  (⟨targetName, c.1, add.1, auto.1, shared.1⟩, shared.2)

/-- `command_folder`, Command_Folder.cpp:13-111. -/
def commandFolder (cl : CL) : Outcome :=
  let t := readToken cl.rest cl.skipped
  if t.1 = [] then done t.2 (.usage (word "folder"))
  else if prefixMatch t.1 (word "list") then done t.2 (.does .folderList true)
  else if prefixMatch t.1 (word "create") then named t.2 fun n cl => done cl (.does (.folderCreate n) true)
  else if prefixMatch t.1 (word "delete") then named t.2 fun n cl => done cl (.does (.folderDelete n) true)
  else if prefixMatch t.1 (word "set") then named t.2 fun n cl => done cl (.does (.folderSet n) true)
  else .fatal (.unrecognizedSub t.1)

/-- `command_target`, Command_Target.cpp:38-188; `haveFolder` = there is a current build folder. -/
def commandTarget (haveFolder : Bool) (cl : CL) : Outcome :=
  if haveFolder = false then .fatal .noFolder
  else
    let t := readToken cl.rest cl.skipped
    if t.1 = [] then done t.2 (.usage (word "target"))
    else if prefixMatch t.1 (word "list") then done t.2 (.does .targetList true)
    else if prefixMatch t.1 (word "add") then
      named t.2 fun n cl => terminated cl fun os =>
        let shared := checkFlag (word "--shared") os
        finalize shared.2 (.does (.targetAdd n shared.1) true)
    else if prefixMatch t.1 (word "remove") then named t.2 fun n cl => done cl (.does (.targetRemove n) true)
    else if prefixMatch t.1 (word "set") then named t.2 fun n cl => done cl (.does (.targetSet n) true)
    else if prefixMatch t.1 (word "graph") then done t.2 (.does .targetGraph true)
    else .fatal (.unrecognizedSub t.1)

/-- `command_module`, Command_Module.cpp:16-70. -/
def commandModule (cl : CL) : Outcome :=
  let t := readToken cl.rest cl.skipped
  if t.1 = [] then done t.2 (.usage (word "module"))
  else if prefixMatch t.1 (word "list") then done t.2 (.does .moduleList true)
  else if prefixMatch t.1 (word "update") then done t.2 (.does .moduleUpdate true)
  else .fatal (.unrecognizedSub t.1)

/-- `command_extern`, Command_Extern.cpp:67-230. -/
def commandExtern (haveFolder : Bool) (cl : CL) : Outcome :=
  if haveFolder = false then .fatal .noFolder
  else
    let t := readToken cl.rest cl.skipped
    if t.1 = [] then done t.2 (.usage (word "extern"))
    else if prefixMatch t.1 (word "list") then done t.2 (.does .externList true)
    else if prefixMatch t.1 (word "info") then named t.2 fun n cl => done cl (.does (.externInfo n) true)
    else if prefixMatch t.1 (word "select") then
      named t.2 fun n cl => terminated cl fun os =>
        let install := checkFlag (word "--install") os
        finalize install.2 (.does (.externSelect n install.1) true)
    else if prefixMatch t.1 (word "selected") then done t.2 (.does .externSelected true)
    else if prefixMatch t.1 (word "install") then named t.2 fun n cl => done cl (.does (.externInstall n) true)
    else .fatal (.unrecognizedSub t.1)

/-- `command_generate`, Command_Generate.cpp:14-26. -/
def commandGenerate (haveFolder : Bool) (cl : CL) : Outcome :=
  if haveFolder = false then .fatal .noFolder
  else terminated cl fun os => finalize (takeConfig os).2 (.does (.generate (takeConfig os).1) true)

/-- `command_build`, Command_Build.cpp:15-22. -/
def commandBuild (cl : CL) : Outcome :=
  let t := readToken cl.rest cl.skipped
  terminated t.2 fun os =>
    let p := extractOptions t.1 os
    finalize p.2 (.does (.build p.1) true)

/-- `command_run`, Command_Run.cpp:16-27. -/
def commandRun (cl : CL) : Outcome :=
  let t := readToken cl.rest cl.skipped
  terminated t.2 fun os =>
    let p := extractOptions t.1 os
    let nobuild := checkFlag (word "--nobuild") p.2
    finalize nobuild.2 (.does (.run p.1 !nobuild.1) true)

/-- `main`, Main.cpp:53-107, with the arguments after the name of the program.  `command_rpc`
(Command_RPC.cpp:67-93) does not look at the command line; `command_open`, `command_codegen`, `command_bootstrap` and
`command_cleanup` only see that it ends (Command_Open.cpp:20-21, Command_CodeGen.cpp:205-206,
Command_Bootstrap.cpp:16-17, Command_Cleanup.cpp:100-101). -/
def plytool (haveFolder : Bool) (args : List Word) : Outcome :=
  let t := readToken args []
  if t.1 = [] then finalize t.2.skipped (.usage [])
  else if t.1 = word "rpc" then .does .rpc false
  else if prefixMatch t.1 (word "folder") then commandFolder t.2
  else if prefixMatch t.1 (word "target") then commandTarget haveFolder t.2
  else if prefixMatch t.1 (word "module") then commandModule t.2
  else if prefixMatch t.1 (word "extern") then commandExtern haveFolder t.2
  else if prefixMatch t.1 (word "generate") then commandGenerate haveFolder t.2
  else if prefixMatch t.1 (word "build") then commandBuild t.2
  else if prefixMatch t.1 (word "run") then commandRun t.2
  else if prefixMatch t.1 (word "open") then done t.2 (.does .open true)
  else if prefixMatch t.1 (word "codegen") then done t.2 (.does .codegen true)
  else if prefixMatch t.1 (word "bootstrap") then done t.2 (.does .bootstrap true)
  else if prefixMatch t.1 (word "cleanup") then done t.2 (.does .cleanup true)
  else .fatal (.unrecognizedCommand t.1)

end Verif.Cmd
