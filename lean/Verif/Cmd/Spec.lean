import Verif.Cmd.Model
/-!
# The command line of plytool — what is meant
-/
namespace Verif.Cmd
open Verif

/-- An option starts with a dash. -/
def IsOpt (a : Word) : Prop := a.head? = some 45

instance (a : Word) : Decidable (IsOpt a) := by unfold IsOpt; infer_instance

/-- The words of a command line, without its options. -/
def words (args : List Word) : List Word := args.filter fun a => ¬ IsOpt a

/-- The options of a command line. -/
def options (args : List Word) : List Word := args.filter fun a => IsOpt a

/-- A word stands for a name if it is a prefix of at least two letters. -/
def Abbrev (w name : Word) : Prop := 2 ≤ w.length ∧ w <+: name

/-- The name of a command, and of what to do within it. -/
def Command.names : Command → List Word
  | .rpc => [word "rpc"]
  | .folderList => [word "folder", word "list"]
  | .folderCreate _ => [word "folder", word "create"]
  | .folderDelete _ => [word "folder", word "delete"]
  | .folderSet _ => [word "folder", word "set"]
  | .targetList => [word "target", word "list"]
  | .targetAdd _ _ => [word "target", word "add"]
  | .targetRemove _ => [word "target", word "remove"]
  | .targetSet _ => [word "target", word "set"]
  | .targetGraph => [word "target", word "graph"]
  | .moduleList => [word "module", word "list"]
  | .moduleUpdate => [word "module", word "update"]
  | .externList => [word "extern", word "list"]
  | .externInfo _ => [word "extern", word "info"]
  | .externSelect _ _ => [word "extern", word "select"]
  | .externSelected => [word "extern", word "selected"]
  | .externInstall _ => [word "extern", word "install"]
  | .generate _ => [word "generate"]
  | .build _ => [word "build"]
  | .run _ _ => [word "run"]
  | .open => [word "open"]
  | .codegen => [word "codegen"]
  | .bootstrap => [word "bootstrap"]
  | .cleanup => [word "cleanup"]

/-- What the command is applied to. -/
def Command.operands : Command → List Word
  | .folderCreate n | .folderDelete n | .folderSet n | .targetAdd n _ | .targetRemove n | .targetSet n
  | .externInfo n | .externSelect n _ | .externInstall n => [n]
  | .build p | .run p _ => if p.targetName = [] then [] else [p.targetName]
  | _ => []

/-- An option that is given or not. -/
def given (b : Bool) (o : Word) : List Word := if b then [o] else []

/-- The option for the configuration. -/
def configOption (c : Word) : List Word := if c = [] then [] else [word "--config=" ++ c]

/-- The options of `BuildParams`. -/
def BuildParams.options (p : BuildParams) : List Word :=
  configOption p.configName ++ given p.doAdd (word "--add") ++ given p.doAuto (word "--auto") ++
    given p.makeShared (word "--shared")

/-- The options of a command, in some order. -/
def Command.options : Command → List Word
  | .targetAdd _ shared => given shared (word "--shared")
  | .externSelect _ install => given install (word "--install")
  | .generate c => configOption c
  | .build p => p.options
  | .run p doBuild => p.options ++ given (!doBuild) (word "--nobuild")
  | _ => []

/-- The commands with an option for the configuration; an empty one is as good as none. -/
def Command.noConfig : Command → Prop
  | .generate c => c = []
  | .build p | .run p _ => p.configName = []
  | _ => False

/-- The commands that need a build folder. -/
def Command.needsFolder : Command → Prop
  | .targetList | .targetAdd _ _ | .targetRemove _ | .targetSet _ | .targetGraph
  | .externList | .externInfo _ | .externSelect _ _ | .externSelected | .externInstall _
  | .generate _ => True
  | _ => False

/-- What can be asked for: names do not start with a dash and are not empty, and `--shared` goes with `--add` or
`--auto`. -/
def Command.Proper : Command → Prop
  | .folderCreate n | .folderDelete n | .folderSet n | .targetAdd n _ | .targetRemove n | .targetSet n
  | .externInfo n | .externSelect n _ | .externInstall n => n ≠ [] ∧ ¬ IsOpt n
  | .build p | .run p _ => ¬ IsOpt p.targetName ∧ (p.makeShared → p.doAdd ∨ p.doAuto)
  | .rpc => False
  | _ => True

/-- The options of a command line come to those of a command. -/
def OptsFor (c : Command) (os : List Word) : Prop :=
  os.Perm c.options ∨ (c.noConfig ∧ os.Perm (word "--config=" :: c.options))

/-- The words stand for the names, one by one. -/
def Stands : List Word → List Word → Prop
  | [], [] => True
  | w :: ws, n :: ns => Abbrev w n ∧ Stands ws ns
  | _, _ => False

/-- Two pairs of names begin alike: `select` and `selected`, `info` and `install`.  For the later one of each, the word
must not stand for the earlier one as well. -/
def Clear (c : Command) (ws : List Word) : Prop :=
  match c with
  | .externSelected => ¬ Abbrev (ws.getD 1 []) (word "select")
  | .externInstall _ => ¬ Abbrev (ws.getD 1 []) (word "info")
  | _ => True

/-- The command line asks for the command: its words stand for the names of the command and are followed by what it is
applied to; its options are those of the command. -/
def Asks (args : List Word) (c : Command) : Prop :=
  OptsFor c (options args) ∧ ∃ ws, words args = ws ++ c.operands ∧ Stands ws c.names ∧ Clear c ws

/-- No argument is empty. -/
def Solid (args : List Word) : Prop := [] ∉ args

instance (args : List Word) : Decidable (Solid args) := by unfold Solid; infer_instance

end Verif.Cmd
