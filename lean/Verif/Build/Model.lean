import Verif.Basic
/-!
# Build target dependencies — model of build/target/ply-build-target/Dependency.{h,cpp}

`Dependency` objects are numbered.  A `BuildTarget` belongs to its `Dependency` and is kept inside it.
-/
namespace Verif.Build

/-- Text. -/
abbrev Str := List Byte

/-- `Visibility`, Dependency.h:13-16. -/
inductive Vis where
  | priv
  | pub
  deriving DecidableEq, Repr

/-- `BuildTargetType`, Dependency.h:49-55. -/
inductive TType where
  | headerOnly
  | lib
  | objectLib
  | dll
  | exe
  deriving DecidableEq, Repr

/-- `PreprocessorDefinition`, Dependency.h:25-28. -/
structure PPDef where
  key : Str
  value : Str
  deriving DecidableEq, Repr

/-- What `BuildTarget::sharedContainer` points to (Dependency.h:71): which target it is, and its name. -/
structure Container where
  id : Nat
  name : Str
  deriving DecidableEq, Repr

/-- `BuildTarget`, Dependency.h:57-94, without the source files and the precompiled header. -/
structure Target where
  ttype : TType
  name : Str
  shared : Option Container
  dynPrefix : Str
  privIncludes : List Str
  privDefines : List PPDef
  privFlags : List Str
  deriving DecidableEq, Repr

/-- `Dependency`, Dependency.h:30-45. -/
structure Node where
  deps : List (Vis × Nat)
  propagated : Bool
  visible : List Nat
  includeDirs : List Str
  defines : List PPDef
  libs : List Str
  dlls : List Str
  frameworks : List Str
  flags : List Str
  target : Option Target
  deriving DecidableEq, Repr

/-- All dependencies, and the messages passed to `TargetError::log` (the key they name). -/
structure World where
  node : Nat → Node
  errors : List Str

/-- Outcome: normal, failed assertion, or deeper recursion than the model was allowed. -/
inductive Res (α : Type) where
  | ok (a : α)
  | assert
  | deep

/-- `Dependency::addDependency`, Dependency.cpp:13-25: the dependencies afterwards and the result. -/
def addDependency (deps : List (Vis × Nat)) (v : Vis) (d : Nat) : List (Vis × Nat) × Bool :=
  match deps.findIdx? (fun p => p.2 = d) with
  | some i => (if v = .pub then deps.modify i (fun p => (v, p.2)) else deps, false)
  | none => (deps ++ [(v, d)], true)

/-- `merge`, Dependency.cpp:27-34. -/
def merge {α : Type} [DecidableEq α] (dst : List α) : List α → List α
  | [] => dst
  | x :: rest => merge (if x ∈ dst then dst else dst ++ [x]) rest

/-- `mergeDefines`, Dependency.cpp:36-51: the definitions and the clashing keys reported. -/
def mergeDefines (dst : List PPDef) : List PPDef → List PPDef × List Str
  | [] => (dst, [])
  | x :: rest =>
    match dst.find? (fun p => p.key = x.key) with
    | some p =>
      let r := mergeDefines dst rest
      (r.1, if p.value ≠ x.value then x.key :: r.2 else r.2)
    | none => mergeDefines (dst ++ [x]) rest

/-- `find(arr, item) < 0 → append`, Dependency.cpp:102-104, 110-112. -/
def addNew (l : List Str) (x : Str) : List Str := if x ∈ l then l else l ++ [x]

/-- `"$<TARGET_OBJECTS:{}>"`, Dependency.cpp:100. -/
def objectsName (name : Str) : Str := "$<TARGET_OBJECTS:".toUTF8.toList ++ name ++ ">".toUTF8.toList

/-- The name a statically linked target is linked by, Dependency.cpp:96-101. -/
def linkName (t : Target) : Option Str :=
  match t.ttype with
  | .headerOnly => none
  | .objectLib => some (objectsName t.name)
  | _ => some t.name

/-- `staticLink`, Dependency.cpp:85-89. -/
def staticLink (dep child : Option Target) : Bool :=
  match dep, child with
  | some d, some c => d.shared = c.shared
  | _, _ => true

/-- Merging one child into the visible properties and the target, Dependency.cpp:66-83; the second part
is the keys of clashing definitions. -/
def absorbProps (v : Vis) (dep child : Node) : Node × List Str :=
  let visible := if v = .pub then merge dep.visible child.visible else dep.visible
  let (target, e1) := match dep.target with
    | none => (none, [])
    | some t =>
      let defs := mergeDefines t.privDefines child.defines
      (some { t with
        privIncludes := merge t.privIncludes child.includeDirs
        privDefines := defs.1
        privFlags := merge t.privFlags child.flags }, defs.2)
  match v with
  | .pub =>
    let defs := mergeDefines dep.defines child.defines
    ({ dep with
        visible := visible
        target := target
        includeDirs := merge dep.includeDirs child.includeDirs
        defines := defs.1
        flags := merge dep.flags child.flags }, e1 ++ defs.2)
  | .priv => ({ dep with visible := visible, target := target }, e1)

/-- Merging what is linked, Dependency.cpp:85-113; `none`: the assertion at line 108 fails. -/
def absorbLibs (dep child : Node) : Option Node :=
  if staticLink dep.target child.target then
    let libs := merge dep.libs child.libs
    some { dep with
      libs := match child.target with
        | none => libs
        | some t => match linkName t with
          | none => libs
          | some n => addNew libs n
      dlls := merge dep.dlls child.dlls
      frameworks := merge dep.frameworks child.frameworks }
  else
    match child.target with
    | none => none
    | some t => match t.shared with
      | none => none
      | some ctr => some { dep with libs := addNew dep.libs ctr.name }

/-- `setPreprocessorDefinition(Visibility::Private, …)`, BuildTarget.cpp:101-111. -/
def setPrivateDef (defs : List PPDef) (key value : Str) : List PPDef :=
  match defs.findIdx? (fun p => p.key = key) with
  | some i => defs.modify i (fun p => { p with value := value })
  | none => defs ++ [⟨key, value⟩]

/-- `"_EXPORTING"` / `"_IMPORTING"`, Dependency.cpp:124, 128. -/
def exportKey (same : Bool) (pre : Str) : Str :=
  pre ++ (if same then "_EXPORTING" else "_IMPORTING").toUTF8.toList

/-- `"1"`, Dependency.cpp:125, 129. -/
def one : Str := "1".toUTF8.toList

/-- Import/export definitions, Dependency.cpp:118-137; `none`: the assertion at line 134 fails. -/
def exportDefs (shared : Option Container) (targets : List (Option Target)) (defs : List PPDef) :
    Option (List PPDef) :=
  match targets with
  | [] => some defs
  | none :: rest => exportDefs shared rest defs
  | some t :: rest =>
    match t.shared with
    | some ctr =>
      if t.dynPrefix ≠ [] then
        exportDefs shared rest (setPrivateDef defs (exportKey (some ctr = shared) t.dynPrefix) one)
      else
        exportDefs shared rest defs
    | none => if shared = none then exportDefs shared rest defs else none

/-- Change one dependency. -/
def World.set (w : World) (d : Nat) (n : Node) : World :=
  { w with node := fun e => if e = d then n else w.node e }

/-- The loop over the dependencies, Dependency.cpp:63-114; `rec` is the recursive call, `bd` is
`buildDeps`. -/
def children (rec : World → Nat → Res World) (d : Nat) :
    World → List Nat → List (Vis × Nat) → Res (World × List Nat)
  | w, bd, [] => .ok (w, bd)
  | w, bd, (v, c) :: rest =>
    match rec w c with
    | .assert => .assert
    | .deep => .deep
    | .ok w1 =>
      let (n1, errs) := absorbProps v (w1.node d) (w1.node c)
      match absorbLibs n1 (w1.node c) with
      | none => .assert
      | some n2 =>
        let w2 := { w1.set d n2 with errors := w1.errors ++ errs }
        children rec d w2 (merge bd (w1.node c).visible) rest

/-- `propagateDependencyProperties`, Dependency.cpp:53-141. -/
def propagate : Nat → World → Nat → Res World
  | fuel, w, d =>
    if (w.node d).propagated then .ok w
    else
      match fuel with
      | 0 => .deep
      | fuel + 1 =>
        let n0 := { w.node d with visible := (w.node d).visible ++ [d] }
        match children (propagate fuel) d (w.set d n0) [d] (w.node d).deps with
        | .assert => .assert
        | .deep => .deep
        | .ok (w1, bd) =>
          match (w1.node d).target with
          | none => .ok (w1.set d { w1.node d with propagated := true })
          | some t =>
            match exportDefs t.shared (bd.map fun e => (w1.node e).target) t.privDefines with
            | none => .assert
            | some defs =>
              .ok (w1.set d { w1.node d with
                target := some { t with privDefines := defs }, propagated := true })

/-- `ProjectInstantiator::propagateAllDependencies`,
build/repo/ply-build-repo/ProjectInstantiator.cpp:167-173. -/
def propagateAll (fuel : Nat) : World → List Nat → Res World
  | w, [] => .ok w
  | w, d :: rest => match propagate fuel w d with
    | .assert => .assert
    | .deep => .deep
    | .ok w1 => propagateAll fuel w1 rest

end Verif.Build
