import Verif.Build.Model
/-!
# Instantiating a project — model of build/repo/ply-build-repo/ProjectInstantiator.cpp

The sources of dependencies (`DependencySource`: the targets and externs that the repos define) are
numbered, and so are the extern providers.  A `Dependency` object is named by the index of its entry in
`ProjectInstantiationResult::dependencies`.

What a module function (the C++ function that describes a target) or an extern function does is given as
a list of the calls it makes.  The functions are taken to do the same whatever the calls return; names
are taken to be resolved already (a name that cannot be resolved is logged and otherwise ignored, so that
there is no call).  The tree that is built for `plytool` to print (`depTreeNode`) is left out.
-/
namespace Verif.Inst

open Verif.Build (Vis TType Str PPDef Container)

/-- What a module or extern function sets directly in a `BuildTarget` (Dependency.h:57-94) and its
`Dependency` (Dependency.h:30-45).  Source files are reduced to whether there are any
(`anySourceFiles`) and whether the empty `Null.cpp` was added. -/
structure Data where
  ttype : TType := .lib
  dynPrefix : Str := []
  privIncludes : List Str := []
  privDefines : List PPDef := []
  privFlags : List Str := []
  includeDirs : List Str := []
  defines : List PPDef := []
  libs : List Str := []
  dlls : List Str := []
  frameworks : List Str := []
  flags : List Str := []
  anySource : Bool := false
  nullFile : Bool := false
  deriving DecidableEq, Repr

/-- One call made by a module or extern function: adding a dependency (`ModuleArgs::addTarget` or
`addExtern` in ModuleArgs.cpp:71-123, with the source found for the name), or changing data of its own
(`addIncludeDir` … in ModuleArgs.cpp:16-43, or directly through `args->buildTarget`). -/
inductive Act where
  | dep (v : Vis) (s : Nat)
  | edit (f : Data → Data)

/-- `DependencySource::type`, and `TargetInstantiator::moduleFunc`; DependencySource.h:17-40. -/
inductive Body where
  | target (acts : List Act)
  | extern

/-- `DependencySource`, DependencySource.h:13-25. -/
structure Source where
  name : Str
  body : Body

/-- `ExternProvider`, ExternProvider.h: the extern it provides, and what `externFunc` does when asked to
instantiate: it may ask the instantiator it is given for more dependencies, and tells whether it is
installed (`ExternResult::Instantiated`). -/
structure Provider where
  extern_ : Nat
  acts : List Act
  installed : Bool

/-- The sources there are, the providers, and `env->externSelectors`. -/
structure Project where
  source : Nat → Source
  provider : Nat → Provider
  selectors : List Nat

/-- `Dependency`, Dependency.h:30-45, with its `BuildTarget` if it has one: whether it does, its name and
its `sharedContainer`. -/
structure Dep where
  deps : List (Vis × Nat)
  init : Bool
  isTarget : Bool
  name : Str
  shared : Option Nat
  data : Data
  deriving DecidableEq, Repr

/-- `ProjectInstantiationResult::DependencyEntry`, ProjectInstantiator.h: the source and the owned
`Dependency`, which may be null. -/
structure Entry where
  src : Nat
  dep : Option Dep
  deriving DecidableEq, Repr

/-- `ProjectInstantiationResult` and `ProjectInstantiator::sharedContainer`, ProjectInstantiator.h.  The
hash map `dependencyMap` (from sources to indices) is represented by the entries themselves: it has the
index of each source that has an entry. -/
structure St where
  entries : List Entry
  shared : Option Nat
  unselected : List Nat
  uninstalled : List Nat
  deriving DecidableEq, Repr

/-- Outcome: normal; the crash in `instantiatorError` (ModuleArgs.cpp:46-49) because of a loop
(ProjectInstantiator.cpp:22) or of a repeated dependency (ModuleArgs.cpp:61); or deeper recursion than
the model was allowed. -/
inductive Res (α : Type) where
  | ok (a : α)
  | loop (s : Nat)
  | twice (s : Nat)
  | deep
  deriving DecidableEq, Repr

/-- Go on with the result, ProjectInstantiator.cpp:17-165 (control flow). -/
def Res.bind {α β : Type} : Res α → (α → Res β) → Res β
  | .ok a, f => f a
  | .loop s, _ => .loop s
  | .twice s, _ => .twice s
  | .deep, _ => .deep

/-- `dependencyMap.find`, ProjectInstantiator.cpp:18. -/
def St.find (st : St) (s : Nat) : Option Nat := st.entries.findIdx? (fun e => e.src == s)

/-- `result->dependencies[i].dep`, ProjectInstantiator.cpp:20. -/
def St.depAt (st : St) (i : Nat) : Option Dep := (st.entries[i]?).bind (·.dep)

/-- Change the `Dependency` of entry `i` in place, through the pointer that `ModuleArgs::buildTarget` leads to
(ProjectInstantiator.cpp:55, 69; ModuleArgs.cpp:68). -/
def St.modDep (st : St) (i : Nat) (f : Dep → Dep) : St :=
  { st with entries := st.entries.modify i (fun e => { e with dep := e.dep.map f }) }

/-- `find(...) < 0 → append`, ProjectInstantiator.cpp:120-122, 143-145. -/
def addNew (l : List Nat) (x : Nat) : List Nat := if x ∈ l then l else l ++ [x]

/-- The calls of a module function whose target has entry `i`: `addDependency`, ModuleArgs.cpp:51-69,
for each dependency, and its own data. -/
def runTarget (rec : Nat → St → Res (St × Option Nat)) (i : Nat) : List Act → St → Res St
  | [], st => .ok st
  | .edit f :: rest, st =>
    runTarget rec i rest (st.modDep i (fun d => { d with data := f d.data }))
  | .dep v s :: rest, st =>
    (rec s st).bind fun r =>
      match r.2 with
      | none => runTarget rec i rest r.1
      | some j =>
        if ((r.1.depAt i).map (fun d => d.deps.any (fun p => p.2 == j))).getD false then .twice s
        else runTarget rec i rest (r.1.modDep i (fun d => { d with deps := d.deps ++ [(v, j)] }))

/-- The calls of an extern function: `args->projInst->instantiate` and `args->dep->addDependency`
(Dependency.cpp:13-25) for each dependency, and its own data.  Its `Dependency` has no entry yet
(ProjectInstantiator.cpp:135-141). -/
def runExtern (rec : Nat → St → Res (St × Option Nat)) : List Act → St → Dep → Res (St × Dep)
  | [], st, d => .ok (st, d)
  | .edit f :: rest, st, d => runExtern rec rest st { d with data := f d.data }
  | .dep v s :: rest, st, d =>
    (rec s st).bind fun r =>
      match r.2 with
      | none => runExtern rec rest r.1 d
      | some j => runExtern rec rest r.1 { d with deps := (Build.addDependency d.deps v j).1 }

/-- The adjustment of the type of a target after its module function, ProjectInstantiator.cpp:71-104:
`root` is `isSharedRoot`, `inShared` whether `this->sharedContainer` is set. -/
def finish (root inShared : Bool) (d : Data) : Data :=
  let t1 : TType :=
    if d.ttype = .lib then
      if root then .dll else if inShared && !d.dynPrefix.isEmpty then .objectLib else .lib
    else d.ttype
  if d.anySource then { d with ttype := t1 }
  else match t1 with
    | .lib => { d with ttype := .headerOnly }
    | .objectLib => { d with ttype := .headerOnly }
    | .dll => { d with ttype := t1, nullFile := true }
    | .exe => { d with ttype := t1, nullFile := true }
    | .headerOnly => { d with ttype := t1 }

/-- A new `Dependency` with a `BuildTarget`, ProjectInstantiator.cpp:53-64. -/
def newTarget (name : Str) (shared : Option Nat) : Dep :=
  { deps := [], init := false, isTarget := true, name := name, shared := shared, data := {} }

/-- A new `Dependency` for an extern, ProjectInstantiator.cpp:135. -/
def newExtern : Dep :=
  { deps := [], init := false, isTarget := false, name := [], shared := none, data := {} }

/-- `ProjectInstantiator::instantiate`, ProjectInstantiator.cpp:17-165. -/
def instantiate (P : Project) : Nat → Nat → Bool → St → Res (St × Option Nat)
  | fuel, s, root, st =>
    match st.find s with
    | some i =>
      match st.depAt i with
      | some d => if d.init then .ok (st, some i) else .loop s
      | none => .ok (st, none)
    | none =>
      match fuel with
      | 0 => .deep
      | fuel + 1 =>
        let i := st.entries.length
        match (P.source s).body with
        | .target acts =>
          let sh := if root then some i else st.shared
          let st1 : St := { st with
            entries := st.entries ++ [⟨s, some (newTarget (P.source s).name sh)⟩], shared := sh }
          (runTarget (fun t st => instantiate P fuel t false st) i acts st1).bind fun st2 =>
            .ok (st2.modDep i (fun d => { d with
              data := finish root st2.shared.isSome d.data, init := true }), some i)
        | .extern =>
          let st1 : St := { st with entries := st.entries ++ [⟨s, none⟩] }
          match P.selectors.find? (fun p => (P.provider p).extern_ == s) with
          | none => .ok ({ st1 with unselected := addNew st1.unselected s }, none)
          | some p =>
            (runExtern (fun t st => instantiate P fuel t false st) (P.provider p).acts st1 newExtern).bind
              fun r =>
                if (P.provider p).installed then
                  .ok ({ r.1 with entries :=
                    r.1.entries.modify i (fun e => { e with dep := some { r.2 with init := true } }) },
                    some i)
                else .ok ({ r.1 with uninstalled := addNew r.1.uninstalled p }, none)

/-- The state of a new `ProjectInstantiator`, BuildFolder.cpp:168-171. -/
def St.start : St := { entries := [], shared := none, unselected := [], uninstalled := [] }

/-- The loop over the root targets in `BuildFolder::instantiateAllTargets`,
build/folder/ply-build-folder/BuildFolder.cpp:173-185, for root targets that were found: each with
whether it is to be made shared. -/
def instantiateRoots (P : Project) (fuel : Nat) : List (Nat × Bool) → St → Res St
  | [], st => .ok st
  | r :: rest, st => (instantiate P fuel r.1 r.2 st).bind fun q => instantiateRoots P fuel rest q.1

/-- The name of the target with entry `i` (`sharedContainer->name`, build/target/ply-build-target/Dependency.cpp:110). -/
def St.nameOf (st : St) (i : Nat) : Str := ((st.depAt i).map (·.name)).getD []

/-- The `Dependency` of an entry as the model of Dependency.h:30-94 (`Verif.Build`) has it, before
propagation. -/
def toNode (st : St) (d : Dep) : Build.Node :=
  { deps := d.deps, propagated := false, visible := [], includeDirs := d.data.includeDirs,
    defines := d.data.defines, libs := d.data.libs, dlls := d.data.dlls,
    frameworks := d.data.frameworks, flags := d.data.flags
    target := if d.isTarget then
        some { ttype := d.data.ttype, name := d.name,
               shared := d.shared.map (fun i => ⟨i, st.nameOf i⟩), dynPrefix := d.data.dynPrefix,
               privIncludes := d.data.privIncludes, privDefines := d.data.privDefines,
               privFlags := d.data.privFlags }
      else none }

/-- All `Dependency` objects that ProjectInstantiator.cpp:167-173 gets, before propagation; indices without one get an
empty node. -/
def toWorld (st : St) : Build.World :=
  { node := fun i => match st.depAt i with
      | some d => toNode st d
      | none => toNode st newExtern
    errors := [] }

/-- The entries that `ProjectInstantiator::propagateAllDependencies` goes through,
ProjectInstantiator.cpp:167-173. -/
def present (st : St) : List Nat := (List.range st.entries.length).filter (fun i => (st.depAt i).isSome)

/-- The loop in `writeCMakeLists`, ProjectInstantiator.cpp:181-185: the targets to be written.  `none`
where it goes through the null pointer of an extern that is not available. -/
def cmakeTargets : List Entry → Option (List Nat)
  | [] => some []
  | e :: rest =>
    match e.dep with
    | none => none
    | some d => (cmakeTargets rest).map (fun l => if d.isTarget then e.src :: l else l)

end Verif.Inst
