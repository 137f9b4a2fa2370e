import Verif.Esc.Model
/-!
# Names of modules, externs and providers — model

build/repo/ply-build-repo/{DependencySource,Repo,RepoRegistry,ExternProvider,ModuleArgs}.cpp; paths in
the comments below are relative to build/repo/ply-build-repo.

A `Repo*` is modelled by the position of the repo in the registry, a `TargetInstantiator*` by its repo and
its name (the name is the key of the map in the repo), a `DependencySource*` of an extern by its repo and
its position in `Repo::externs`, an `ExternProvider*` by its repo and its position in
`Repo::externProviders`.  A failed assertion is the outcome `none`.  Of the messages that are logged only
their kind is modelled; a message of level `Fatal`, after which the program exits, and a direct
`exit(1)` is the outcome `.exit`.
-/
namespace Verif.Names
open Verif

/-- A name or a text, `String` or `StringView`. -/
abbrev Name := List Byte

/-- A pointer to a target: repo and name. -/
abbrev Target := Nat × Name

/-- A pointer to an extern: repo and position. -/
abbrev Ext := Nat × Nat

/-- `ExternProvider`, ExternProvider.h:51-60: the extern and `providerName`; the repo is given by where
the provider is stored, and the function is left out. -/
structure Prov where
  ext : Ext
  name : Name
  deriving DecidableEq, Repr

/-- `Repo`, Repo.h:13-44.  `targets` are the keys of the map `targetInstantiators`, `externs` the names of
the externs. -/
structure Repo where
  name : Name
  targets : List Name
  externs : List Name
  providers : List Prov
  children : List Nat
  deriving DecidableEq, Repr

/-- `RepoRegistry::repos`, RepoRegistry.h.  It is a hash map, so the order of the list, in which the loops
below visit the repos, means nothing. -/
abbrev Registry := List Repo

/-- The kinds of messages logged with level `Error`. -/
inductive Msg where
  | invalid          -- "Invalid … name"
  | isRepo           -- "… is a repo; expected …"
  | cantFind         -- "Can't find …"
  | multiple         -- "… was found in multiple repos"
  | tooMany          -- "Too many components"
  | notEnough        -- "Not enough components"
  deriving DecidableEq, Repr

/-- A result together with the messages logged. -/
abbrev Res (α : Type) := Option α × List Msg

/-- The loop of `splitName`, DependencySource.cpp:21-38.  `start`: the position is zero.  `none`: invalid.
`readView<fmt::Identifier>(fmt::WithDash)` is the part of the text that `FormatParser<Identifier>` (modelled
in Verif.Esc) steps over, whatever it reports. -/
def splitLoop : (fuel : Nat) → (start : Bool) → Name → Option (List Name)
  | _, _, [] => some []
  | 0, _, _ :: _ => none
  | fuel + 1, start, c :: cs =>
    let s := if start then some (c :: cs) else if c = 46 then some cs else none
    match s with
    | none => none
    | some s =>
      let rest := (Esc.parseIdentifier false true s).2
      let ident := s.take (s.length - rest.length)
      if ident = [] then none
      else match splitLoop fuel false rest with
        | none => none
        | some r => some (ident :: r)

/-- `splitName`, DependencySource.cpp:18-45.  Every round steps over a byte, so the length of the text
bounds the number of rounds. -/
def splitName (text : Name) : Res (List Name) :=
  match splitLoop text.length true text with
  | none => (none, [.invalid])
  | some [] => (none, [.invalid])
  | some (c :: cs) => (some (c :: cs), [])

/-- `repos.find(name)`, RepoRegistry.cpp:172, 231, 313. -/
def findRepo (W : Registry) (name : Name) : Option Nat := W.findIdx? (fun r => r.name == name)

/-- `Repo::findTargetInstantiatorImm`, Repo.cpp:174-179. -/
def targetImm (W : Registry) (r : Nat) (name : Name) : Option Target :=
  match W[r]? with
  | none => none
  | some R => if name ∈ R.targets then some (r, name) else none

/-- `Repo::findExternImm`, Repo.cpp:94-101. -/
def externImm (W : Registry) (r : Nat) (name : Name) : Option Ext :=
  match W[r]? with
  | none => none
  | some R => (R.externs.findIdx? (· == name)).map fun i => (r, i)

/-- The search for a provider in one repo, RepoRegistry.cpp:322-324 and 350-352. -/
def providerImm (W : Registry) (r : Nat) (e : Ext) (name : Name) : Option (Nat × Nat) :=
  match W[r]? with
  | none => none
  | some R => (R.providers.findIdx? (fun p => p.ext == e && p.name == name)).map fun i => (r, i)

/-- The loops that look for the only match, RepoRegistry.cpp:203-211, 256-264 and 349-360, with the
callbacks of Repo.cpp:106-117 and 184-194: the first match and whether there was another one. -/
def pick {α : Type} (f : Nat → Option α) (acc : Option α × Bool) (r : Nat) : Option α × Bool :=
  match f r with
  | none => acc
  | some x =>
    match acc.1 with
    | none => (some x, acc.2)
    | some _ => (acc.1, true)

/-- The end of these loops, RepoRegistry.cpp:212-225, 266-279 and 362-384. -/
def decideOn {α : Type} (p : Option α × Bool) : Res α :=
  match p.1 with
  | none => (none, [.cantFind])
  | some x => if p.2 then (none, [.multiple]) else (some x, [])

/-- `for (Repo* repo : this->repos)`. -/
def allRepos (W : Registry) : List Nat := List.range W.length

/-- `RepoRegistry::findTargetInstantiator`, RepoRegistry.cpp:166-226. -/
def findTarget (W : Registry) (text : Name) : Res Target :=
  match splitName text with
  | (none, ms) => (none, ms)
  | (some comps, _) =>
    match comps with
    | [] => (none, [])
    | c :: cs =>
      match findRepo W c with
      | some r =>
        match cs with
        | [] => (none, [.isRepo])
        | [n] =>
          match targetImm W r n with
          | some t => (some t, [])
          | none => (none, [.cantFind])
        | _ => (none, [.tooMany])
      | none =>
        if cs ≠ [] then (none, [.tooMany])
        else decideOn ((allRepos W).foldl (pick fun r => targetImm W r c) (none, false))

/-- `findExternInternal`, RepoRegistry.cpp:228-280: the result and the components that are left.  The
message of line 245 contains `externName[1]`, which asserts if the name has only one byte. -/
def findExternInternal (W : Registry) (comps : List Name) : Option (Res Ext × List Name) :=
  match comps with
  | [] => none
  | c :: cs =>
    match findRepo W c with
    | some r =>
      match cs with
      | [] => some ((none, [.isRepo]), [])
      | n :: rest =>
        match externImm W r n with
        | some e => some ((some e, []), rest)
        | none => if n.length ≤ 1 then none else some ((none, [.cantFind]), rest)
    | none => some (decideOn ((allRepos W).foldl (pick fun r => externImm W r c) (none, false)), cs)

/-- `RepoRegistry::findExtern`, RepoRegistry.cpp:282-295.  Superfluous components are reported, but the
extern is returned nevertheless. -/
def findExtern (W : Registry) (text : Name) : Option (Res Ext) :=
  match splitName text with
  | (none, ms) => some (none, ms)
  | (some comps, _) =>
    match findExternInternal W comps with
    | none => none
    | some ((none, ms), _) => some (none, ms)
    | some ((some e, ms), rest) => some (some e, ms ++ if rest = [] then [] else [.tooMany])

/-- `RepoRegistry::getExternProvider`, RepoRegistry.cpp:297-386.  After the message of line 309-311 the
function goes on, and `comps[0]` in line 313 asserts. -/
def getExternProvider (W : Registry) (text : Name) : Option (Res (Nat × Nat)) :=
  match splitName text with
  | (none, ms) => some (none, ms)
  | (some comps, _) =>
    match findExternInternal W comps with
    | none => none
    | some ((none, ms), _) => some (none, ms)
    | some ((some e, _), rest) =>
      match rest with
      | [] => none
      | c :: cs =>
        match findRepo W c with
        | some r =>
          match cs with
          | [] => some (none, [.isRepo])
          | n :: more =>
            match providerImm W r e n with
            | none => some (none, [.cantFind])
            | some p => if more ≠ [] then some (none, [.tooMany]) else some (some p, [])
        | none =>
          match decideOn ((allRepos W).foldl (pick fun r => providerImm W r e c) (none, false)) with
          | (none, ms) => some (none, ms)
          | (some p, _) => if cs ≠ [] then some (none, [.tooMany]) else some (some p, [])

/-- `{}.{}` of `String::format` (DependencySource.cpp:14). -/
def dot (a b : Name) : Name := a ++ 46 :: b

/-- The name of a repo (`repo->repoName`); the empty name for a position outside of the registry, which
no pointer has. -/
def repoName (W : Registry) (r : Nat) : Name :=
  match W[r]? with
  | none => []
  | some R => R.name

/-- The name of an extern (`extern_->name`); empty for a pointer to nothing. -/
def extName (W : Registry) (e : Ext) : Name :=
  match W[e.1]? with
  | none => []
  | some R => (R.externs[e.2]?).getD []

/-- `DependencySource::getFullyQualifiedName`, DependencySource.cpp:13-15, of a target. -/
def fullTarget (W : Registry) (t : Target) : Name := dot (repoName W t.1) t.2

/-- `DependencySource::getFullyQualifiedName`, DependencySource.cpp:13-15, of an extern. -/
def fullExtern (W : Registry) (e : Ext) : Name := dot (repoName W e.1) (extName W e)

/-- `ExternProvider::getFullyQualifiedName`, ExternProvider.cpp:17-25, of a provider `p` in the repo `r`. -/
def fullProvider (W : Registry) (r : Nat) (p : Prov) : Name :=
  if r = p.ext.1 then dot (dot (repoName W r) (extName W p.ext)) p.name
  else dot (dot (dot (repoName W p.ext.1) (extName W p.ext)) (repoName W r)) p.name

/-- The test of `RepoRegistry::getShortDepSourceName`, RepoRegistry.cpp:389-398: does another repo have an
extern of this name?  The same for targets: their names are looked for among the externs, too. -/
def inOtherExterns (W : Registry) (r : Nat) (name : Name) : Bool :=
  (allRepos W).any fun q => q != r && (externImm W q name).isSome

/-- `RepoRegistry::getShortDepSourceName`, RepoRegistry.cpp:388-400, of a target. -/
def shortTarget (W : Registry) (t : Target) : Name :=
  if inOtherExterns W t.1 t.2 then fullTarget W t else t.2

/-- `RepoRegistry::getShortDepSourceName`, RepoRegistry.cpp:388-400, of an extern. -/
def shortExtern (W : Registry) (e : Ext) : Name :=
  if inOtherExterns W e.1 (extName W e) then fullExtern W e else extName W e

/-- `RepoRegistry::getShortProviderName`, RepoRegistry.cpp:402-420. -/
def shortProvider (W : Registry) (r : Nat) (p : Prov) : Name :=
  if (allRepos W).any fun q => q != r && (providerImm W q p.ext p.name).isSome then
    dot (dot (shortExtern W p.ext) (repoName W r)) p.name
  else dot (shortExtern W p.ext) p.name

/-- `repo->childRepos`. -/
def children (W : Registry) (r : Nat) : List Nat :=
  match W[r]? with
  | none => []
  | some R => R.children

/-- `RepoVisitor::visit`, Repo.cpp:65-79; `preChildren` is always `true`.  The callback is given by what it
does to the captured variables (`cb`) and by what it returns (`go`).  `none`: no end within `fuel` nested
calls. -/
def visit {σ : Type} (W : Registry) (cb : σ → Nat → σ) (go : Nat → Bool) :
    (fuel : Nat) → Nat → List Nat × σ → Option (List Nat × σ)
  | 0, _, _ => none
  | fuel + 1, r, (checked, s) =>
    if r ∈ checked then some (checked, s)
    else if go r then
      (children W r).foldlM (fun acc c => visit W cb go fuel c acc) (checked ++ [r], cb s r)
    else some (checked ++ [r], cb s r)

/-- `RepoVisitor{}.visit(this, …)`: a chain of nested calls meets no repo twice. -/
def visitFrom {σ : Type} (W : Registry) (cb : σ → Nat → σ) (go : Nat → Bool) (r : Nat) (s : σ) :
    Option σ :=
  (visit W cb go (W.length + 1) r ([], s)).map (·.2)

/-- `Repo::findChildRepo`, Repo.cpp:82-92. -/
def findChildRepo (W : Registry) (r : Nat) (name : Name) : Option (Option Nat) :=
  visitFrom W (fun s q => if repoName W q = name then some q else s) (fun q => repoName W q ≠ name) r none

/-- `Repo::findExternRecursive`, Repo.cpp:103-121. -/
def externRecursive (W : Registry) (r : Nat) (name : Name) : Option (Option Ext) :=
  (visitFrom W (pick fun q => externImm W q name) (fun _ => true) r (none, false)).map
    fun p => if p.2 then none else p.1

/-- `Repo::findTargetInstantiatorRecursive`, Repo.cpp:181-198. -/
def targetRecursive (W : Registry) (r : Nat) (name : Name) : Option (Option Target) :=
  (visitFrom W (pick fun q => targetImm W q name) (fun _ => true) r (none, false)).map
    fun p => if p.2 then none else p.1

/-- The result of `Repo::findOrCreateExtern`: found, or to be created (the lines from 164 on) in this repo
under this name, or nothing. -/
inductive Found where
  | found (e : Ext)
  | create (name : Name)
  | nothing (m : Msg)
  deriving DecidableEq, Repr

/-- `Repo::findOrCreateExtern`, Repo.cpp:123-172, with the components that are left; `none`: assertion. -/
def findOrCreate (W : Registry) (r : Nat) (comps : List Name) (allowCreate : Bool) :
    Option (Found × List Name) :=
  match comps with
  | [] => none
  | c :: cs =>
    (findChildRepo W r c).bind fun child =>
      match child with
      | some q =>
        match cs with
        | [] => some (.nothing .isRepo, [])
        | n :: rest =>
          match externImm W q n with
          | some e => some (.found e, rest)
          | none => if q = r ∧ allowCreate then some (.create n, rest) else some (.nothing .cantFind, rest)
      | none =>
        (externRecursive W r c).bind fun e =>
          match e with
          | some e => some (.found e, cs)
          | none => if allowCreate then some (.create c, cs) else some (.nothing .cantFind, cs)

/-- `ModuleArgs::addTarget`, ModuleArgs.cpp:71-106, for a module of the repo `r`: the target that the
dependency is added for.  Components that are left are ignored. -/
def depTarget (W : Registry) (r : Nat) (text : Name) : Option (Res Target) :=
  match splitName text with
  | (none, ms) => some (none, ms)
  | (some comps, _) =>
    match comps with
    | [] => some (none, [])
    | c :: cs =>
      (findChildRepo W r c).bind fun child =>
        match child with
        | some q =>
          match cs with
          | [] => some (none, [.isRepo])
          | n :: _ =>
            match targetImm W q n with
            | none => some (none, [.cantFind])
            | some t => some (some t, [])
        | none =>
          (targetRecursive W r c).map fun t =>
            match t with
            | none => (none, [.cantFind])
            | some t => (some t, [])

/-- `ModuleArgs::addExtern`, ModuleArgs.cpp:108-123, for a module of the repo `r`. -/
def depExtern (W : Registry) (r : Nat) (text : Name) : Option (Res Ext) :=
  match splitName text with
  | (none, ms) => some (none, ms)
  | (some comps, _) =>
    (findOrCreate W r comps false).map fun p =>
      match p with
      | (.found e, rest) => if rest ≠ [] then (none, [.tooMany]) else (some e, [])
      | (.create _, _) => (none, [])
      | (.nothing m, _) => (none, [m])

/-- The outcome of an operation that may end the program. -/
inductive Out where
  | exit
  | ok (W : Registry)
  deriving DecidableEq, Repr

/-- `Repo::addTargetInstantiator`, Repo.cpp:13-22. -/
def addTarget (W : Registry) (r : Nat) (name : Name) : Out :=
  match W[r]? with
  | none => .exit
  | some R => if name ∈ R.targets then .exit else .ok (W.set r { R with targets := R.targets ++ [name] })

/-- `Repo::addExternProvider`, Repo.cpp:24-56; the externs created in lines 164-171 of
`findOrCreateExtern` are appended here. -/
def addProvider (W : Registry) (r : Nat) (extText provName : Name) : Option Out :=
  match splitName extText with
  | (none, _) => some .exit
  | (some comps, _) =>
    match findOrCreate W r comps true, W[r]? with
    | none, _ => none
    | _, none => none
    | some (.nothing _, _), _ => some .exit
    | some (.found e, rest), some R =>
      if rest ≠ [] ∨ (46 : Byte) ∈ provName then some .exit
      else some (.ok (W.set r { R with providers := R.providers ++ [⟨e, provName⟩] }))
    | some (.create n, rest), some R =>
      if n = [] then none
      else if rest ≠ [] ∨ (46 : Byte) ∈ provName then some .exit
      else some (.ok (W.set r { R with
        externs := R.externs ++ [n], providers := R.providers ++ [⟨(r, R.externs.length), provName⟩] }))

end Verif.Names
