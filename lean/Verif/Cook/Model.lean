import Verif.Basic
/-!
# Cook jobs — model of cook/ply-cook/CookJob.{h,cpp}

Jobs are recooked when something they depend on changed.  Job identifiers, dependencies and what a
cook function does are arbitrary.
-/
namespace Verif.Cook

variable {Job Dep : Type} [DecidableEq Job]

/-- `CookContext::Status`, cook/ply-cook/CookJob.h:148-151. -/
inductive Status where
  | inProgress
  | upToDate
  deriving DecidableEq, Repr

/-- `CookResult`, cook/ply-cook/CookJob.h:73-98: dependencies and references (the errors and the
cooked data are left out). -/
structure Res (Job Dep : Type) where
  deps : List Dep
  refs : List Job

/-- What a `CookJobType::cook` function (cook/ply-cook/CookJob.h:31) does, as far as the tracker is
concerned: finish, append a dependency (`createFileDependency`, CookJob.cpp:75-89, or directly),
call `addReference` (CookJob.cpp:109-118), or cook another job and go on depending on its
result (`CookContext::cook`, CookJob.h:192-197). -/
inductive Prog (Job Dep : Type) where
  | done
  | dep (d : Dep) (k : Prog Job Dep)
  | ref (j : Job) (k : Prog Job Dep)
  | cook (j : Job) (k : Option (Res Job Dep) → Prog Job Dep)

/-- The part of the world that the tracker calls into: `DependencyType::hasChanged`
(cook/ply-cook/CookJob.h:57-59; `none`: its assertion fails, as CookJob.cpp:57 does for a file that
is gone), and the cook functions.  Both are fixed during one cook; job arguments are left out. -/
structure World (Job Dep : Type) where
  hasChanged : Job → Dep → Option Bool
  prog : Job → Prog Job Dep

/-- `CookContext` (cook/ply-cook/CookJob.h:147-198) and the results held by the jobs
(`CookJob::result`, CookJob.h:103).  The hash tables are a function and a list without
repetitions.  `log` is not in the code: it records the calls of cook functions. -/
structure St (Job Dep : Type) where
  checked : Job → Option Status
  deferred : List Job
  results : Job → Option (Res Job Dep)
  log : List Job

/-- Outcome: normal, a failed assertion, or too few steps allowed by the model. -/
inductive Out (α : Type) where
  | ok (a : α)
  | assert
  | fuel

/-- Put a job into the table of deferred jobs, `deferredJobs.insertOrFind`,
cook/ply-cook/CookJob.cpp:116, 228. -/
def addDeferred (l : List Job) (j : Job) : List Job := if j ∈ l then l else l ++ [j]

/-- Set a job's status in `checkedJobs`, cook/ply-cook/CookJob.cpp:201, 235. -/
def St.mark (s : St Job Dep) (j : Job) (v : Status) : St Job Dep :=
  { s with checked := fun k => if k = j then some v else s.checked k }

/-- Replace a job's result, cook/ply-cook/CookJob.cpp:221-223, or update it in place. -/
def St.store (s : St Job Dep) (j : Job) (r : Res Job Dep) : St Job Dep :=
  { s with results := fun k => if k = j then some r else s.results k }

/-- Is any dependency changed, cook/ply-cook/CookJob.cpp:208-213 (stops at the first that is). -/
def anyChanged (f : Dep → Option Bool) : List Dep → Option Bool
  | [] => some false
  | d :: ds =>
    match f d with
    | none => none
    | some true => some true
    | some false => anyChanged f ds

/-- `mustCook`, cook/ply-cook/CookJob.cpp:205-214. -/
def mustCook (w : World Job Dep) (j : Job) : Option (Res Job Dep) → Option Bool
  | none => some true
  | some r => anyChanged (w.hasChanged j) r.deps

/-- `CookResult::addReference`, cook/ply-cook/CookJob.cpp:109-118, on job `j`'s result. -/
def addReference (j : Job) (s : St Job Dep) (r : Job) : Out (St Job Dep) :=
  match s.results j with
  | none => .assert
  | some res =>
    if r ∈ res.refs then .assert
    else
      let s1 := s.store j { res with refs := res.refs ++ [r] }
      match s1.checked r with
      | some _ => .ok s1
      | none => .ok { s1 with deferred := addDeferred s1.deferred r }

/-- Run a cook function for job `j`; `ens` is `ensureCooked`. -/
def runProg (ens : St Job Dep → Job → Out (St Job Dep)) (j : Job) :
    Prog Job Dep → St Job Dep → Out (St Job Dep)
  | .done, s => .ok s
  | .dep d k, s =>
    match s.results j with
    | none => .assert
    | some res => runProg ens j k (s.store j { res with deps := res.deps ++ [d] })
  | .ref r k, s =>
    match addReference j s r with
    | .ok s1 => runProg ens j k s1
    | .assert => .assert
    | .fuel => .fuel
  | .cook i k, s =>
    match ens s i with
    | .ok s1 => runProg ens j (k (s1.results i)) s1
    | .assert => .assert
    | .fuel => .fuel

/-- The end of `ensureCooked`, cook/ply-cook/CookJob.cpp:232-236. -/
def finish (j : Job) (s : St Job Dep) : Out (St Job Dep) :=
  if s.checked j = some .inProgress then .ok (s.mark j .upToDate) else .assert

/-- `CookContext::ensureCooked`, cook/ply-cook/CookJob.cpp:189-237.  The first argument bounds the
depth of nested calls. -/
def ensureCooked (w : World Job Dep) : Nat → St Job Dep → Job → Out (St Job Dep)
  | 0, _, _ => .fuel
  | fuel + 1, s, j =>
    match s.checked j with
    | some .upToDate => .ok s
    | some .inProgress => .assert
    | none =>
      let s1 := s.mark j .inProgress
      match mustCook w j (s1.results j) with
      | none => .assert
      | some true =>
        let s2 := s1.store j ⟨[], []⟩
        match runProg (ensureCooked w fuel) j (w.prog j) { s2 with log := s2.log ++ [j] } with
        | .ok s3 => finish j s3
        | .assert => .assert
        | .fuel => .fuel
      | some false =>
        match s1.results j with
        | none => .assert
        | some res => finish j { s1 with deferred := res.refs.foldl addDeferred s1.deferred }

/-- The inner loop of `cookDeferred`, cook/ply-cook/CookJob.cpp:249-251. -/
def ensureAll (w : World Job Dep) (fuel : Nat) : St Job Dep → List Job → Out (St Job Dep)
  | s, [] => .ok s
  | s, j :: js =>
    match ensureCooked w fuel s j with
    | .ok s1 => ensureAll w fuel s1 js
    | .assert => .assert
    | .fuel => .fuel

/-- `CookContext::cookDeferred`, cook/ply-cook/CookJob.cpp:239-253.  `order` is the order in which
the hash table is enumerated (lines 244-246); the first argument bounds the number of rounds. -/
def cookDeferred (w : World Job Dep) (fuel : Nat) (order : List Job → List Job) :
    Nat → St Job Dep → Out (St Job Dep)
  | 0, _ => .fuel
  | rounds + 1, s =>
    if s.deferred = [] then .ok s
    else
      match ensureAll w fuel { s with deferred := [] } (order s.deferred) with
      | .ok s1 => cookDeferred w fuel order rounds s1
      | .assert => .assert
      | .fuel => .fuel

/-- `CookContext::isCooked`, cook/ply-cook/CookJob.cpp:262-265: answer and state afterwards.  A job
not found is inserted, as in progress (CookJob.h:158). -/
def isCooked (s : St Job Dep) (j : Job) : Bool × St Job Dep :=
  match s.checked j with
  | some v => (v == .upToDate, s)
  | none => (false, s.mark j .inProgress)

/-- Requests made between `beginCook` and `endCook`, cook/ply-cook/CookJob.cpp:173-187. -/
inductive Req (Job : Type) where
  | cook (j : Job)
  | deferred

/-- A sequence of requests. -/
def serve (w : World Job Dep) (fuel : Nat) (order : List Job → List Job) (rounds : Nat) :
    List (Req Job) → St Job Dep → Out (St Job Dep)
  | [], s => .ok s
  | .cook j :: rs, s =>
    match ensureCooked w fuel s j with
    | .ok s1 => serve w fuel order rounds rs s1
    | .assert => .assert
    | .fuel => .fuel
  | .deferred :: rs, s =>
    match cookDeferred w fuel order rounds s with
    | .ok s1 => serve w fuel order rounds rs s1
    | .assert => .assert
    | .fuel => .fuel

/-- A new cook context over results left by earlier ones. -/
def St.start (old : Job → Option (Res Job Dep)) : St Job Dep := ⟨fun _ => none, [], old, []⟩

end Verif.Cook
