import Verif.Cook.Model
/-!
# Cook jobs — specification
-/
namespace Verif.Cook.Spec
open Verif.Cook

variable {Job Dep : Type} [DecidableEq Job]

/-- Referenced from `a`, directly or through other jobs, according to the given results. -/
inductive Reach (results : Job → Option (Res Job Dep)) (a : Job) : Job → Prop
  | refl : Reach results a a
  | step {b c r} : Reach results a b → results b = some r → c ∈ r.refs → Reach results a c

/-- A job's earlier result is stale: there is none, or some dependency has changed. -/
def Stale (w : World Job Dep) (old : Job → Option (Res Job Dep)) (j : Job) : Prop :=
  old j = none ∨ ∃ r d, old j = some r ∧ d ∈ r.deps ∧ w.hasChanged j d = some true

/-- The jobs that a cook function may cook in turn, whatever results it is handed. -/
inductive Needs : Prog Job Dep → Job → Prop
  | dep {d k i} : Needs k i → Needs (.dep d k) i
  | ref {j k i} : Needs k i → Needs (.ref j k) i
  | here {j k} : Needs (.cook j k) j
  | cook {j k i r} : Needs (k r) i → Needs (.cook j k) i

/-- The jobs that a cook function may reference. -/
inductive Refs : Prog Job Dep → Job → Prop
  | dep {d k i} : Refs k i → Refs (.dep d k) i
  | here {j k} : Refs (.ref j k) j
  | ref {j k i} : Refs k i → Refs (.ref j k) i
  | cook {j k i r} : Refs (k r) i → Refs (.cook j k) i

/-- A cook function that never references the same job twice. -/
inductive OnceEach : List Job → Prog Job Dep → Prop
  | done {seen} : OnceEach seen .done
  | dep {seen d k} : OnceEach seen k → OnceEach seen (.dep d k)
  | ref {seen j k} : j ∉ seen → OnceEach (seen ++ [j]) k → OnceEach seen (.ref j k)
  | cook {seen j k} : (∀ r, OnceEach seen (k r)) → OnceEach seen (.cook j k)

/-- Cook functions that always come to the same end: `requested` are the jobs asked for. -/
def requested : List (Req Job) → List Job
  | [] => []
  | .cook j :: rs => j :: requested rs
  | .deferred :: rs => requested rs

end Verif.Cook.Spec
