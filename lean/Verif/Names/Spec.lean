import Verif.Names.Model
/-!
# Names of modules, externs and providers — what the names should mean

These definitions use only the data of the registry, none of the functions of the model.
-/
namespace Verif.Names.Spec
open Verif Verif.Names

/-- A byte that may begin a name. -/
def Start (c : Byte) : Prop :=
  (65 ≤ c.toNat ∧ c.toNat ≤ 90) ∨ (97 ≤ c.toNat ∧ c.toNat ≤ 122) ∨ c = 95 ∨ c = 45 ∨ 128 ≤ c.toNat

/-- A byte that may follow in a name. -/
def Part (c : Byte) : Prop := Start c ∨ (48 ≤ c.toNat ∧ c.toNat ≤ 57)

/-- A name: not empty, not beginning with a digit. -/
def Valid : Name → Prop
  | [] => False
  | c :: cs => Start c ∧ ∀ d ∈ cs, Part d

instance : DecidablePred Start := fun c => by unfold Start; exact inferInstance
instance : DecidablePred Part := fun c => by unfold Part; exact inferInstance
instance : DecidablePred Valid := fun s => by cases s <;> unfold Valid <;> exact inferInstance

/-- Names joined by dots. -/
def join : List Name → Name
  | [] => []
  | [c] => c
  | c :: d :: cs => c ++ 46 :: join (d :: cs)

/-- `text` is the text of these names. -/
def Text (comps : List Name) (text : Name) : Prop :=
  comps ≠ [] ∧ (∀ c ∈ comps, Valid c) ∧ text = join comps

/-- The repo at `r` has this name. -/
def Called (W : Registry) (r : Nat) (n : Name) : Prop := ∃ R, W[r]? = some R ∧ R.name = n

/-- The repo at `r` defines a module of this name. -/
def HasTarget (W : Registry) (r : Nat) (n : Name) : Prop := ∃ R, W[r]? = some R ∧ n ∈ R.targets

/-- The extern `e` has this name. -/
def Extern (W : Registry) (e : Ext) (n : Name) : Prop := ∃ R, W[e.1]? = some R ∧ R.externs[e.2]? = some n

/-- The repo `p.1` provides the extern `e` at `p.2` under this name. -/
def Provides (W : Registry) (p : Nat × Nat) (e : Ext) (n : Name) : Prop :=
  ∃ R, W[p.1]? = some R ∧ R.providers[p.2]? = some ⟨e, n⟩

/-- The repos of a registry have different names and depend on repos of the registry. -/
structure Good (W : Registry) : Prop where
  names : ∀ (r q : Nat) (n : Name), Called W r n → Called W q n → r = q
  closed : ∀ (r : Nat) (R : Repo), W[r]? = some R → ∀ q ∈ R.children, q < W.length

/-- No repo has two externs of the same name. -/
def ExternsDiffer (W : Registry) : Prop :=
  ∀ (e f : Ext) (n : Name), Extern W e n → Extern W f n → e.1 = f.1 → e = f

/-- No repo has two providers of the same name for the same extern. -/
def ProvidersDiffer (W : Registry) : Prop :=
  ∀ (p q : Nat × Nat) (e : Ext) (n : Name), Provides W p e n → Provides W q e n → p.1 = q.1 → p = q

/-- `q` is `r` or a repo that `r` depends on, directly or not. -/
inductive Reach (W : Registry) (r : Nat) : Nat → Prop
  | refl : Reach W r r
  | step {q p : Nat} {R : Repo} : Reach W r q → W[q]? = some R → p ∈ R.children → Reach W r p

/-- What the name of a module means on the command line: the module of the given repo, or the only
module of this name. -/
inductive Module (W : Registry) : List Name → Target → Prop
  | qualified {r : Nat} {a n : Name} : Called W r a → HasTarget W r n → Module W [a, n] (r, n)
  | plain {r : Nat} {n : Name} : (∀ q, ¬ Called W q n) → HasTarget W r n →
      (∀ q, HasTarget W q n → q = r) → Module W [n] (r, n)

/-- What the name of an extern means on the command line. -/
inductive ExternName (W : Registry) : List Name → Ext → Prop
  | qualified {e : Ext} {a n : Name} : Called W e.1 a → Extern W e n → ExternName W [a, n] e
  | plain {e : Ext} {n : Name} : (∀ q, ¬ Called W q n) → Extern W e n →
      (∀ f, Extern W f n → f = e) → ExternName W [n] e

/-- What the name of a provider means: that of an extern, then the repo (if given) and the name of the
provider. -/
inductive ProviderName (W : Registry) : List Name → Nat × Nat → Prop
  | qualified {p : Nat × Nat} {e : Ext} {ens : List Name} {a n : Name} : ExternName W ens e →
      Called W p.1 a → Provides W p e n → ProviderName W (ens ++ [a, n]) p
  | plain {p : Nat × Nat} {e : Ext} {ens : List Name} {n : Name} : ExternName W ens e →
      (∀ q, ¬ Called W q n) → Provides W p e n →
      (∀ q, Provides W q e n → q = p) → ProviderName W (ens ++ [n]) p

/-- What the name of a module means in the repo `r`: the same, among the repos that `r` depends on. -/
inductive ModuleIn (W : Registry) (r : Nat) : List Name → Target → Prop
  | qualified {q : Nat} {a n : Name} {more : List Name} : Reach W r q → Called W q a → HasTarget W q n →
      ModuleIn W r (a :: n :: more) (q, n)
  | plain {q : Nat} {n : Name} {more : List Name} : (∀ p, Reach W r p → ¬ Called W p n) → Reach W r q →
      HasTarget W q n → (∀ p, Reach W r p → HasTarget W p n → p = q) → ModuleIn W r (n :: more) (q, n)

/-- What the name of an extern means in the repo `r`. -/
inductive ExternIn (W : Registry) (r : Nat) : List Name → Ext → Prop
  | qualified {e : Ext} {a n : Name} : Reach W r e.1 → Called W e.1 a → Extern W e n →
      ExternIn W r [a, n] e
  | plain {e : Ext} {n : Name} : (∀ p, Reach W r p → ¬ Called W p n) → Reach W r e.1 → Extern W e n →
      (∀ f, Reach W r f.1 → Extern W f n → f = e) → ExternIn W r [n] e

/-- A provider that is added in the repo `r` for an extern given by these names leads to a new extern. -/
inductive NewIn (W : Registry) (r : Nat) : List Name → Name → Prop
  | qualified {a n : Name} : Called W r a → (∀ e : Ext, e.1 = r → ¬ Extern W e n) → NewIn W r [a, n] n
  | plain {n : Name} : (∀ p, Reach W r p → ¬ Called W p n) → (∀ e, ¬ ExternIn W r [n] e) → NewIn W r [n] n

end Verif.Names.Spec
