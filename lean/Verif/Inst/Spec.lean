import Verif.Inst.Model
/-!
# Instantiating a project — what it should achieve

Everything is said in terms of what the module functions ask for, not of the instantiator.
-/
namespace Verif.Inst.Spec

open Verif.Build (Vis TType)

/-- The dependencies asked for in a list of calls, in order. -/
def asked : List Act → List (Vis × Nat)
  | [] => []
  | .dep v s :: rest => (v, s) :: asked rest
  | .edit _ :: rest => asked rest

/-- What is left of the data of a target after the calls that change it. -/
def edited : List Act → Data → Data
  | [], d => d
  | .dep _ _ :: rest, d => edited rest d
  | .edit f :: rest, d => edited rest (f d)

/-- The provider that counts for an extern: the first one selected. -/
def chosen (P : Project) (s : Nat) : Option Nat :=
  P.selectors.find? (fun p => (P.provider p).extern_ == s)

/-- What the function of a source asks for. -/
def requests (P : Project) (s : Nat) : List (Vis × Nat) :=
  match (P.source s).body with
  | .target acts => asked acts
  | .extern => match chosen P s with
    | none => []
    | some p => asked (P.provider p).acts

/-- `s` asks for `t`. -/
def Asks (P : Project) (s t : Nat) : Prop := ∃ v, (v, t) ∈ requests P s

/-- A source that is a target. -/
def IsTarget (P : Project) (s : Nat) : Prop := ∃ acts, (P.source s).body = .target acts

/-- The target `s` asks for the target `t`. -/
def TargetAsks (P : Project) (s t : Nat) : Prop := IsTarget P s ∧ IsTarget P t ∧ Asks P s t

/-- Follow any number of requests. -/
inductive Reach (P : Project) : Nat → Nat → Prop
  | refl (s) : Reach P s s
  | step {s t u} : Asks P s t → Reach P t u → Reach P s u

/-- No chain of requests that starts at `s` goes on for ever (as it does if it gets back to where it
was). -/
def EndsFrom (R : Nat → Nat → Prop) (s : Nat) : Prop := Acc (fun t s => R s t) s

/-- Targets are available; an extern is if a provider is selected and installed. -/
def available (P : Project) (s : Nat) : Bool :=
  match (P.source s).body with
  | .target _ => true
  | .extern => match chosen P s with
    | none => false
    | some p => (P.provider p).installed

/-- Extern functions ask for nothing (as is the case for all those that come with Plywood). -/
def Plain (P : Project) : Prop := ∀ p, asked (P.provider p).acts = []

/-- No function of a target asks for the same available thing twice. -/
def NoRepeat (P : Project) (s : Nat) : Prop :=
  IsTarget P s → (((requests P s).map (·.2)).filter (available P)).Nodup

/-- Only the sources numbered below `n` are ever asked for. -/
def Below (P : Project) (n : Nat) : Prop := ∀ s t, s < n → Asks P s t → t < n

/-- The type a target ends up with, from the type that its module function gave it. -/
def finalType (root inShared hasPrefix anySource : Bool) : TType → TType
  | .lib => if root then .dll else if anySource then (if inShared && hasPrefix then .objectLib else .lib)
      else .headerOnly
  | .objectLib => if anySource then .objectLib else .headerOnly
  | t => t

end Verif.Inst.Spec
