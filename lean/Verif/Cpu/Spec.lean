import Verif.Cpu.Model
/-!
# The processors of the machine — what is meant
-/
namespace Verif.Cpu
open Verif

/-- A processor as described by the kernel: its number, and the numbers of its package and core if they are given. -/
structure Proc where
  number : Nat
  package : Option Nat
  core : Option Nat
  deriving DecidableEq, Repr

/-- What tells cores apart: package and core if one of them is known, else each processor is a core of its own. -/
inductive CoreName where
  | known (package core : Option Nat)
  | alone (number : Nat)
  deriving DecidableEq, Repr

/-- The core of a processor. -/
def Proc.coreName (p : Proc) : CoreName :=
  if p.package = none ∧ p.core = none then .alone p.number else .known p.package p.core

/-- The different elements of a list, in order of their first occurrence. -/
def firsts {α : Type} [DecidableEq α] : List α → List α
  | [] => []
  | x :: xs => x :: (firsts xs).filter (· ≠ x)

/-- Processors by core. -/
def byCore (ps : List Proc) : List (List Int) :=
  (firsts (ps.map Proc.coreName)).map fun n => (ps.filter fun p => p.coreName = n).map fun p => (p.number : Int)

/-- Either all processors tell their package or core, or none does. -/
def Alike (ps : List Proc) : Prop :=
  (∀ p ∈ ps, p.package = none ∧ p.core = none) ∨ (∀ p ∈ ps, ¬ (p.package = none ∧ p.core = none))

/-- Decimal digits of a number. -/
def IsDecimal (ds : List Byte) (n : Nat) : Prop :=
  ds ≠ [] ∧ (∀ c ∈ ds, 48 ≤ c.toNat ∧ c.toNat ≤ 57) ∧ ds.foldl (fun n c => 10 * n + (c.toNat - 48)) 0 = n

/-- A line `label : number`, with blanks and tabs before the colon, and a number that an `int` can hold. -/
def LineOf (lbl : List Byte) (n : Nat) (line : List Byte) : Prop :=
  ∃ pad ds, line = lbl ++ pad ++ [58, 32] ++ ds ∧ (∀ c ∈ pad, c = 32 ∨ c = 9) ∧ IsDecimal ds n ∧ n < 2147483648

/-- `processor` -/
def sProcessor : List Byte := [112, 114, 111, 99, 101, 115, 115, 111, 114]
/-- `physical id` -/
def sPhysical : List Byte := [112, 104, 121, 115, 105, 99, 97, 108, 32, 105, 100]
/-- `core id` -/
def sCore : List Byte := [99, 111, 114, 101, 32, 105, 100]

/-- Any other line: without a colon; or with text before it that does not start like one of the three labels, and no
number after it that is too large. -/
def OtherLine (line : List Byte) : Prop :=
  58 ∉ line ∨ ∃ before value, line = before ++ [58] ++ value ∧ 58 ∉ before ∧ scanInt value ≠ none ∧
    ¬ sProcessor <+: before ∧ ¬ sPhysical <+: before ∧ ¬ sCore <+: before

/-- The lines after `processor`: the package and the core, if given once at most, and other lines in between. -/
inductive Fields : List (List Byte) → Option Nat → Option Nat → Prop where
  | nil : Fields [] none none
  | other {l ls p c} : OtherLine l → Fields ls p c → Fields (l :: ls) p c
  | package {l ls c n} : LineOf sPhysical n l → Fields ls none c → Fields (l :: ls) (some n) c
  | core {l ls p n} : LineOf sCore n l → Fields ls p none → Fields (l :: ls) p (some n)

/-- The lines that describe processors. -/
inductive Describes : List (List Byte) → List Proc → Prop where
  | nil : Describes [] []
  | proc {l fs ls n p c ps} : LineOf sProcessor n l → Fields fs p c → Describes ls ps →
      Describes (l :: fs ++ ls) (⟨n, p, c⟩ :: ps)

end Verif.Cpu
