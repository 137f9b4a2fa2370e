/-!
# What a map promises

A map is a partial function from keys to values; nothing here knows of cells or hashes.
-/
namespace Verif.HMap

/-- What a program does with a map. -/
inductive Op (K V : Type) where
  | put (k : K) (v : V)
  | get (k : K)
  | erase (k : K)
  | count
  | all

/-- What it is told. -/
inductive Out (K V : Type) where
  | flag (found : Bool)
  | value (v : Option V)
  | number (n : Nat)
  | items (l : List (K × V))

namespace Spec

variable {K V : Type} [DecidableEq K]

/-- `l` lists every entry of `m` once. -/
def Lists (m : K → Option V) (l : List (K × V)) : Prop :=
  (l.map (·.1)).Nodup ∧ ∀ k v, (k, v) ∈ l ↔ m k = some v

/-- The map after an operation. -/
def after (m : K → Option V) : Op K V → K → Option V
  | .put k v => fun x => if x = k then some v else m x
  | .erase k => fun x => if x = k then none else m x
  | _ => m

/-- The answers an operation may give. -/
def Answer (m : K → Option V) : Op K V → Out K V → Prop
  | .put k _, .flag b => b = (m k).isSome
  | .get k, .value v => v = m k
  | .erase k, .flag b => b = (m k).isSome
  | .count, .number n => ∃ l, Lists m l ∧ l.length = n
  | .all, .items l => Lists m l
  | _, _ => False

/-- The answers to a sequence of operations. -/
def Answers (m : K → Option V) : List (Op K V) → List (Out K V) → Prop
  | [], [] => True
  | op :: ops, out :: outs => Answer m op out ∧ Answers (after m op) ops outs
  | _, _ => False

/-- Never more than `n` entries when something is put. -/
def AtMost (n : Nat) (m : K → Option V) : List (Op K V) → Prop
  | [] => True
  | op :: ops =>
    (∀ k v, op = .put k v → ∃ l, Lists m l ∧ l.length ≤ n) ∧ AtMost n (after m op) ops

/-- Nothing is erased. -/
def NoErase (ops : List (Op K V)) : Prop := ∀ k, Op.erase k ∉ ops

end Spec
end Verif.HMap
