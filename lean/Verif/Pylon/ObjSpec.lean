import Verif.Pylon.Obj
/-!
# Pylon objects — specification: an association list in insertion order
-/
namespace Verif.Pylon.Spec
open Verif

variable {V : Type}

/-- The value of a key in an association list. -/
def lookup (key : List Byte) : List (List Byte × V) → Option V
  | [] => none
  | (k, v) :: t => if k = key then some v else lookup key t

/-- Give a key a value: in place if present, at the end otherwise. -/
def assign (key : List Byte) (v : V) : List (List Byte × V) → List (List Byte × V)
  | [] => [(key, v)]
  | (k, w) :: t => if k = key then (k, v) :: t else (k, w) :: assign key v t

/-- Forget a key. -/
def forget (key : List Byte) (l : List (List Byte × V)) : List (List Byte × V) :=
  l.filter (fun p => p.1 ≠ key)

/-- Operations on an object. -/
inductive Op (V : Type) where
  | get (key : List Byte)
  | set (key : List Byte) (v : V)
  | remove (key : List Byte)

/-- What the caller sees of an operation. -/
def Op.answer : Op V → List (List Byte × V) → Option V
  | .get k, l => lookup k l
  | .set _ v, _ => some v
  | .remove k, l => lookup k l

/-- What it does. -/
def Op.effect : Op V → List (List Byte × V) → List (List Byte × V)
  | .get _, l => l
  | .set k v, l => assign k v l
  | .remove k, l => forget k l

/-- Answers of a sequence of operations and the final contents. -/
def run : List (Op V) → List (List Byte × V) → List (Option V) × List (List Byte × V)
  | [], l => ([], l)
  | op :: ops, l => (op.answer l :: (run ops (op.effect l)).1, (run ops (op.effect l)).2)

end Verif.Pylon.Spec
