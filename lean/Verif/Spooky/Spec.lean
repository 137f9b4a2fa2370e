import Verif.Spooky.Model
/-!
# What a hasher is asked to do
-/
namespace Verif.Spooky
open Verif

/-- What a user does with a hasher: `append` or `get`. -/
inductive Op where
  | append (m : List Byte)
  | get
deriving Repr

/-- A run of the model: the results of the `get`s; `none` when the memory was misused. -/
def run : State → List Op → Option (List (UInt64 × UInt64))
  | _, [] => some []
  | s, .append m :: ops =>
    match update s m with
    | none => none
    | some s' => run s' ops
  | s, .get :: ops =>
    match final s with
    | none => none
    | some (r, s') =>
      match run s' ops with
      | none => none
      | some rs => some (r :: rs)

/-- What is expected: each `get` gives `hash` of everything appended so far. -/
def expected (hash : List Byte → Option (UInt64 × UInt64)) : List Byte → List Op →
    Option (List (UInt64 × UInt64))
  | _, [] => some []
  | t, .append m :: ops => expected hash (t ++ m) ops
  | t, .get :: ops =>
    match hash t with
    | none => none
    | some r =>
      match expected hash t ops with
      | none => none
      | some rs => some (r :: rs)

/-- Bytes padded with zeroes to a word. -/
def padded (m : List Byte) : UInt64 := UInt64.ofNat (le (m ++ List.replicate (8 - m.length) 0))

end Verif.Spooky
