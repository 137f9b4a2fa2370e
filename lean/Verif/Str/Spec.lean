import Verif.Basic
/-!
# Strings — specifications independent of the model
-/
namespace Verif.Str
open Verif

/-- `Words sep s ws`: `s` consists of the words `ws`, in this order, separated and surrounded by
runs of `sep`; the words are non-empty and do not contain `sep`, and between two words there is at
least one separator. -/
inductive Words (sep : Byte) : List Byte → List (List Byte) → Prop where
  | gap (k : Nat) : Words sep (List.replicate k sep) []
  | word (k : Nat) (w rest : List Byte) (ws : List (List Byte)) :
      w ≠ [] → sep ∉ w → (rest = [] ∨ rest.head? = some sep) → Words sep rest ws →
      Words sep (List.replicate k sep ++ (w ++ rest)) (w :: ws)

end Verif.Str
