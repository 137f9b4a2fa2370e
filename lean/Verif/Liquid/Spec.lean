import Verif.Basic
/-!
# Templates
-/
namespace Verif.Liquid.Spec
open Verif

/-- A piece of a template: literal text, or a tag with its content. -/
inductive Piece where
  | lit (s : List Byte)
  | tag (c : List Byte)
deriving DecidableEq, Repr

/-- `<%` content `%>`. -/
def tagText (c : List Byte) : List Byte := [60, 37] ++ c ++ [37, 62]

/-- The template's text. -/
def Piece.text : Piece → List Byte
  | .lit s => s
  | .tag c => tagText c

/-- `a b` occurs in `s`. -/
def Occurs (a b : Byte) (s : List Byte) : Prop := ∃ p q, s = p ++ [a, b] ++ q

/-- The literal text a template extraction should write. -/
def literal : List Piece → List Byte
  | [] => []
  | .lit s :: ps => s ++ literal ps
  | .tag _ :: ps => literal ps

/-- The tags, in order. -/
def tags : List Piece → List (List Byte)
  | [] => []
  | .lit _ :: ps => tags ps
  | .tag c :: ps => c :: tags ps

end Verif.Liquid.Spec
