import Verif.Enc.Model
/-!
# Lines and columns of a text, by reading it from the start
-/
namespace Verif.FLoc.Spec
open Verif

/-- `Prefix t p cs`: the first `p` bytes of `t` are the characters `cs` (each with its code point and its
number of bytes). -/
inductive Prefix (t : List Byte) : Nat → List (Int × Nat) → Prop where
  | nil : Prefix t 0 []
  | snoc {p : Nat} {cs : List (Int × Nat)} : Prefix t p cs → p < t.length →
      Prefix t (p + (Enc.decodeUTF8 (t.drop p)).numBytes)
        (cs ++ [((Enc.decodeUTF8 (t.drop p)).point, (Enc.decodeUTF8 (t.drop p)).numBytes)])

/-- The line: one more than the line feeds before. -/
def line (cs : List (Int × Nat)) : Nat := 1 + cs.countP fun c => c.1 = 10

/-- The characters since the last line feed. -/
def thisLine (cs : List (Int × Nat)) : List (Int × Nat) :=
  (cs.reverse.takeWhile fun c => c.1 ≠ 10).reverse

/-- A tab goes to the next multiple of four, a carriage return takes no place, anything else takes one. -/
def place (col : Nat) (point : Int) : Nat :=
  if point = 9 then (col / 4 + 1) * 4 else if point = 13 then col else col + 1

/-- The column, counted from 1. -/
def column (cs : List (Int × Nat)) : Nat := (thisLine cs).foldl (fun col c => place col c.1) 1

/-- Bytes since the last line feed. -/
def bytesIntoLine (cs : List (Int × Nat)) : Nat := ((thisLine cs).map Prod.snd).sum

end Verif.FLoc.Spec
