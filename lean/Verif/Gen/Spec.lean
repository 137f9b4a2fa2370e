import Verif.Gen.Model
/-!
# Generated lines in source files — specification
-/
namespace Verif.Gen.Spec
open Verif

/-- A part of a source file.  Each ends with the end of a line.  `text` is anything without events; `old` is a line with a
directive that was generated, `other` a line with another `#include`; `close` is a line that begins with the brace that
closes a class with a switch; in `closeAfter` there is something before this brace in its line. -/
inductive Part where
  | text (t : List Byte)
  | old (ws d : List Byte)
  | other (ws d : List Byte)
  | close (ws rest name : List Byte)
  | closeAfter (ind body ws rest name : List Byte)

/-- The bytes of a part. -/
def Part.bytes : Part → List Byte
  | .text t => t
  | .old ws d => ws ++ d
  | .other ws d => ws ++ d
  | .close ws rest _ => ws ++ 125 :: rest
  | .closeAfter ind body ws rest _ => ind ++ (body ++ (ws ++ 125 :: rest))

/-- What the parser tells about a part that begins at `k`. -/
def Part.events (k : Nat) : Part → List Event
  | .text _ => []
  | .old ws d => [.incl (k + ws.length) d.length]
  | .other ws d => [.incl (k + ws.length) d.length]
  | .close ws _ name => [.close (k + ws.length) name]
  | .closeAfter ind body ws _ name => [.close (k + (ind.length + body.length + ws.length)) name]

/-- The bytes of a file. -/
def bytes (l : List Part) (tail : List Byte) : List Byte := l.flatMap Part.bytes ++ tail

/-- What the parser tells about parts that begin at `k`. -/
def events : Nat → List Part → List Event
  | _, [] => []
  | k, p :: ps => p.events k ++ events (k + p.bytes.length) ps

/-- White space in a line. -/
def Blank (s : List Byte) : Prop := ∀ c ∈ s, c = 32 ∨ c = 9 ∨ c = 13

/-- Ends with the end of a line. -/
def Ended (s : List Byte) : Prop := ∃ u, s = u ++ [10]

/-- Ends with the mark of generated lines and white space. -/
def Generated (d : List Byte) : Prop := ∃ u w,
  d = u ++ [47, 47, 64, 64, 112, 108, 121] ++ w ∧ ∀ c ∈ w, c = 32 ∨ c = 9 ∨ c = 13 ∨ c = 10

/-- Neither white space nor the end of a line. -/
def Solid (c : Byte) : Prop := c ≠ 32 ∧ c ≠ 9 ∧ c ≠ 13 ∧ c ≠ 10

/-- Parts are as described. -/
def Part.Ok : Part → Prop
  | .text t => Ended t
  | .old ws d => Blank ws ∧ Ended d ∧ Generated d
  | .other ws d => Blank ws ∧ Ended d ∧ ¬ Generated d
  | .close ws rest _ => Blank ws ∧ Ended rest
  | .closeAfter ind body ws rest _ => Blank ind ∧ Blank ws ∧ Ended rest ∧ 10 ∉ body ∧
      (∃ c ∈ body.head?, Solid c) ∧ ∃ c ∈ body.getLast?, Solid c

/-- The line for a class, as text: `#include "codegen/name" //@@ply`. -/
def line (name : List Byte) : List Byte :=
  (['#', 'i', 'n', 'c', 'l', 'u', 'd', 'e', ' ', '"', 'c', 'o', 'd', 'e', 'g', 'e', 'n', '/'] : List Char).map (fun c => UInt8.ofNat c.toNat) ++ name ++
    (['"', ' ', '/', '/', '@', '@', 'p', 'l', 'y', '\n'] : List Char).map (fun c => UInt8.ofNat c.toNat)

/-- What should become of a part: generated lines go; each class with a switch gets one at its end, in a line of its own
before the brace, which keeps its indentation or gets that of its line. -/
def Part.renew : Part → List Part
  | .text t => [.text t]
  | .old _ _ => []
  | .other ws d => [.other ws d]
  | .close ws rest name => [.old [] (line name), .close ws rest name]
  | .closeAfter ind body ws rest name =>
    [.text (ind ++ (body ++ [10])), .old [] (line name), .close (ind ++ ws) rest name]

/-- The file ends with a generated line. -/
def EndsOld (l : List Part) (tail : List Byte) : Prop := tail = [] ∧ ∃ u ws d, l = u ++ [.old ws d]

end Verif.Gen.Spec
