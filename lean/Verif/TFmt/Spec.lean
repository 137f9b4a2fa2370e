import Verif.TFmt.Model
/-!
# Text formats — specification

Texts are lists of characters (`Char`, Unicode scalar values); files are lists of bytes.
-/
namespace Verif.TFmt.Spec
open Verif

/-- A text in UTF-8, by the definition of UTF-8 in the Lean core library. -/
def utf8 (cs : List Char) : List Byte := cs.flatMap String.utf8EncodeChar

/-- The text without carriage returns. -/
def unix (cs : List Char) : List Char := cs.filter (· ≠ '\r')

/-- A line of the text ends within the first 4000 bytes of the file. -/
def EarlyLine (f : Format) (cs : List Char) : Prop :=
  ∃ pre post, cs = pre ++ '\n' :: post ∧ (exportText f (utf8 (pre ++ ['\n']))).length ≤ 4000

/-- The byte order mark as a character, U+FEFF. -/
def mark : Char := Char.ofNat 0xFEFF

/-- A control character other than tab, line feed and carriage return. -/
def Control (c : Char) : Prop := c.toNat < 32 ∧ c ≠ '\t' ∧ c ≠ '\n' ∧ c ≠ '\r'

/-- The characters of a UTF-8 text that start before byte 4000, `n` bytes having passed already. -/
def early (n : Nat) : List Char → List Char
  | [] => []
  | c :: cs => if n < 4000 then c :: early (n + c.utf8Size) cs else []

/-- The number of line feeds. -/
def lineFeeds (cs : List Char) : Nat := cs.countP (· = '\n')

/-- The number of line feeds right behind a carriage return. -/
def pairs : List Char → Nat
  | '\r' :: '\n' :: cs => pairs cs + 1
  | _ :: cs => pairs cs
  | [] => 0

/-- Twice the sum that the heuristic is meant to compute for a scan: 2.5 for each white space, 1 for
each plain ASCII character, -100 for each invalid point, -50 for each control character, 5 for each
point outside the basic plane.  The score is this sum divided by twice the number of points. -/
def sum2 (s : Stats) : Int :=
  5 * s.numWhitespace + 2 * s.numPlainAscii - 200 * s.numInvalidPoints - 100 * s.numControl
    + 10 * s.numExtended

/-- The exact score of `a` is at least 1/2 more than that of `b`. -/
def Above (a b : Stats) : Prop :=
  0 < a.denom ∧ 0 < b.denom ∧ sum2 b * a.denom + a.denom * b.denom ≤ sum2 a * b.denom

instance (a b : Stats) : Decidable (Above a b) := by unfold Above; infer_instance

/-- The comparisons of scores are right where the exact scores are at least 1/2 apart, and nothing
scores more than itself.  (In single precision the scores are off by less than 1/1000: the sums are
exact, and dividing by the number of points rounds twice.) -/
structure Faithful (cmp : Scoring) : Prop where
  gt : ∀ a b, Above a b → cmp.gt a b = true ∧ cmp.gt b a = false
  ge : ∀ a b, Above a b → cmp.ge a b = true ∧ cmp.ge b a = false
  irrefl : ∀ a, cmp.gt a a = false

/-- Printable ASCII, or tab, line feed, carriage return. -/
def PlainText (c : Char) : Prop :=
  (32 ≤ c.toNat ∧ c.toNat < 127) ∨ c = '\t' ∨ c = '\n' ∨ c = '\r'

end Verif.TFmt.Spec
