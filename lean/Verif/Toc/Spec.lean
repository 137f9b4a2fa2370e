import Verif.Toc.Model
/-!
# The table of contents of the documentation — specification
-/
namespace Verif.Toc.Spec
open Verif

/-- A byte that can begin a name: a letter, an underscore or not ASCII. -/
def Begins (c : Byte) : Prop := 65 ≤ c.toNat ∧ c.toNat ≤ 90 ∨ 97 ≤ c.toNat ∧ c.toNat ≤ 122 ∨ c = 95 ∨ 128 ≤ c.toNat

/-- A byte that can be in a name: one that can begin it, or a digit. -/
def Inside (c : Byte) : Prop := Begins c ∨ 48 ≤ c.toNat ∧ c.toNat ≤ 57

/-- A name that can be written in a tag. -/
def Word (w : List Byte) : Prop := ∃ c cs, w = c :: cs ∧ Begins c ∧ ∀ d ∈ cs, Inside d

/-- White space. -/
def Blank (s : List Byte) : Prop := ∀ c ∈ s, c = 32 ∨ c = 9 ∨ c = 13 ∨ c = 10

/-- The text of a tag names the pages `ids` in turn; what comes after something that is neither white space nor a name is
not read. -/
inductive Names : List Byte → List (List Byte) → Prop
  | stop {ws r : List Byte} (hw : Blank ws) (hr : ∀ c ∈ r.head?, ¬ Begins c ∧ ¬ Blank [c]) : Names (ws ++ r) []
  | word {ws w r : List Byte} {ids : List (List Byte)} (hw : Blank ws) (h : Word w) (hr : ∀ c ∈ r.head?, ¬ Inside c)
    (hn : Names r ids) : Names (ws ++ (w ++ r)) (w :: ids)

mutual
/-- All pages in a folder and below. -/
def all : Page → List Info
  | .mk i _ cs => i :: allEach cs
/-- All pages in a list of folders. -/
def allEach : List Page → List Info
  | [] => []
  | p :: ps => all p ++ allEach ps
end

mutual
/-- The entries of a table of contents from top to bottom. -/
def lines : Contents → List (List Byte × Option (List Byte))
  | .mk t d cs => (t, d) :: linesEach cs
/-- The same for a list of entries. -/
def linesEach : List Contents → List (List Byte × Option (List Byte))
  | [] => []
  | c :: cs => lines c ++ linesEach cs
end

/-- The message that pages are left out. -/
def Err.Lost : Err → Prop
  | .notChild _ => False
  | .notListed _ => True

end Verif.Toc.Spec
