import Verif.DocLink.Model
/-!
# Links from documentation to classes and members — what they should be
-/
namespace Verif.DocLink.Spec
open Verif Verif.DocLink

/-- Nothing of this name is declared in a scope. -/
def Lacks (w : World) (s : Nat) (n : List Byte) : Prop := ∀ x ∈ (w s).children, (w x).name ≠ n

/-- `e` is the first thing of this name declared in a scope. -/
def Declares (w : World) (s : Nat) (n : List Byte) (e : Nat) : Prop :=
  ∃ a b, (w s).children = a ++ e :: b ∧ (w e).name = n ∧ ∀ x ∈ a, (w x).name ≠ n

/-- A name is visible in the scope it is declared in, and in the scopes inside that do not declare it themselves. -/
inductive Visible (w : World) : Nat → List Byte → Nat → Prop
  | here {s n e} : Declares w s n e → Visible w s n e
  | up {s p n e} : Lacks w s n → (w s).parent = some p → Visible w p n e → Visible w s n e

/-- Going down from an entity by names; only namespaces and classes can be gone down from. -/
inductive Path (w : World) : Nat → List (List Byte) → Nat → Prop
  | nil {x} : Path w x [] x
  | cons {x y e n ns} : (w x).kind = .namespace ∨ (w x).kind = .class → Declares w x n y → Path w y ns e →
      Path w x (n :: ns) e

/-- What a qualified name means in a scope: its first part is looked for from the inside out, the others are followed
down. -/
def Means (w : World) (s : Nat) (comps : List (List Byte)) (e : Nat) : Prop :=
  ∃ n ns x, comps = n :: ns ∧ Visible w s n x ∧ Path w x ns e

/-- No entity is inside of itself; the declarations of a scope are kept in the order of their names, which are not too
long to be compared. -/
structure Wf (w : World) (depth : Nat → Nat) : Prop where
  up : ∀ s p, (w s).parent = some p → depth p < depth s
  sorted : ∀ s, (w s).children.Pairwise fun a b => ¬ (w b).name < (w a).name
  short : ∀ e, (w e).name.length < 2 ^ 31

/-- The page of an entity: the first one that says so. -/
def PageOf (pages : Pages) (e : Nat) (d : List Byte) : Prop := ∃ a b, pages = a ++ (e, d) :: b ∧ ∀ x ∈ a, x.1 ≠ e

/-- Where a link to an entity leads: to its page; for a member of a class, to the place of its name in the page of the
class. -/
def LinkTo (w : World) (pages : Pages) (e : Nat) (dest : List Byte) : Prop :=
  ((w e).kind ≠ .member ∧ PageOf pages e dest) ∨
  ((w e).kind = .member ∧ ∃ p d, (w e).parent = some p ∧ (w p).kind = .class ∧ PageOf pages p d ∧
    dest = d ++ 35 :: (w e).name)

/-- The index of pages is kept in the order of names, and addresses are not empty. -/
structure PagesWf (w : World) (pages : Pages) : Prop where
  sorted : pages.Pairwise fun a b => ¬ (w b.1).name < (w a.1).name
  dest : ∀ p ∈ pages, p.2 ≠ []

/-- The first of some scopes in which a name means something, and what. -/
def FirstMeans (w : World) (scopes : List Nat) (comps : List (List Byte)) (e : Nat) : Prop :=
  ∃ a s b, scopes = a ++ s :: b ∧ Means w s comps e ∧ ∀ x ∈ a, ∀ y, ¬ Means w x comps y

/-- No link is wanted to the class that is being described, to the members described together or to anything directly
inside of these. -/
def Noisy (w : World) (forClass : Option Nat) (group : List Nat) (e : Nat) : Prop :=
  forClass = some e ∨ ∃ g ∈ group, e = g ∨ (w e).parent = some g

/-- The text without a pair of brackets at its end. -/
def Bare (text bare : List Byte) : Prop :=
  text = bare ++ [40, 41] ∨ (text = bare ∧ ∀ l, text ≠ l ++ [40, 41])

end Verif.DocLink.Spec
