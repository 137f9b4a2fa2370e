import Verif.DocText.Model
/-!
# Links in descriptions — what they should be
-/
namespace Verif.DocText.Spec
open Verif Verif.DocText

/-- A piece of text in a description: what it says, whether it is code, and the link it is part of. -/
structure Run where
  text : List Byte
  code : Bool
  link : Option (List Byte)
  deriving DecidableEq, Repr

mutual
/-- The pieces shown, in order, inside of a link or not. -/
def shown (link : Option (List Byte)) : Node → List Run
  | .text t => [⟨t, false, link⟩]
  | .code t => [⟨t, true, link⟩]
  | .link d ns => shownAll (some d) ns
  | .heading _ ns => shownAll link ns
  | .other _ ns => shownAll link ns
def shownAll (link : Option (List Byte)) : List Node → List Run
  | [] => []
  | n :: ns => shown link n ++ shownAll link ns
end

mutual
/-- The pieces that are meant.  A heading that is nothing but a link to a `#` place is not a link: it gives the heading
this name. -/
def meant (link : Option (List Byte)) : Node → List Run
  | .text t => [⟨t, false, link⟩]
  | .code t => [⟨t, true, link⟩]
  | .link d ns => meantAll (some d) ns
  | .heading _ [.link (35 :: _) sub] => meantAll link sub
  | .heading _ ns => meantAll link ns
  | .other _ ns => meantAll link ns
def meantAll (link : Option (List Byte)) : List Node → List Run
  | [] => []
  | n :: ns => meant link n ++ meantAll link ns
end

mutual
/-- The names of the headings shown, in order. -/
def names : Node → List (List Byte)
  | .text _ | .code _ => []
  | .link _ ns => namesAll ns
  | .heading id ns => id :: namesAll ns
  | .other _ ns => namesAll ns
def namesAll : List Node → List (List Byte)
  | [] => []
  | n :: ns => names n ++ namesAll ns
end

mutual
/-- The names that are meant. -/
def meantNames : Node → List (List Byte)
  | .text _ | .code _ => []
  | .link _ ns => meantNamesAll ns
  | .heading _ [.link (35 :: a) sub] => a :: meantNamesAll sub
  | .heading id ns => id :: meantNamesAll ns
  | .other _ ns => meantNamesAll ns
def meantNamesAll : List Node → List (List Byte)
  | [] => []
  | n :: ns => meantNames n ++ meantNamesAll ns
end

mutual
/-- No links and no headings, as in a link. -/
def Plain : Node → Prop
  | .text _ | .code _ => True
  | .link .. | .heading .. => False
  | .other _ ns => PlainAll ns
def PlainAll : List Node → Prop
  | [] => True
  | n :: ns => Plain n ∧ PlainAll ns
end

mutual
/-- What the parser gives: nothing in a link is a link or a heading. -/
def Flat : Node → Prop
  | .text _ | .code _ => True
  | .link _ ns => PlainAll ns
  | .heading _ ns => FlatAll ns
  | .other _ ns => FlatAll ns
def FlatAll : List Node → Prop
  | [] => True
  | n :: ns => Flat n ∧ FlatAll ns
end

mutual
/-- The pieces of code that lead somewhere and stand directly in the name of a heading that is nothing but a link to a
`#` place. -/
def inNames : Node → List (List Byte)
  | .text _ | .code _ | .link .. => []
  | .heading _ [.link (35 :: _) sub] => codesOf sub ++ inNamesAll sub
  | .heading _ ns => inNamesAll ns
  | .other _ ns => inNamesAll ns
def inNamesAll : List Node → List (List Byte)
  | [] => []
  | n :: ns => inNames n ++ inNamesAll ns
/-- The pieces of code among some nodes. -/
def codesOf : List Node → List (List Byte)
  | [] => []
  | .code t :: ns => t :: codesOf ns
  | _ :: ns => codesOf ns
end

/-- A piece as it should be shown: links lead to the pages they name, code outside of links to what it names. -/
def Run.resolved (span : List Byte → Option (List Byte)) (fix : List Byte → List Byte) (r : Run) : Run :=
  match r.link with
  | some d => { r with link := some (fix d) }
  | none =>
    if r.code then
      match span r.text with
      | some (c :: d) => { r with link := some (c :: d) }
      | _ => r
    else r

/-- The address a link by ID leads to: that of the first page of this ID. -/
def PageById (ids : Ids) (id dest : List Byte) : Prop := ∃ a b, ids = a ++ (id, dest) :: b ∧ ∀ x ∈ a, x.1 ≠ id

/-- A text that can be the ID of a page in a link. -/
def IsId (id : List Byte) : Prop := id ≠ [] ∧ id.head? ≠ some 47 ∧ 35 ∉ id ∧ 58 ∉ id

end Verif.DocText.Spec
