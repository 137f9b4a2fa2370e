import Verif.DocEx.Model
/-!
# Documentation comments — what is meant
-/
namespace Verif.DocEx
open Verif

/-- How a class is documented: a comment before a member, or before several members in a group; a comment that begins a
category; and declarations that are not documented. -/
inductive Item where
  | one (text : List (List Byte)) (m : Member)
  | group (text : List (List Byte)) (decls : List (List Member))
  | category (name : List Byte)
  | undocumented (ms : List Member)
  deriving DecidableEq, Repr

/-- How it is written. -/
def Item.events : Item → List Event
  | .one t m => [.comment (t.map .text), .decl [m]]
  | .group t ds => .comment (.beginGroup :: t.map .text) :: ds.map .decl ++ [.comment [.endGroup]]
  | .category c => [.comment [.category c]]
  | .undocumented ms => [.decl ms]

/-- Lines are not empty, and a group has members in its first declaration. -/
def Item.Fine : Item → Prop
  | .one t _ => [] ∉ t
  | .group t ds => [] ∉ t ∧ ∃ m ms rest, ds = (m :: ms) :: rest
  | _ => True

/-- What is to be shown: members with their description, and the category they are in. -/
structure Shown where
  titles : List Member
  desc : List Byte
  category : Option (List Byte)
  deriving DecidableEq, Repr

/-- What is to be shown of a class; `cur` is the category. -/
def shown (cur : Option (List Byte)) : List Item → List Shown
  | [] => []
  | .one t m :: is => ⟨[m], t.flatten, cur⟩ :: shown cur is
  | .group t ds :: is => ⟨ds.flatten, t.flatten, cur⟩ :: shown cur is
  | .category c :: is => shown (some c) is
  | .undocumented _ :: is => shown cur is

/-- The categories in order of first mention. -/
def mentioned (seen : List (List Byte)) : List Item → List (List Byte)
  | [] => seen
  | .category c :: is => mentioned (if c ∈ seen then seen else seen ++ [c]) is
  | _ :: is => mentioned seen is

/-- Is it about a function (as told by its first title)? -/
def Shown.function (s : Shown) : Bool := (s.titles.head?.map Member.function).getD false

/-- A part of the page. -/
def part (head : List Byte) (es : List Shown) : List (List Byte × List Shown) := if es.isEmpty then [] else [(head, es)]

/-- The page: data members, the functions of each category, the other functions. -/
def parts (es : List Shown) (cats : List (List Byte)) : List (List Byte × List Shown) :=
  part sData (es.filter fun e => !e.function) ++
  (cats.flatMap fun c => part c (es.filter fun e => e.function && e.category = some c)) ++
  part sFunctions (es.filter fun e => e.function && e.category = none)

/-- An entry as shown, with the name of its category. -/
def asShown (cats : List (List Byte)) (e : Entry) : Shown :=
  ⟨e.titles, e.desc, if e.category < 0 then none else cats[e.category.toNat]?⟩

/-- What is seen of a page: headings, lists beginning and entries. -/
inductive Seen where
  | heading (t : List Byte)
  | list
  | entry (s : Shown)
  deriving DecidableEq, Repr

/-- What is seen of the text written; the ends of lists are not looked at. -/
def see (cats : List (List Byte)) : List Tok → List Seen
  | [] => []
  | .heading h :: ts => .heading h :: see cats ts
  | .openList :: ts => .list :: see cats ts
  | .entry e :: ts => .entry (asShown cats e) :: see cats ts
  | .closeList :: ts => see cats ts

/-- How a page is to look. -/
def layout (ps : List (List Byte × List Shown)) : List Seen :=
  ps.flatMap fun p => .heading p.1 :: .list :: p.2.map .entry

/-- How many lists are left open. -/
def leftOpen (ts : List Tok) : Int := (ts.count .openList : Int) - ts.count .closeList

end Verif.DocEx
