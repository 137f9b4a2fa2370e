import Verif.Docs.Model
import Verif.Markdown.SpecHtml
import Verif.Web.Spec

/-!
# What the documentation server is supposed to do

Nothing here refers to the functions of the model, only to its types.
-/

namespace Verif.Docs.Spec

open Verif Verif.Docs
open Verif.Markdown (lit)
open Verif.Markdown.Spec (Dom)

mutual
/-- The entry at the given place and all below it, from top to bottom, with their links. -/
def listed (way : Way) : Contents → List (Way × List Byte)
  | .mk _ link children => (way, link) :: listedAll way 0 children
/-- The same for several entries, the first of them number `i`. -/
def listedAll (way : Way) (i : Nat) : List Contents → List (Way × List Byte)
  | [] => []
  | c :: cs => listed (way ++ [i]) c ++ listedAll way (i + 1) cs
end

/-- The link of a page. -/
def target (request : List Byte) : List Byte := if request = [] then lit "/" else lit "/docs/" ++ request

/-- The entry shown as selected: the last one whose link is the page's. -/
def chosen (contents : List Contents) (request : List Byte) : Option Way :=
  (((listedAll [] 0 contents).filter (fun e => e.2 = target request)).getLast?).map (·.1)

/-- An entry is open if it is the chosen one or one of those above it. -/
def Open (sel : Option Way) (way : Way) : Prop := ∃ s, sel = some s ∧ way <+: s

instance (sel : Option Way) (way : Way) : Decidable (Open sel way) :=
  match sel with
  | none => .isFalse (by rintro ⟨s, h, _⟩; cases h)
  | some s => decidable_of_iff (way <+: s) ⟨fun h => ⟨s, rfl, h⟩, by rintro ⟨_, h, k⟩; cases h; exact k⟩

/-- Words with spaces between them. -/
def spaced : List String → List Byte
  | [] => []
  | [w] => lit w
  | w :: ws => lit w ++ 32 :: spaced ws

/-- The classes of an entry. -/
def classes (kids opened selected : Bool) : List String :=
  ["selectable"] ++ (if kids then ["caret"] else []) ++ (if kids && opened then ["caret-down"] else []) ++
    (if selected then ["selected"] else [])

mutual
/-- What a browser should see of an entry: its title, in a link if it has one, then its children.  `shown` says how
titles come out and `href` where links lead. -/
def entryDom (shown href : List Byte → List Byte) (sel : Option Way) (way : Way) : Contents → List Dom
  | .mk title link children =>
    let li : Dom := .elem "li" [("class", spaced (classes (!children.isEmpty) (Open sel way) (sel = some way)))]
      [.elem "span" [] [.text (shown title)]]
    (if link = [] then li else .elem "a" [("href", href link)] [li]) ::
      (if children = [] then []
       else [.elem "ul" [("class", spaced (["nested"] ++ if Open sel way then ["active"] else []))]
          (entriesDom shown href sel way 0 children)])
/-- The same for several entries. -/
def entriesDom (shown href : List Byte → List Byte) (sel : Option Way) (way : Way) (i : Nat) :
    List Contents → List Dom
  | [] => []
  | c :: cs => entryDom shown href sel (way ++ [i]) c ++ entriesDom shown href sel way (i + 1) cs
end

/-- The names on the way to the file of a page, if the request leads along `down`: `index.html` in it if it is a
directory, else `.html` is appended to it, or `.html` is the file's name if the request ends with a separator. -/
def pageName (isDir openEnd : Bool) (down : List (List Byte)) : List (List Byte) :=
  if isDir then down ++ [lit "index.html"]
  else if openEnd then down ++ [lit ".html"]
  else down.dropLast ++ [(down.getLast?.getD []) ++ lit ".html"]

end Verif.Docs.Spec
