import Verif.Markdown.ModelHtml
import Verif.Esc.Spec

/-!
# What HTML output is supposed to be

A small grammar of HTML fragments: elements properly nested, only the elements and attributes a
Markdown document needs, and no `<`, `>`, `"` or `&` from the document's text outside an entity.
-/

namespace Verif.Markdown.Spec

open Verif Verif.Markdown

/-- The elements that may occur. -/
def elements : List String :=
  ["ol", "ul", "li", "blockquote", "h1", "h2", "h3", "h4", "h5", "h6", "p", "pre", "code", "a", "em",
    "strong", "span"]

/-- The attributes that may occur. -/
def attributes : List String := ["start", "class", "id", "href"]

/-- A document as a browser sees it: text, and elements with attributes and children. -/
inductive Dom where
  | text (t : List Byte)
  | elem (name : String) (attrs : List (String × List Byte)) (cs : List Dom)

/-- `Attrs o as`: `o` spells out the attributes `as`, their values quoted and escaped. -/
inductive Attrs : List Byte → List (String × List Byte) → Prop where
  | nil : Attrs [] []
  | cons {name v t o as} : name ∈ attributes → Esc.Resolves v t → Attrs o as →
      Attrs (32 :: (lit name ++ 61 :: 34 :: (v ++ 34 :: o))) ((name, t) :: as)

/-- `Reads o ds`: a browser reads the fragment `o` as the nodes `ds`.  Line breaks may be dropped,
and neighbouring texts may be written as one. -/
inductive Reads : List Byte → List Dom → Prop where
  | nil : Reads [] []
  | newline {o ds} : Reads o ds → Reads (10 :: o) ds
  | text {v t o ds} : Esc.Resolves v t → Reads o ds → Reads (v ++ o) (.text t :: ds)
  | space {o ds} : Reads o ds → Reads (lit "&nbsp;" ++ o) (.text [0xC2, 0xA0] :: ds)
  | elem {name a as body cs o ds} : name ∈ elements → Attrs a as → Reads body cs → Reads o ds →
      Reads (60 :: (lit name ++ a ++ 62 :: (body ++ (60 :: 47 :: (lit name ++ 62 :: o)))))
        (.elem name as cs :: ds)

/-- A fragment is well formed if it can be read at all. -/
def WellFormed (o : List Byte) : Prop := ∃ ds, Reads o ds

/-- A number in decimal. -/
def decimal (n : Nat) : List Byte :=
  if n < 10 then [UInt8.ofNat (48 + n)] else decimal (n / 10) ++ [UInt8.ofNat (48 + n % 10)]
  termination_by n
  decreasing_by omega

/-- The name of a heading element. -/
def headingName (level : Nat) : String := "h" ++ toString level

mutual
/-- The nodes an inline element stands for; `shown` says how the texts come out. -/
def inlineDom (shown : List Byte → List Byte) : Inline → Dom
  | .text t => .text (shown t)
  | .link dest cs => .elem "a" [("href", shown dest)] (inlinesDom shown cs)
  | .code t => .elem "code" [] [.text (shown t)]
  | .soft => .text [10]
  | .emph cs => .elem "em" [] (inlinesDom shown cs)
  | .strong cs => .elem "strong" [] (inlinesDom shown cs)
/-- The nodes a list of inline elements stands for. -/
def inlinesDom (shown : List Byte → List Byte) : List Inline → List Dom
  | [] => []
  | e :: es => inlineDom shown e :: inlinesDom shown es
end

/-- The attributes of a list. -/
def listAttrs (start : Int) : List (String × List Byte) :=
  if start ≥ 0 ∧ start ≠ 1 then [("start", decimal start.toNat)] else []

/-- The attributes and the anchor of a heading. -/
def headingParts (shown : List Byte → List Byte) (childAnchors : Bool) (id : List Byte) :
    List (String × List Byte) × List Dom :=
  if id = [] then ([], [])
  else if childAnchors then
    ([("class", lit "anchored")],
      [.elem "span" [("class", lit "anchor"), ("id", shown id)] [.text [0xC2, 0xA0]]])
  else ([("id", shown id)], [])

mutual
/-- The nodes a block stands for; `loose` says that its parent is a loose list, and `tight` that it
is in an item of a tight list, where paragraphs have no element of their own. -/
def blockDom (shown : List Byte → List Byte) (childAnchors loose tight : Bool) : Block → List Dom
  | .list start l cs =>
    [.elem (if start ≥ 0 then "ol" else "ul") (listAttrs start)
      (blocksDom shown childAnchors l false cs)]
  | .item cs => [.elem "li" [] (blocksDom shown childAnchors false (!loose) cs)]
  | .quote cs => [.elem "blockquote" [] (blocksDom shown childAnchors false false cs)]
  | .heading level id cs =>
    [.elem (headingName level) (headingParts shown childAnchors id).1
      ((headingParts shown childAnchors id).2 ++ inlinesDom shown cs)]
  | .para cs => if tight then inlinesDom shown cs else [.elem "p" [] (inlinesDom shown cs)]
  | .code ls => [.elem "pre" [] [.elem "code" [] (ls.map (fun l => .text (shown l)))]]
/-- The nodes a list of blocks stands for. -/
def blocksDom (shown : List Byte → List Byte) (childAnchors loose tight : Bool) :
    List Block → List Dom
  | [] => []
  | b :: bs =>
    blockDom shown childAnchors loose tight b ++ blocksDom shown childAnchors loose tight bs
end

/-- The document as a browser should see it. -/
def docDom (shown : List Byte → List Byte) (childAnchors : Bool) (doc : List Block) : List Dom :=
  blocksDom shown childAnchors false false doc

mutual
/-- What the writer relies on in a block: headings have levels 1 to 6, list numbers are those of an
`s32`, and items of tight lists are not empty. -/
def BlockOk (loose : Bool) : Block → Prop
  | .list start l cs => (start < 2 ^ 31 ∧ -2 ^ 31 ≤ start) ∧ BlocksOk l cs
  | .item cs => (loose = false → cs ≠ []) ∧ BlocksOk false cs
  | .quote cs => BlocksOk false cs
  | .heading level _ _ => 1 ≤ level ∧ level ≤ 6
  | .para _ => True
  | .code _ => True
/-- The same for lists. -/
def BlocksOk (loose : Bool) : List Block → Prop
  | [] => True
  | b :: bs => BlockOk loose b ∧ BlocksOk loose bs
end

end Verif.Markdown.Spec
