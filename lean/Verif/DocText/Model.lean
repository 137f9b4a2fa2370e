import Verif.DocLink.Model
/-!
# Links in descriptions — model

Models `parseMarkdown` in web/cook-docs/ply-web-cook-docs/CookResult_Page.cpp, without the parsing of the text
(which C61 and C62 are about).  Failed assertions and reading deleted memory are `none`.
-/
namespace Verif.DocText
open Verif

/-- `markdown::Node`, web/markdown/web-markdown/Markdown.h:14-65: code spans, links with their destination, headings with
their `id`, all other nodes without text (told apart by a number) and all other nodes with text.  The pointers to the
parent are not part of the nodes; where they matter, see `visit`. -/
inductive Node where
  | text (t : List Byte)
  | code (t : List Byte)
  | link (dest : List Byte) (children : List Node)
  | heading (id : List Byte) (children : List Node)
  | other (kind : Nat) (children : List Node)

/-- The items of `WebCookerIndex::linkIDMap`, WebCookerIndex.h:42-54, in order: the ID of a page and its address. -/
abbrev Ids := List (List Byte × List Byte)

/-- The destination of a link, CookResult_Page.cpp:112-127. -/
def fixLink (ids : Ids) (text : List Byte) : List Byte :=
  if !Str.startsWith text [47] && Str.findByte (· == 58) 0 text < 0 then
    let pos := Str.findByte (· == 35) 0 text
    let anchorPos := if pos < 0 then text.length else pos.toNat
    let linkID := text.take anchorPos
    if linkID ≠ [] then
      match ids.dropWhile fun p => DocLink.less p.1 linkID with
      | (i, d) :: _ => if i = linkID then d ++ text.drop anchorPos else text
      | [] => text
    else text
  else text

mutual
/-- `visitAll` with the callback of `parseMarkdown`, CookResult_Page.cpp:19-25 and 111-157, for one node; gives what is at
its place in its parent afterwards.  `span` is `getLinkDestinationFromSpan`.  `orphan` tells that the parent of the node
is a link that has been deleted when its children were moved to the heading around it (lines 150-152 do not change the
parent of the children); line 133 then reads deleted memory. -/
def visit (span : List Byte → Option (List Byte)) (ids : Ids) (orphan : Bool) : Node → Option Node
  | .text t => some (.text t)
  | .code t =>
    match span t with
    | none => none
    | some [] => some (.code t)
    | some (c :: d) => if orphan then none else some (.link (c :: d) [.code t])
  | .link dest children => some (.link (fixLink ids dest) children)
  | .heading _ [.link (35 :: anchor) sub] => (visitAll span ids true sub).map (.heading anchor)
  | .heading id children => (visitAll span ids false children).map (.heading id)
  | .other kind children => (visitAll span ids false children).map (.other kind)
/-- The loop of `visitAll`, CookResult_Page.cpp:21-23. -/
def visitAll (span : List Byte → Option (List Byte)) (ids : Ids) (orphan : Bool) : List Node → Option (List Node)
  | [] => some []
  | n :: ns =>
    match visit span ids orphan n with
    | none => none
    | some m => (visitAll span ids orphan ns).map (m :: ·)
end

end Verif.DocText
