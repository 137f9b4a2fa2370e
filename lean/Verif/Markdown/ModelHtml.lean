import Verif.Markdown.ModelBlock
import Verif.Esc.Model

/-!
# Markdown to HTML

`md/` stands for `web/markdown/web-markdown/`.  `none` is a failed assertion.
-/

namespace Verif.Markdown

open Verif

mutual
/-- `convertToHTML` for inline nodes, md/ConvertToHTML.cpp:110-148. -/
def inlineHtml : Inline → Option (List Byte)
  | .text t => Esc.xmlEscape 0 t
  | .link dest cs => do
    let d ← Esc.xmlEscape 0 dest
    let body ← inlinesHtml cs
    return lit "<a href=\"" ++ d ++ lit "\">" ++ body ++ lit "</a>"
  | .code t => do
    let b ← Esc.xmlEscape 0 t
    return lit "<code>" ++ b ++ lit "</code>"
  | .soft => some (lit "\n")
  | .emph cs => do
    let body ← inlinesHtml cs
    return lit "<em>" ++ body ++ lit "</em>"
  | .strong cs => do
    let body ← inlinesHtml cs
    return lit "<strong>" ++ body ++ lit "</strong>"
/-- The loops over `node->children`, md/ConvertToHTML.cpp:80-82, 93-95, 117-119, 135-137, 143-145. -/
def inlinesHtml : List Inline → Option (List Byte)
  | [] => some []
  | e :: es => do
    let a ← inlineHtml e
    let b ← inlinesHtml es
    return a ++ b
end

/-- The escaped lines of a code block, md/ConvertToHTML.cpp:104-106. -/
def codeHtml : List (List Byte) → Option (List Byte)
  | [] => some []
  | l :: ls => do
    let a ← Esc.xmlEscape 0 l
    let b ← codeHtml ls
    return a ++ b

/-- The start of a list, md/ConvertToHTML.cpp:21-29. -/
def listOpen (start : Int) : Option (List Byte) :=
  if start ≥ 0 then
    if start ≠ 1 then do
      let n ← Num.printS64 start 10 false
      return lit "<ol start=\"" ++ n ++ lit "\">\n"
    else some (lit "<ol>\n")
  else some (lit "<ul>\n")

/-- The end of a list, md/ConvertToHTML.cpp:33-37. -/
def listClose (start : Int) : List Byte := if start ≥ 0 then lit "</ol>\n" else lit "</ul>\n"

/-- The start of a heading after `<h1`, md/ConvertToHTML.cpp:69-78. -/
def headingOpen (childAnchors : Bool) (id : List Byte) : Option (List Byte) :=
  if id ≠ [] then do
    let i ← Esc.xmlEscape 0 id
    if childAnchors then
      return lit " class=\"anchored\"><span class=\"anchor\" id=\"" ++ i ++ lit "\">&nbsp;</span>"
    else return lit " id=\"" ++ i ++ lit "\">"
  else some (lit ">")

/-- Is the node a paragraph? -/
def Block.isPara : Block → Bool
  | .para _ => true
  | _ => false

/-- The line break after `<li>`, md/ConvertToHTML.cpp:42-46; `children[0]` of an empty array is a
failed assertion. -/
def itemBreak (parentLoose : Bool) (cs : List Block) : Option (List Byte) :=
  if !parentLoose then
    match cs with
    | [] => none
    | c :: _ => if c.isPara then some [] else some (lit "\n")
  else some (lit "\n")

mutual
/-- `convertToHTML` for block nodes, md/ConvertToHTML.cpp:20-109.  `parentLoose` is
`node->parent->isLoose`, `tight` says that the parent is an item of a list that is not loose
(line 88). -/
def blockHtml (childAnchors parentLoose tight : Bool) : Block → Option (List Byte)
  | .list start loose cs => do
    let o ← listOpen start
    let body ← blocksHtml childAnchors loose false cs
    return o ++ body ++ listClose start
  | .item cs => do
    let nl ← itemBreak parentLoose cs
    let body ← itemHtml childAnchors (!parentLoose) cs
    return lit "<li>" ++ nl ++ body ++ lit "</li>\n"
  | .quote cs => do
    let body ← blocksHtml childAnchors false false cs
    return lit "<blockquote>\n" ++ body ++ lit "</blockquote>\n"
  | .heading level id cs => do
    let n ← Num.printU64 level 10 false
    let o ← headingOpen childAnchors id
    let body ← inlinesHtml cs
    return lit "<h" ++ n ++ o ++ body ++ lit "</h" ++ n ++ lit ">\n"
  | .para cs => do
    let body ← inlinesHtml cs
    if tight then return body else return lit "<p>" ++ body ++ lit "</p>\n"
  | .code ls => do
    let body ← codeHtml ls
    return lit "<pre><code>" ++ body ++ lit "</code></pre>\n"
/-- The loops over `node->children`, md/ConvertToHTML.cpp:15-17, 30-32 and 61-63. -/
def blocksHtml (childAnchors parentLoose tight : Bool) : List Block → Option (List Byte)
  | [] => some []
  | c :: cs => do
    let a ← blockHtml childAnchors parentLoose tight c
    let b ← blocksHtml childAnchors parentLoose tight cs
    return a ++ b
/-- The loop over the children of a list item, md/ConvertToHTML.cpp:47-55. -/
def itemHtml (childAnchors tight : Bool) : List Block → Option (List Byte)
  | [] => some []
  | c :: cs => do
    let a ← blockHtml childAnchors false tight c
    let b ← itemHtml childAnchors tight cs
    return a ++ (if tight && c.isPara && !cs.isEmpty then lit "\n" else []) ++ b
end

/-- `convertToHTML` of the document, md/ConvertToHTML.cpp:14-19. -/
def toHtml (childAnchors : Bool) (doc : List Block) : Option (List Byte) :=
  blocksHtml childAnchors false false doc

/-- Markdown text to HTML: `markdown::parse` followed by `convertToHTML`. -/
def render (src : List Byte) : Option (List Byte) :=
  match parse src with
  | none => none
  | some doc => toHtml false doc

end Verif.Markdown
