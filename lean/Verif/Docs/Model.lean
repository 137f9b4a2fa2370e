import Verif.Web.Model
import Verif.Markdown.ModelHtml

/-!
# The documentation server

`ds/` stands for `web/serve-docs/ply-web-serve-docs/`.  The web server answers `/docs/…`, `/` and
`/content?path=/docs/…` from a folder of pages and a table of contents.

Not modelled: reading `contents.pylon` into the table (see C69), its modification time, and that a
reload changes the table under the feet of other threads (the mutex is not held while the table is read).
-/

namespace Verif.Docs

open Verif
open Verif.Markdown (lit)

/-- `Contents`, web/documentation/web-documentation/Contents.h:12-21, without the pointer to the parent: an entry is
told by the way to it, see `Way`. -/
inductive Contents where
  | mk (title link : List Byte) (children : List Contents)
deriving Repr

/-- The pointer to an entry: the indices on the way to it, from `DocServer::contents` down.  The pointer
`parent` (set in ds/DocServer.cpp:76, null at the top) is the way without its last index. -/
abbrev Way := List Nat

/-- `DocServer::pathToContents`, ds/DocServer.h:14-25 and 36.  Simplified: a list of keys and values without duplicate
keys instead of a hash table (see C20 for the hash table). -/
abbrev Index := List (List Byte × Way)

/-- `insertOrFind(key)->node = node`, ds/DocServer.cpp:73. -/
def Index.put (key : List Byte) (node : Way) : Index → Index
  | [] => [(key, node)]
  | (k, n) :: rest => if k = key then (k, node) :: rest else (k, n) :: Index.put key node rest

/-- `pathToContents.find`, ds/DocServer.cpp:157. -/
def Index.find (key : List Byte) : Index → Option Way
  | [] => none
  | (k, n) :: rest => if k = key then some n else Index.find key rest

mutual
/-- `populateContentsMap`, ds/DocServer.cpp:71-79. -/
def populate (index : Index) (way : Way) : Contents → Index
  | .mk _ link children =>
    populateAll (if link ≠ [] then index.put link way else index) way 0 children
/-- The loops over entries, ds/DocServer.cpp:75-78 and 99-101; the first of them is number `i`. -/
def populateAll (index : Index) (way : Way) (i : Nat) : List Contents → Index
  | [] => index
  | c :: cs => populateAll (populate index (way ++ [i]) c) way (i + 1) cs
end

/-- `reloadContents` after the table was read, ds/DocServer.cpp:98-101. -/
def indexOf (contents : List Contents) : Index := populateAll [] [] 0 contents

/-- The loop over the parents, ds/DocServer.cpp:161-164: the entry, its parent, and so on. -/
def chain : Way → List Way
  | [] => []
  | way@(_ :: _) => way :: chain way.dropLast
termination_by way => way.length

/-- Which entries to expand, ds/DocServer.cpp:155-166. -/
def expandTo (index : Index) (request : List Byte) : List Way :=
  match index.find (if request ≠ [] then lit "/docs/" ++ request else lit "/") with
  | some node => chain node
  | none => []

/-- The class of an entry, ds/DocServer.cpp:27-43. -/
def liOpen (hasChildren isExpanded isSelected : Bool) : List Byte :=
  lit "<li" ++ lit " class=\"" ++ lit "selectable" ++
    (if hasChildren then lit " " ++ lit "caret" ++ (if isExpanded then lit " " ++ lit "caret-down" else []) else []) ++
    (if isSelected then lit " " ++ lit "selected" else []) ++ lit "\">"

/-- ds/DocServer.cpp:14-22: whether to expand the entry, whether it is the selected one, and what is left to
expand in it. -/
def expansion (way : Way) (expand : List Way) : Bool × Bool × List Way :=
  match expand.getLast? with
  | some w => if w = way then (true, expand.dropLast.isEmpty, expand.dropLast) else (false, false, [])
  | none => (false, false, [])

mutual
/-- `dumpContents`, ds/DocServer.cpp:13-57; `none` = a failed assertion in writing the title. -/
def dump (way : Way) (expand : List Way) : Contents → Option (List Byte)
  | .mk title link children => do
    let e := expansion way expand
    let t ← Esc.xmlEscape 0 title
    let inner ← dumpAll way e.2.2 0 children
    return (if link ≠ [] then lit "<a href=\"" ++ link ++ lit "\">" else []) ++
      liOpen (!children.isEmpty) e.1 e.2.1 ++ lit "<span>" ++ t ++ lit "</span>" ++ lit "</li>\n" ++
      (if link ≠ [] then lit "</a>" else []) ++
      (if !children.isEmpty then
        lit "<ul class=\"nested" ++ (if e.1 then lit " active" else []) ++ lit "\">\n" ++ inner ++ lit "</ul>\n"
      else [])
/-- The loops over entries, ds/DocServer.cpp:52-54 and 203-205. -/
def dumpAll (way : Way) (expand : List Way) (i : Nat) : List Contents → Option (List Byte)
  | [] => some []
  | c :: cs => do
    let a ← dump (way ++ [i]) expand c
    let b ← dumpAll way expand (i + 1) cs
    return a ++ b
end

/-- The table of contents of a page, ds/DocServer.cpp:154-166 and 203-205. -/
def sidebar (contents : List Contents) (request : List Byte) : Option (List Byte) :=
  dumpAll [] (expandTo (indexOf contents) request) 0 contents

/-- `getPageSource` up to the name passed to `loadText`, ds/DocServer.cpp:104-118.  `isDir` says which names are
those of directories. -/
def pageFile (win : Bool) (dataRoot : List Byte) (isDir : List Byte → Bool) (request : List Byte) : Web.Serve :=
  if Path.isAbsolute win request then .notFound
  else
    match Path.joinAndNormalize win [dataRoot, lit "pages", request] with
    | none => .fault
    | some absPath =>
      match (if isDir absPath then Path.joinAndNormalize win [absPath, lit "index.html"]
        else some (absPath ++ lit ".html")) with
      | none => .fault
      | some absPath =>
        match Path.joinAndNormalize win [dataRoot, lit "pages", absPath] with
        | none => .fault
        | some p => .load p

/-- The title of a page and what follows, ds/DocServer.cpp:151-152, 215 and 228-229. -/
def pageParts (page : List Byte) : List Byte × List Byte :=
  let r := Web.readLine page
  (Str.trim Str.isWhite true true r.1, r.2)

/-- `serveContentOnly` after the page was loaded, ds/DocServer.cpp:225-233; `none` = not found. -/
def contentOnly (page : List Byte) : Option (List Byte) :=
  if page = [] then none
  else
    let p := pageParts page
    some (lit "Content-Type: text/html\r\n\r\n" ++ p.1 ++ lit "\n<h1>" ++ p.1 ++ lit "</h1>\n" ++ p.2)

end Verif.Docs
