import Verif.Title.Lemmas
/-!
# The table of contents of the documentation — model

Models the collecting of documentation pages: the `childOrder` tag and the address of a page
(CookResult_ExtractPageMeta.{h,cpp}) and the walk over the pages that decides what is made and what the table of contents
shows (WebCooker/Main.cpp).  Paths are relative to web/cook-docs/ply-web-cook-docs unless they begin with `apps/`.
-/
namespace Verif.Toc
open Verif

/-- Errors of the `childOrder` tag, CookResult_ExtractPageMeta.cpp:74-96; of the messages only the names are kept. -/
inductive Err where
  | notChild (id : List Byte)
  | notListed (ids : List (List Byte))
  deriving DecidableEq, Repr

/-- The names in a `childOrder` tag, CookResult_ExtractPageMeta.cpp:67-71: white space and identifiers in turn, up to
where there is no identifier.  The reading of identifiers and white space is modelled in Verif.Esc and Verif.Title.
Each round but the last steps over a byte, so that the length of the text bounds the number of rounds.  Here the names
are all read before they are looked for; the code looks for each as it is read, which makes no difference. -/
def readIds : (fuel : Nat) → List Byte → List (List Byte)
  | 0, _ => []
  | fuel + 1, s =>
    let s := Esc.scanWhite false s
    if Title.spanName s = [] then [] else Title.spanName s :: readIds fuel (Title.afterName s)

/-- `Array::eraseQuick`, rt/container/Array.h:480-486 (modelled with its memory in Verif.Arr): the last item takes the
place of the item at `i`. -/
def eraseQuick {α : Type} (i : Nat) (l : List α) : List α :=
  match l.getLast? with
  | none => []
  | some x => (l.set i x).dropLast

/-- The loop over the names, CookResult_ExtractPageMeta.cpp:67-83: the pages moved to `childPages`, those still in
`origOrder` and the names that were not found.  `link` gives the link ID of a page. -/
def order {α : Type} (link : α → List Byte) : List (List Byte) → List α → List α × List α × List (List Byte)
  | [], l => ([], l, [])
  | id :: ids, l =>
    match l.find? (fun c => link c == id) with
    | none => ((order link ids l).1, (order link ids l).2.1, id :: (order link ids l).2.2)
    | some x =>
      let r := order link ids (eraseQuick (l.findIdx fun c => link c == id) l)
      (x :: r.1, r.2.1, r.2.2)

/-- The `childOrder` tag, CookResult_ExtractPageMeta.cpp:62-96, with the text after the command: the new `childPages`
and the errors. -/
def childOrder {α : Type} (link : α → List Byte) (text : List Byte) (l : List α) : List α × List Err :=
  let r := order link (readIds (text.length + 1) text) l
  (r.1, r.2.2.map Err.notChild ++ if r.2.1 = [] then [] else [.notListed (r.2.1.map link)])

/-- The `childOrder` tags of a page one after the other, CookResult_ExtractPageMeta.cpp:52-110; other tags do not change
the list of pages. -/
def childOrders {α : Type} (link : α → List Byte) : List (List Byte) → List α → List α × List Err
  | [], l => (l, [])
  | t :: ts, l =>
    let r := childOrder link t l
    ((childOrders link ts r.1).1, r.2 ++ (childOrders link ts r.1).2)

/-- `CookResult_ExtractPageMeta`, CookResult_ExtractPageMeta.h:16-24, with the description of its job; the synopsis and
the symbols of the page are left out. -/
structure Info where
  desc : List Byte
  markdown : Bool
  title : List Byte
  link : List Byte
  deriving DecidableEq, Repr

/-- `/index`, CookResult_ExtractPageMeta.h:30. -/
def indexName : List Byte := [47, 105, 110, 100, 101, 120]

/-- `/docs`, CookResult_ExtractPageMeta.h:34 and 37. -/
def docsName : List Byte := [47, 100, 111, 99, 115]

/-- `CookResult_ExtractPageMeta::getLinkDestination`, CookResult_ExtractPageMeta.h:26-39; `none` if the assertion
fails. -/
def linkDestination (p : Info) : Option (List Byte) :=
  if p.desc.head? ≠ some 47 then none
  else if !p.markdown then some []
  else if indexName.isSuffixOf p.desc then
    if p.desc = indexName then some [47] else some (docsName ++ p.desc.take (p.desc.length - 6))
  else some (docsName ++ p.desc)

/-- A page with the texts of its `childOrder` tags and the pages below it in the order in which
`extractPageMetasFromFolder` hands them over, apps/WebCooker/Main.cpp:84-115: folders and files by name.  The directory
and the sorting of its entries are not modelled; a file is a page with nothing below it. -/
inductive Page where
  | mk (info : Info) (orders : List (List Byte)) (children : List Page)

/-- The record of a page, CookResult_ExtractPageMeta.h:16-24. -/
def Page.info : Page → Info
  | .mk i _ _ => i

mutual
/-- `visitPageMetas`, apps/WebCooker/Main.cpp:117-126: the pages visited, in order.  The pages below are visited before
they are put in order here, which makes no difference to the result. -/
def visit : Page → List Info
  | .mk i orders cs => i :: (childOrders Prod.fst orders (visitEach cs)).1.flatMap Prod.snd
/-- The visits of apps/WebCooker/Main.cpp:122-124, with the link IDs of the pages. -/
def visitEach : List Page → List (List Byte × List Info)
  | [] => []
  | p :: ps => (p.info.link, visit p) :: visitEach ps
end

mutual
/-- The errors of all pages under a page, CookResult_ExtractPageMeta.cpp:74-96; all are cooked, whether visited or not,
apps/WebCooker/Main.cpp:103-113. -/
def errors : Page → List Err
  | .mk _ orders cs => errorsEach cs ++ (childOrders (fun p => p.info.link) orders cs).2
/-- The same for a list of pages, apps/WebCooker/Main.cpp:103-111. -/
def errorsEach : List Page → List Err
  | [] => []
  | p :: ps => errors p ++ errorsEach ps
end

/-- `web::Contents`, apps/WebCooker/Main.cpp:128-140; `dest` is `none` if the assertion of `getLinkDestination` fails. -/
inductive Contents where
  | mk (title : List Byte) (dest : Option (List Byte)) (children : List Contents)

mutual
/-- `convertContents`, apps/WebCooker/Main.cpp:128-140; the pages below are converted before they are put in order here,
which makes no difference to the result. -/
def convert : Page → Contents
  | .mk i orders cs => .mk i.title (linkDestination i) ((childOrders Prod.fst orders (convertEach cs)).1.map Prod.snd)
/-- The conversions of apps/WebCooker/Main.cpp:136-138, with the link IDs of the pages. -/
def convertEach : List Page → List (List Byte × Contents)
  | [] => []
  | p :: ps => (p.info.link, convert p) :: convertEach ps
end

end Verif.Toc
