import Verif.Str.Model
/-!
# Links from documentation to classes and members — model

Models web/cook-docs/ply-web-cook-docs/SemaEntity.cpp (looking up names) and CookResult_Page.cpp (finding the page of
something named in a text).  Paths are relative to that directory.  Failed assertions, reading through null pointers and
running out of fuel are `none`.
-/
namespace Verif.DocLink
open Verif

/-- `SemaEntity::Type`, SemaEntity.h:47-54. -/
inductive Kind where
  | namespace | class | member | templateParamList | templateParam | functionParam
  deriving DecidableEq, Repr

/-- `SemaEntity`, SemaEntity.h:46-82.  `children` are the items of `nameToChild` in order (the tree is taken to be the
list it shows, which is what C21 is about); `bases` are the names of the base classes.  The rest is not needed here. -/
structure Ent where
  parent : Option Nat
  kind : Kind
  name : List Byte
  bases : List (List Byte)
  children : List Nat

/-- The entities, by their addresses.  Every address is taken to be that of an entity (SemaEntity.h:40-45); when they
are deleted is not modelled. -/
abbrev World := Nat → Ent

/-- `ChildBTreeTraits::less`, SemaEntity.h:62-64, and `ExtractPageMetaTraits::less`, WebCookerIndex.h:35-37. -/
def less (a b : List Byte) : Bool := decide (Str.compare a b < 0)

/-- `nameToChild.findFirstGreaterOrEqualTo`, SemaEntity.cpp:61: the items from there on. -/
def fromName (w : World) (n : List Byte) (items : List Nat) : List Nat :=
  items.dropWhile fun c => less (w c).name n

/-- `SemaEntity::lookup`, SemaEntity.cpp:60-69.  The first argument bounds the number of entities looked into; the inner
`none` is a null pointer. -/
def lookup (w : World) : Nat → Nat → List Byte → Bool → Option (Option Nat)
  | 0, _, _, _ => none
  | fuel + 1, s, n, checkParents =>
    let up : Option (Option Nat) :=
      if checkParents then
        match (w s).parent with
        | some p => lookup w fuel p n true
        | none => some none
      else some none
    match fromName w n (w s).children with
    | c :: _ => if (w c).name = n then some (some c) else up
    | [] => up

/-- The loop of `SemaEntity::lookupChain`, SemaEntity.cpp:76-84. -/
def chainLoop (w : World) (fuel : Nat) : Bool → Nat → List (List Byte) → Option (Option Nat)
  | _, result, [] => some (some result)
  | first, result, n :: ns =>
    if !first && (w result).kind ≠ .namespace && (w result).kind ≠ .class then some none
    else
      match lookup w fuel result n first with
      | none => none
      | some none => some none
      | some (some c) => chainLoop w fuel false c ns

/-- `SemaEntity::lookupChain`, SemaEntity.cpp:71-86. -/
def lookupChain (w : World) (fuel : Nat) (s : Nat) (comps : List (List Byte)) : Option (Option Nat) :=
  if comps = [] then some none else chainLoop w fuel true s comps

/-- `SemaEntity::appendToQualifiedID`, SemaEntity.cpp:51-58, as the text appended. -/
def qualifiedID (w : World) : Nat → Nat → Option (List Byte)
  | 0, _ => none
  | fuel + 1, e =>
    match (w e).parent with
    | none => none
    | some p =>
      match (w p).parent with
      | none => some (w e).name
      | some _ => (qualifiedID w fuel p).map fun pre => pre ++ [58, 58] ++ (w e).name

/-- `resolveClassScope`, CookResult_Page.cpp:27-32, with the global scope as argument. -/
def resolveClassScope (w : World) (fuel root : Nat) (text : List Byte) : Option (Option Nat) :=
  lookupChain w fuel root (Str.splitByte 58 text)

/-- The items of `WebCookerIndex::extractPageMeta` in order, WebCookerIndex.h:16-40: an entity and the address of its
page. -/
abbrev Pages := List (Nat × List Byte)

/-- The loop of `getLinkDestination`, CookResult_Page.cpp:43-48, from the iterator on. -/
def pageLoop (w : World) (target : Nat) (suffix : List Byte) : Pages → List Byte
  | [] => []
  | (e, d) :: rest =>
    if (w e).name = (w target).name then
      if e = target then d ++ suffix else pageLoop w target suffix rest
    else []

/-- `getLinkDestination`, CookResult_Page.cpp:42-49: the entry of `target`. -/
def pageOf (w : World) (pages : Pages) (target : Nat) (suffix : List Byte) : List Byte :=
  pageLoop w target suffix (pages.dropWhile fun p => less (w p.1).name (w target).name)

/-- `getLinkDestination`, CookResult_Page.cpp:34-50; the empty text is no link. -/
def getLinkDestination (w : World) (pages : Pages) (target : Nat) : Option (List Byte) :=
  if (w target).kind = .member then
    match (w target).parent with
    | none => none
    | some p => if (w p).kind ≠ .class then some [] else some (pageOf w pages p (35 :: (w target).name))
  else some (pageOf w pages target [])

/-- `LookupContext::shouldShowLink`, CookResult_Page.cpp:66-75. -/
def shouldShowLink (w : World) (forClass : Option Nat) (group : List Nat) (e : Nat) : Bool :=
  if some e = forClass then false
  else !group.any fun g => e = g || (w e).parent = some g

/-- The loop over `semaGroup`, CookResult_Page.cpp:86-93, followed by the class itself, lines 94-103: the scopes tried one
after the other. -/
def tryScopes (w : World) (fuel : Nat) (pages : Pages) (forClass : Option Nat) (group : List Nat)
    (comps : List (List Byte)) : List Nat → Option (List Byte)
  | [] => some []
  | s :: rest =>
    match lookupChain w fuel s comps with
    | none => none
    | some (some e) => if shouldShowLink w forClass group e then getLinkDestination w pages e else some []
    | some none => tryScopes w fuel pages forClass group comps rest

/-- `getLinkDestinationFromSpan`, CookResult_Page.cpp:78-105. -/
def getLinkDestinationFromSpan (w : World) (fuel : Nat) (pages : Pages) (forClass : Option Nat) (group : List Nat)
    (text : List Byte) : Option (List Byte) :=
  let text := if Str.endsWith text [40, 41] then text.take (text.length - 2) else text
  let comps := Str.splitByte 58 text
  if comps = [] then some []
  else if Str.startsWith text [58] then none
  else tryScopes w fuel pages forClass group comps (group ++ forClass.toList)

end Verif.DocLink
