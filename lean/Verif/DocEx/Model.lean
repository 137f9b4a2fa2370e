import Verif.Str.Model
/-!
# Documentation comments — model

Models web/cook-docs/ply-web-cook-docs/CookResult_ExtractAPI.cpp (documentation comments and declarations inside of a
class) and CookResult_Page.cpp (the list of members in a page).  Paths are relative to that directory.  Failed assertions
are `none`.
-/
namespace Verif.DocEx
open Verif

/-- A line of a documentation comment as told apart in `APIExtractor::parseDocString`, CookResult_ExtractAPI.cpp:302-462:
text or a directive.  Indentation is taken to be part of the text, and so are blank lines that follow; `\addToClass` is
not modelled (within a class it is an error), nor are the errors about superfluous arguments of directives. -/
inductive Line where
  | text (bytes : List Byte)
  | beginGroup
  | endGroup
  | category (desc : List Byte)
  | bad
  deriving DecidableEq, Repr

/-- A member, `SemaEntity`, SemaEntity.h: here only its name and whether it is a function.  Nested names are not
modelled. -/
structure Member where
  name : List Byte
  function : Bool
  deriving DecidableEq, Repr

/-- `DocInfo::Entry`, SemaEntity.h:22-32, without places in the source. -/
structure Entry where
  titles : List Member
  desc : List Byte
  category : Int
  deriving DecidableEq, Repr

/-- Errors, CookResult_ExtractAPI.cpp:30-60, without their places. -/
inductive Err where
  | strayMarkdown | strayMarkdownInGroup | alreadyInsideGroup | unterminatedGroup | endGroupOutsideGroup | badDirective
  | groupHasNoMarkdown
  deriving DecidableEq, Repr

/-- `DocState`, CookResult_ExtractAPI.cpp:82-89, with the `DocInfo` of the class and the errors so far.  `pending` is
`markdownLoc >= 0` and `group` is `groupDirectiveLoc >= 0`; `groupEntry` is the index of the entry pointed to. -/
structure St where
  markdown : List Byte
  pending : Bool
  group : Bool
  groupEntry : Option Nat
  category : Int
  entries : List Entry
  categories : List (List Byte)
  errs : List Err
  deriving DecidableEq, Repr

/-- Local variables of `parseDocString`, CookResult_ExtractAPI.cpp:285-304. -/
structure Loc where
  mout : List Byte
  gotDirective : Bool
  gotMarkdown : Bool
  deriving DecidableEq, Repr

/-- What a directive does, CookResult_ExtractAPI.cpp:366-442. -/
def directive (st : St) : Line → St
  | .beginGroup =>
    if st.group then
      { st with groupEntry := none, group := true, errs := st.errs ++ [.alreadyInsideGroup, .unterminatedGroup] }
    else { st with group := true }
  | .endGroup =>
    { st with group := false, groupEntry := none,
              errs := st.errs ++ (if st.group then [] else [.endGroupOutsideGroup]) }
  | .category d =>
    match st.categories.findIdx? (· = d) with
    | some i => { st with category := i }
    | none => { st with category := st.categories.length, categories := st.categories ++ [d] }
  | _ => { st with errs := st.errs ++ [.badDirective] }

/-- One line, CookResult_ExtractAPI.cpp:352-461. -/
def line (st : St) (v : Loc) : Line → St × Loc
  | .text b =>
    let st := if v.mout = [] then
        (if st.groupEntry.isSome then { st with errs := st.errs ++ [.strayMarkdownInGroup] }
         else { st with markdown := [], pending := true,
                        errs := st.errs ++ (if st.pending then [.strayMarkdown] else []) })
      else st
    (st, { v with mout := v.mout ++ b, gotMarkdown := true })
  | l =>
    let st := if v.mout ≠ [] then { st with markdown := v.mout } else st
    (directive st l, ⟨[], v.gotDirective || l != .beginGroup, v.gotMarkdown⟩)

/-- The loop over the lines and what comes after it, CookResult_ExtractAPI.cpp:302-475. -/
def commentLoop : St → Loc → List Line → Option St
  | st, v, [] =>
    let r : Option St :=
      if v.mout ≠ [] then (if st.markdown = [] ∧ st.pending = true then some { st with markdown := v.mout } else none)
      else some st
    match r with
    | none => none
    | some st =>
      if !v.gotMarkdown && !v.gotDirective then
        (if st.markdown = [] then some { st with pending := true } else none)
      else some st
  | st, v, l :: ls => commentLoop (line st v l).1 (line st v l).2 ls

/-- `parseDocString`, CookResult_ExtractAPI.cpp:278-476. -/
def comment (st : St) (ls : List Line) : Option St := commentLoop st ⟨[], false, false⟩ ls

/-- The member of a declaration is added to an entry, CookResult_ExtractAPI.cpp:566-587. -/
def addMember (st : St) (m : Member) : Option St :=
  match st.groupEntry with
  | some i =>
    match st.entries[i]? with
    | none => none
    | some e => some { st with entries := st.entries.set i { e with titles := e.titles ++ [m] } }
  | none =>
    if st.group then
      (if st.pending then
        some { st with markdown := [], pending := false, groupEntry := some st.entries.length,
                       entries := st.entries ++ [⟨[m], st.markdown, st.category⟩] }
       else
        some { st with groupEntry := some st.entries.length, errs := st.errs ++ [.groupHasNoMarkdown],
                       entries := st.entries ++ [⟨[m], [], st.category⟩] })
    else if st.pending then
      some { st with markdown := [], pending := false, entries := st.entries ++ [⟨[m], st.markdown, st.category⟩] }
    else none

/-- The loop over the members of a declaration, CookResult_ExtractAPI.cpp:510-596. -/
def addMembers : St → List Member → Option St
  | st, [] => some st
  | st, m :: ms =>
    match addMember st m with
    | none => none
    | some st => addMembers st ms

/-- Text that nothing was made of, CookResult_ExtractAPI.cpp:480-484. -/
def dropStray (st : St) : St :=
  if st.pending then { st with markdown := [], pending := false, errs := st.errs ++ [.strayMarkdown] } else st

/-- `onGotDeclaration` within a class, CookResult_ExtractAPI.cpp:478-598, for simple declarations (others have no
members). -/
def declaration (st : St) (ms : List Member) : Option St :=
  if st.groupEntry.isSome || st.pending then (addMembers st ms).map dropStray else some st

/-- What is found in a class. -/
inductive Event where
  | comment (ls : List Line)
  | decl (ms : List Member)
  deriving DecidableEq, Repr

/-- All of it in order: `gotMacroOrComment`, CookResult_ExtractAPI.cpp:600-604, and `onGotDeclaration`. -/
def events : St → List Event → Option St
  | st, [] => some st
  | st, .comment ls :: es => match comment st ls with | none => none | some st => events st es
  | st, .decl ms :: es => match declaration st ms with | none => none | some st => events st es

/-- `exit` from the class, CookResult_ExtractAPI.cpp:259-274. -/
def exitClass (st : St) : St :=
  let st := dropStray st
  if st.group then
    { st with group := false, groupEntry := none, category := -1, errs := st.errs ++ [.unterminatedGroup] }
  else { st with category := -1 }

/-- A class, from `enter` (CookResult_ExtractAPI.cpp:134-149, 173-182) to `exit`. -/
def extract (es : List Event) : Option St := (events ⟨[], false, false, none, -1, [], [], []⟩ es).map exitClass

/-- What is written into the page, apart from how an entry looks. -/
inductive Tok where
  | heading (t : List Byte)
  | openList
  | closeList
  | entry (e : Entry)
  deriving DecidableEq, Repr

/-- `entry.titles[0].member->isFunction()`, CookResult_Page.cpp:307, 324, 338; an entry has a title. -/
def Entry.isFunction (e : Entry) : Option Bool := e.titles.head?.map Member.function

/-- One of the loops over the entries, CookResult_Page.cpp:305-315, 322-332, 336-346: the heading comes before the first
entry. -/
def section_ (head : List Byte) (want : Bool → Int → Bool) : (wrote : Bool) → List Entry → Option (List Tok × Bool)
  | wrote, [] => some ([], wrote)
  | wrote, e :: es =>
    match e.isFunction with
    | none => none
    | some f =>
      if want f e.category then
        match section_ head want true es with
        | none => none
        | some r => some ((if wrote then [] else [.heading head, .openList]) ++ .entry e :: r.1, r.2)
      else section_ head want wrote es

/-- The loop over the categories, CookResult_Page.cpp:321-333; the list is not closed. -/
def categorySections (entries : List Entry) : (c : Nat) → List (List Byte) → Option (List Tok)
  | _, [] => some []
  | c, d :: ds =>
    match section_ d (fun f k => f && decide (k = (c : Int))) false entries, categorySections entries (c + 1) ds with
    | some a, some b => some (a.1 ++ b)
    | _, _ => none

/-- `Data Members`, CookResult_Page.cpp:309. -/
def sData : List Byte := [68, 97, 116, 97, 32, 77, 101, 109, 98, 101, 114, 115]

/-- `Member Functions`, CookResult_Page.cpp:340. -/
def sFunctions : List Byte := [77, 101, 109, 98, 101, 114, 32, 70, 117, 110, 99, 116, 105, 111, 110, 115]

/-- `dumpExtractedMembers`, CookResult_Page.cpp:249-352, without the base classes. -/
def dump (entries : List Entry) (categories : List (List Byte)) : Option (List Tok) :=
  match section_ sData (fun f _ => !f) false entries, categorySections entries 0 categories,
      section_ sFunctions (fun f k => f && decide (k < 0)) false entries with
  | some a, some b, some c =>
    some (a.1 ++ (if a.2 then [.closeList] else []) ++ b ++ (c.1 ++ (if c.2 then [.closeList] else [])))
  | _, _, _ => none

end Verif.DocEx
