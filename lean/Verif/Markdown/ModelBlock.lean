import Verif.Markdown.ModelInline
import Verif.Num.Model

/-!
# The first pass of the Markdown parser: block elements

`md/` stands for `web/markdown/web-markdown/`.  `none` is a failed assertion.  Columns and counts
are unbounded numbers (the code's `u32`s cannot overflow for sources below 1 GB: a tab advances by
at most 4).
-/

namespace Verif.Markdown

open Verif

/-- The block node types, md/Markdown.h:12-22. -/
inductive BType where
  | document | list | item | quote | heading | para | code
  deriving DecidableEq, Repr

/-- `Node`, md/Markdown.h:33-43, for block nodes.  A node is known by its position in the order of
creation; `parent` is such a position.  `children` is not stored: the constructor (md/Markdown.h:
45-49) appends every node to its parent's children when it is made and nothing is removed during
the first pass, so the children of a node are the nodes with that parent, in order. -/
structure BNode where
  type : BType
  parent : Option Nat
  level : Nat := 0
  start : Int := 0
  looseIf : Bool := false
  loose : Bool := false
  punc : Byte := 45
  raw : List (List Byte) := []
  deriving DecidableEq, Repr

/-- `Parser`, md/ParseMarkdown.cpp:74-90, together with the nodes made so far. -/
structure St where
  nodes : List BNode
  stack : List Nat
  leaf : Option Nat := none
  blanks : Nat := 0
  check : Bool := false
  deriving DecidableEq, Repr

/-- `LineConsumer`, md/ParseMarkdown.cpp:14-17: the unread part of the line and the columns. -/
structure LC where
  rem : List Byte
  outer : Nat := 0
  indent : Nat := 0
  deriving DecidableEq, Repr

/-- The column after a tab, md/ParseMarkdown.cpp:26-27. -/
def tabStop (indent : Nat) : Nat := indent + (4 - indent % 4)

/-- `LineConsumer::consumeSpaceOrTab`, md/ParseMarkdown.cpp:19-33; `none` when it returns false. -/
def LC.space (lc : LC) : Option LC :=
  match lc.rem with
  | [] => none
  | c :: r =>
    if c = 32 then some { lc with rem := r, indent := lc.indent + 1 }
    else if c = 9 then some { lc with rem := r, indent := tabStop lc.indent }
    else none

/-- `while (lc.consumeSpaceOrTab()) {}`, md/ParseMarkdown.cpp:100-101 and 302-303. -/
def skipLoop (indent : Nat) : List Byte → Nat × List Byte
  | [] => (indent, [])
  | c :: r =>
    if c = 32 then skipLoop (indent + 1) r
    else if c = 9 then skipLoop (tabStop indent) r
    else (indent, c :: r)

/-- `while (lc.consumeSpaceOrTab()) {}`, md/ParseMarkdown.cpp:100-101 and 302-303. -/
def LC.skip (lc : LC) : LC :=
  { lc with rem := (skipLoop lc.indent lc.rem).2, indent := (skipLoop lc.indent lc.rem).1 }

/-- `LineConsumer::innerIndent`, md/ParseMarkdown.cpp:35-37 (unsigned subtraction). -/
def LC.inner (lc : LC) : Nat :=
  if lc.outer ≤ lc.indent then lc.indent - lc.outer else 2 ^ 32 + lc.indent - lc.outer

/-- `LineConsumer::trimmedRemainder`, md/ParseMarkdown.cpp:39-41. -/
def LC.trimmed (lc : LC) : List Byte := Str.trim Str.isWhite true true lc.rem

/-- `extractCodeLine`, md/ParseMarkdown.cpp:50-72, from column `indent` on. -/
def extractLoop (fromIndent : Nat) : (indent : Nat) → List Byte → Option (List Byte)
  | _, [] => none
  | indent, c :: r =>
    if indent = fromIndent then some (c :: r)
    else if ¬ c.toNat < 128 then none
    else if ¬ (c.toNat ≥ 32 ∨ c = 9) then none
    else if c = 9 then
      if tabStop indent > fromIndent then
        some (List.replicate (tabStop indent - fromIndent) 32 ++ r)
      else extractLoop fromIndent (tabStop indent) r
    else extractLoop fromIndent (indent + 1) r

/-- `extractCodeLine`, md/ParseMarkdown.cpp:50-72. -/
def extractCodeLine (line : List Byte) (fromIndent : Nat) : Option (List Byte) :=
  extractLoop fromIndent 0 line

/-- Consuming a `>` and the optional space after it, md/ParseMarkdown.cpp:109-116 and 246-251. -/
def LC.quote (lc : LC) (r : List Byte) : LC :=
  let lc1 : LC := ⟨r, lc.indent + 1, lc.indent + 1⟩
  match lc1.space with
  | some lc2 => { lc2 with outer := lc2.outer + 1 }
  | none => lc1

/-- The loop of `matchExistingIndentation`, md/ParseMarkdown.cpp:99-131, over the rest of
`blockNodes`, with `keepStackDepth`. -/
def matchLoop (nodes : List BNode) : List Nat → (keep : Nat) → LC → Option (Nat × LC)
  | [], keep, lc => some (keep, lc.skip)
  | n :: ns, keep, lc =>
    match nodes[n]? with
    | none => none
    | some node =>
      match node.type with
      | .quote =>
        if lc.skip.rem.head? = some 62 ∧ lc.skip.inner ≤ 3 then
          matchLoop nodes ns (keep + 1) (lc.skip.quote lc.skip.rem.tail)
        else some (keep, lc.skip)
      | .item =>
        if lc.skip.inner ≥ node.level then
          matchLoop nodes ns (keep + 1) { lc.skip with outer := lc.skip.outer + node.level }
        else some (keep, lc.skip)
      | _ => none

/-- Is this node of the given type? -/
def isType (nodes : List BNode) (ty : BType) (n : Nat) : Bool :=
  match nodes[n]? with
  | none => false
  | some node => node.type == ty

/-- `blockNodes.resize(keepStackDepth)` when something is cut off, md/ParseMarkdown.cpp:147-151 and
186-190. -/
def St.truncate (st : St) (keep : Nat) : St :=
  if keep < st.stack.length then { st with stack := st.stack.take keep, leaf := none, blanks := 0 }
  else st

/-- `leafNode->rawLines.append(…)` for the given lines. -/
def appendRaw (nodes : List BNode) (n : Nat) (ls : List (List Byte)) : List BNode :=
  nodes.modify n (fun node => { node with raw := node.raw ++ ls })

/-- Adding a code line and the blank lines before it to the leaf, md/ParseMarkdown.cpp:160-165 and
325-330. -/
def St.addCode (st : St) (lf : Nat) (line : List Byte) (fromIndent : Nat) : Option St :=
  match extractCodeLine line fromIndent with
  | none => none
  | some l =>
    some { st with nodes := appendRaw st.nodes lf (List.replicate st.blanks [10] ++ [l]), blanks := 0 }

/-- The loop of md/ParseMarkdown.cpp:172-180 over `blockNodes`. -/
def markLoop : List Nat → St → Option St
  | [], st => some st
  | n :: ns, st =>
    match st.nodes[n]? with
    | none => none
    | some node =>
      if node.type = .item then
        match node.parent with
        | none => none
        | some p =>
          match st.nodes[p]? with
          | none => none
          | some par =>
            if par.type = .list then
              if !par.loose then
                markLoop ns { st with
                  nodes := st.nodes.modify p (fun q => { q with looseIf := true }), check := true }
              else markLoop ns st
            else none
      else markLoop ns st

/-- `leafNode && leafNode->type == Node::Paragraph`, md/ParseMarkdown.cpp:136 and 315. -/
def St.hasPara (st : St) : Bool :=
  match st.leaf with
  | some lf => isType st.nodes .para lf
  | none => false

/-- The blank-line part of `matchExistingIndentation`, md/ParseMarkdown.cpp:134-183. -/
def St.blankLine (st : St) (line : List Byte) (keep : Nat) (lc : LC) : Option St :=
  if st.hasPara ∧ st.blanks ≠ 0 then none
  else
    let st1 := if st.hasPara then { st with leaf := none } else st
    let keep' := keep + ((st.stack.drop keep).takeWhile (isType st.nodes .item)).length
    if ¬ (keep' ≥ st.stack.length ∨ (st.stack[keep']?).any (isType st.nodes .quote)) then none
    else
      let st2 := st1.truncate keep'
      match st2.leaf with
      | some lf =>
        if isType st2.nodes .code lf then
          if lc.inner > 4 then st2.addCode lf line (lc.outer + 4)
          else some { st2 with blanks := st2.blanks + 1 }
        else none
      | none => markLoop st2.stack st2

/-- `matchExistingIndentation`, md/ParseMarkdown.cpp:97-192: the new state, the consumer and the
returned flag. -/
def matchExisting (st : St) (line : List Byte) : Option (St × LC × Bool) :=
  match matchLoop st.nodes (st.stack.drop 1) 1 ⟨line, 0, 0⟩ with
  | none => none
  | some (keep, lc) =>
    if lc.trimmed = [] then
      match st.blankLine line keep lc with
      | none => none
      | some st' => some (st', lc, false)
    else some (st.truncate keep, lc, true)

/-- `Node::children` of node `p`, md/Markdown.h:39 and 45-49: see `BNode`. -/
def childrenOf (nodes : List BNode) (p : Nat) : List Nat :=
  (List.range nodes.length).filter (fun i => (nodes[i]?).any (fun n => n.parent == some p))

/-- `isContainerBlock`, md/Markdown.h:64-66. -/
def BType.isContainer : BType → Bool
  | .document | .list | .item | .quote => true
  | _ => false

/-- md/ParseMarkdown.cpp:229-237: begin a new list under `parentCtr` unless there is one, and a new
item in it. -/
def St.addItem (st : St) (list : Option Nat) (parentCtr : Nat) (outer : Nat) (num : Int)
    (punc : Byte) : St :=
  match list with
  | some l =>
    { st with
      nodes := st.nodes ++ [{ type := .item, parent := some l, level := outer }]
      stack := st.stack ++ [st.nodes.length] }
  | none =>
    { st with
      nodes := st.nodes ++ [{ type := .list, parent := some parentCtr, start := num, punc := punc },
        { type := .item, parent := some st.nodes.length, level := outer }]
      stack := st.stack ++ [st.nodes.length + 1] }

/-- The lambda `gotListMarker`, md/ParseMarkdown.cpp:209-238. -/
def St.gotListMarker (st0 : St) (outer : Nat) (num : Int) (punc : Byte) : Option St :=
  let st := { st0 with leaf := none, blanks := 0 }
  match st.stack.getLast? with
  | none => none
  | some p =>
    match st.nodes[p]? with
    | none => none
    | some par =>
      if !par.type.isContainer then none
      else
        match (childrenOf st.nodes p).getLast? with
        | some c =>
          match st.nodes[c]? with
          | none => none
          | some child =>
            if child.type = .list ∧ (child.start ≥ 0 ↔ num ≥ 0) ∧ child.punc = punc then
              some (st.addItem (some c) p outer num punc)
            else some (st.addItem none p outer num punc)
        | none =>
          if par.type = .item then
            match par.parent with
            | none => none
            | some g =>
              if isType st.nodes .list g then some (st.addItem none g outer num punc) else none
          else some (st.addItem none p outer num punc)

/-- The rest of a list marker: md/ParseMarkdown.cpp:256-265 and 286-296.  `lc` is the consumer after
the marker itself.  The inner `none` is `goto notMarker`. -/
def listMarker (st : St) (lc : LC) (num : Int) (punc : Byte) : Option (Option (St × LC)) :=
  match lc.space with
  | none => some none
  | some lc1 =>
    if st.leaf.isSome ∧ lc1.trimmed = [] then some none
    else
      match st.gotListMarker (lc.indent + 1) num punc with
      | none => none
      | some st' => some (some (st', { lc1 with outer := lc.indent + 1 }))

/-- One round of the loop of `parseNewMarkers`, md/ParseMarkdown.cpp:240-299, at a character `c`
followed by `r`.  The inner `none` is `goto notMarker`. -/
def markerStep (st : St) (lc : LC) (c : Byte) (r : List Byte) : Option (Option (St × LC)) :=
  if Str.isWhite c then none
  else if c = 62 then
    match st.stack.getLast? with
    | none => none
    | some p =>
      some (some ({ st with
        nodes := st.nodes ++ [{ type := .quote, parent := some p }]
        stack := st.stack ++ [st.nodes.length] }, lc.quote r))
  else if c = 42 ∨ c = 45 ∨ c = 43 then
    listMarker st { lc with rem := r, indent := lc.indent + 1 } (-1) c
  else if Str.isDecimalDigit c then
    let p := Num.parseLoop 10 0 false false (c :: r)
    let markerLength := (c :: r).length - p.rest.length
    if st.leaf.isSome ∧ p.value ≠ 1 then some none
    else if markerLength > 9 then some none
    else
      match p.rest with
      | punc :: d :: r' =>
        if punc = 46 ∨ punc = 41 then
          listMarker st { lc with rem := d :: r', indent := lc.indent + markerLength + 1 }
            (Int.ofNat p.value) punc
        else some none
      | _ => some none
  else some none

/-- The loop of `parseNewMarkers`, md/ParseMarkdown.cpp:201-310.  Every round consumes at least one
character, so the length of the line bounds the number of rounds. -/
def markerLoop : (rounds : Nat) → St → LC → Option (St × LC)
  | 0, st, lc => some (st, lc)
  | rounds + 1, st, lc =>
    match lc.rem with
    | [] => some (st, lc)
    | c :: r =>
      if lc.inner ≥ 4 then some (st, lc)
      else
        match markerStep st lc c r with
        | none => none
        | some none => some (st, lc)
        | some (some (st', lc')) => markerLoop rounds st' lc'.skip

/-- `parseNewMarkers`, md/ParseMarkdown.cpp:197-311. -/
def parseNewMarkers (st : St) (lc : LC) : Option (St × LC) :=
  if lc.trimmed = [] then none else markerLoop lc.rem.length st lc

/-- The loop of md/ParseMarkdown.cpp:340-348 over `blockNodes`. -/
def loosenLoop : List Nat → St → Option St
  | [], st => some st
  | n :: ns, st =>
    match st.nodes[n]? with
    | none => none
    | some node =>
      if node.type = .item then
        match node.parent with
        | none => none
        | some p =>
          match st.nodes[p]? with
          | none => none
          | some par =>
            if par.type = .list then
              if par.looseIf then
                loosenLoop ns { st with
                  nodes := st.nodes.modify p (fun q => { q with loose := true, looseIf := false }) }
              else loosenLoop ns st
            else none
      else loosenLoop ns st

/-- md/ParseMarkdown.cpp:336-350. -/
def St.loosen (st : St) : Option St :=
  if st.check then
    if st.leaf.isSome then none
    else
      match loosenLoop st.stack st with
      | none => none
      | some st' => some { st' with check := false }
  else some st

/-- `blockNodes.back()`, used as the parent of a new leaf. -/
def St.addLeaf (st : St) (node : Nat → BNode) : Option St :=
  match st.stack.getLast? with
  | none => none
  | some p => some { st with nodes := st.nodes ++ [node p], leaf := some st.nodes.length }

/-- The heading of a line: its level and text, if `rest` (the unread part of the line) is one,
md/ParseMarkdown.cpp:352-365. -/
def headingOf (lc : LC) : Option (Nat × List Byte) :=
  if lc.rem.head? = some 35 ∧ lc.inner ≤ 3 then
    let pounds := (lc.rem.takeWhile (fun c => c == 35)).length
    let r := lc.rem.dropWhile (fun c => c == 35)
    let sp := (r.takeWhile Str.isWhite).length
    let r' := r.dropWhile Str.isWhite
    if pounds ≤ 6 ∧ (sp ≠ 0 ∨ r' = []) then some (pounds, Str.trim Str.isWhite true true r')
    else none
  else none

/-- The new heading node of md/ParseMarkdown.cpp:361-365. -/
def headingNode (level : Nat) (text : List Byte) (p : Nat) : BNode :=
  { type := .heading, parent := some p, level := level, raw := if text = [] then [] else [text] }

/-- Lines 352-377 of `parseParagraphText`, md/ParseMarkdown.cpp: a heading or a paragraph line. -/
def St.addText (st : St) (lc : LC) (hasPara : Bool) : Option St :=
  match headingOf lc with
  | some (level, text) =>
    match st.addLeaf (headingNode level text) with
    | none => none
    | some st' => some { st' with leaf := none }
  | none =>
    match (if hasPara then some st
      else (st.addLeaf (fun p => { type := .para, parent := some p })).map
        (fun st' => { st' with blanks := 0 })) with
    | none => none
    | some st' =>
      match st'.leaf with
      | none => none
      | some lf => some { st' with nodes := appendRaw st'.nodes lf [lc.trimmed] }

/-- Lines 317-331 of `parseParagraphText`, md/ParseMarkdown.cpp: a line of code. -/
def St.codeText (st : St) (line : List Byte) (lc : LC) : Option St :=
  match (if lc.trimmed ≠ [] ∧ st.leaf = none then
      if st.blanks = 0 then st.addLeaf (fun p => { type := .code, parent := some p }) else none
    else some st) with
  | none => none
  | some st' =>
    match st'.leaf with
    | none => some st'
    | some lf =>
      if isType st'.nodes .code lf then st'.addCode lf line (lc.outer + 4) else none

/-- `parseParagraphText`, md/ParseMarkdown.cpp:313-382. -/
def parseParagraphText (st : St) (line : List Byte) (lc : LC) : Option St :=
  if !st.hasPara && decide (lc.inner ≥ 4) then st.codeText line lc
  else if lc.trimmed ≠ [] then
    match st.loosen with
    | none => none
    | some st' => st'.addText lc st.hasPara
  else if st.leaf.isSome then none
  else some st

/-- One line: the loop body of `Parser::parse`, md/ParseMarkdown.cpp:394-399. -/
def parseLine (st : St) (line : List Byte) : Option St :=
  match matchExisting st line with
  | none => none
  | some (st', _, false) => some st'
  | some (st', lc, true) =>
    match parseNewMarkers st' lc with
    | none => none
    | some (st'', lc') => parseParagraphText st'' line lc'

/-- `readView<fmt::Line>()` repeated, md/ParseMarkdown.cpp:393 and rt/io/impl/TypeParser.h:122-130:
the lines with their `\n`; `cur` is the line so far, in reverse. -/
def splitLoop (cur : List Byte) : List Byte → List (List Byte)
  | [] => if cur = [] then [] else [cur.reverse]
  | c :: r => if c = 10 then (c :: cur).reverse :: splitLoop [] r else splitLoop (c :: cur) r

/-- `readView<fmt::Line>()` repeated, md/ParseMarkdown.cpp:393. -/
def splitLines (src : List Byte) : List (List Byte) := splitLoop [] src

/-- The loop of `Parser::parse`, md/ParseMarkdown.cpp:393-400. -/
def parseLines : St → List (List Byte) → Option St
  | st, [] => some st
  | st, l :: ls =>
    match parseLine st l with
    | none => none
    | some st' => parseLines st' ls

/-- The parser before the first line, md/ParseMarkdown.cpp:386-391. -/
def St.init : St := { nodes := [{ type := .document, parent := none }], stack := [0] }

/-- `Parser::parse`, md/ParseMarkdown.cpp:384-403. -/
def parseBlocks (src : List Byte) : Option (List BNode) :=
  (parseLines St.init (splitLines src)).map (fun st => st.nodes)

/-- The finished tree: block nodes with their inline children, md/Markdown.h:11-43.  `heading` has
its level and `id`, which the parser leaves empty. -/
inductive Block where
  | list (start : Int) (loose : Bool) (cs : List Block)
  | item (cs : List Block)
  | quote (cs : List Block)
  | heading (level : Nat) (id : List Byte) (cs : List Inline)
  | para (cs : List Inline)
  | code (lines : List (List Byte))
  deriving Repr

/-- `doInlines`, md/ParseMarkdown.cpp:766-779, building the tree below a node.  (`fuel` bounds the
depth; children are made after their parents, so the number of nodes is enough.) -/
def doInlines (nodes : List BNode) : (fuel : Nat) → Nat → Option Block
  | 0, _ => none
  | fuel + 1, i =>
    match nodes[i]? with
    | none => none
    | some n =>
      match n.type with
      | .document => none
      | .list =>
        if n.raw ≠ [] then none
        else ((childrenOf nodes i).mapM (doInlines nodes fuel)).map (.list n.start n.loose)
      | .item =>
        if n.raw ≠ [] then none else ((childrenOf nodes i).mapM (doInlines nodes fuel)).map .item
      | .quote =>
        if n.raw ≠ [] then none else ((childrenOf nodes i).mapM (doInlines nodes fuel)).map .quote
      | .heading => (expandInlineElements n.raw).map (.heading n.level [])
      | .para => (expandInlineElements n.raw).map .para
      | .code => some (.code n.raw)

/-- `markdown::parse`, md/ParseMarkdown.cpp:784-792: the children of the document. -/
def parse (src : List Byte) : Option (List Block) :=
  match parseBlocks src with
  | none => none
  | some nodes => (childrenOf nodes 0).mapM (doInlines nodes nodes.length)

end Verif.Markdown
