import Verif.Crowbar.ModelParse
import Verif.Label.Model

/-!
# The token store of the Crowbar tokenizer

Paths are relative to /repo/repos/plywood/src; `rt/` is `runtime/ply-runtime/`, `cb/` is `crowbar/ply-crowbar/`.

Every token read outside of a string is written to `tokenData` in a compact form, so that it can be read again
after `rewindTo` and looked up later with `expandToken`.
-/

namespace Verif.Crowbar
open Verif

/-- `ExpandedToken`, cb/Tokenizer.h:65-73. -/
structure XTok where
  idx : Nat
  off : Nat
  ty : TokTy
  label : Nat
  text : List Byte
  deriving DecidableEq, Repr

/-- `Tokenizer`, cb/Tokenizer.h:75-124: the source with the place reached in it (`vin`), `tokenData`,
`fileOffsetTable` and `nextTokenIdx`; also the label map, which is global in C++.  `behavior` is an argument of
`readTok`. -/
structure Store where
  src : List Byte
  cur : Nat
  data : List Byte
  table : List Nat
  next : Nat
  labels : Label.LabelMap

/-- `Tokenizer::setSourceInput` on a new tokenizer, cb/Tokenizer.cpp:14-19. -/
def Store.init (src : List Byte) (labels : Label.LabelMap) : Store := ⟨src, 0, [], [], 0, labels⟩

/-- The token types in the order of the enumeration, cb/Tokenizer.h:13-60. -/
def allTys : List TokTy :=
  [.invalid, .endOfFile, .newLine, .lineComment, .cStyleComment,
   .identifier, .numericLiteral, .beginString, .stringLiteral, .beginStringEmbed, .endString,
   .openCurly, .closeCurly, .openParen, .closeParen, .openSquare, .closeSquare,
   .colon, .semicolon, .dot, .comma,
   .equal, .slashEqual, .lessThan, .lessThanOrEqual, .greaterThan, .greaterThanOrEqual, .doubleEqual,
   .plus, .minus, .asterisk, .slash, .percent, .bang, .tilde,
   .verticalBar, .doubleVerticalBar, .ampersand, .doubleAmpersand]

/-- `(char) expToken.type`, cb/Tokenizer.cpp:101. -/
def tyByte (ty : TokTy) : Byte := UInt8.ofNat (allTys.idxOf ty)

/-- `(TokenType)(u8) *data++`, cb/Tokenizer.cpp:128; `none` for a byte that is no token type. -/
def byteTy (b : Byte) : Option TokTy := allTys[b.toNat]?

/-- Whether a label is stored with the token, cb/Tokenizer.cpp:103, 129. -/
def hasLabel (ty : TokTy) : Bool := ty == .identifier || ty == .stringLiteral

/-- `writeCompact`, cb/Tokenizer.cpp:78-83; `none` when the five bytes asked for are not within the 1 GiB
reserved (line 11; rt/container/BigPool.h:60-66 commits pages that were never reserved). -/
def writeCompact (data : List Byte) (v : Nat) : Option (List Byte) :=
  if data.length + 5 ≤ 1024 * 1024 * 1024 then some (data ++ Label.encodeValue v) else none

/-- The loop that adds entries to `fileOffsetTable`, cb/Tokenizer.cpp:90-93; `none` when they are not within the
4 MiB reserved for it (line 11). -/
def growTable (table : List Nat) (fotIdx off : Nat) : Option (List Nat) :=
  if 4 * (table ++ List.replicate (fotIdx + 1 - table.length) off).length ≤ 4 * 1024 * 1024 then
    some (table ++ List.replicate (fotIdx + 1 - table.length) off)
  else none

/-- The token type and label of `encodeToken`, cb/Tokenizer.cpp:99-106. -/
def writeType (data : List Byte) (t : XTok) : Option (List Byte) :=
  if data.length + 1 ≤ 1024 * 1024 * 1024 then
    if hasLabel t.ty then writeCompact (data ++ [tyByte t.ty]) t.label else some (data ++ [tyByte t.ty])
  else none

/-- `encodeToken`, cb/Tokenizer.cpp:85-108.  `none` for the assertions of lines 86 and 97 and for a full pool. -/
def encodeTok (st : Store) (t : XTok) : Option Store :=
  if st.next = st.data.length then
    match growTable st.table (t.idx >>> 8) t.off with
    | none => none
    | some table =>
      match table.getLast? with
      | none => none
      | some fot =>
        if fot ≤ t.off then
          match writeCompact st.data (t.off - fot) with
          | none => none
          | some d1 =>
            match writeType d1 t with
            | none => none
            | some d2 => some { st with data := d2, table := table, next := d2.length }
        else none
  else none

/-- The label of a stored token, cb/Tokenizer.cpp:129-132. -/
def readLabel (ty : TokTy) (r : List Byte) : Option (Nat × List Byte) :=
  if hasLabel ty then Label.decodeValue r else some (0, r)

/-- `endOffset`, cb/Tokenizer.cpp:135-139: where the next stored token begins, or the place reached if there is
none.  `rest` is what follows the token in `tokenData`. -/
def endOffset (st : Store) (idx : Nat) (rest : List Byte) : Option Nat :=
  match rest with
  | [] => some st.cur
  | _ :: _ =>
    match Label.decodeValue rest, st.table[(idx + 1) >>> 8]? with
    | some (d, _), some base => some (u32 (base + d))
    | _, _ => none

/-- The text of a stored token, cb/Tokenizer.cpp:140-141: `StringView::fromRange` asserts that the end is not
before the beginning (rt/string/StringView.h:125-127); a view past the source is `none` as well. -/
def textOf (st : Store) (off e : Nat) : Option (List Byte) :=
  if off ≤ e ∧ e ≤ st.src.length then some ((st.src.drop off).take (e - off)) else none

/-- The type, label and text of a stored token, cb/Tokenizer.cpp:128-142, with the compact length.  `r` is what
follows its file offset in `tokenData`. -/
def expandRest (st : Store) (idx off : Nat) (r : List Byte) : Option (XTok × Nat) :=
  match r with
  | [] => none
  | b :: r2 =>
    match byteTy b with
    | none => none
    | some ty =>
      match readLabel ty r2 with
      | none => none
      | some (label, r3) =>
        match endOffset st idx r3 with
        | none => none
        | some e =>
          match textOf st off e with
          | none => none
          | some text => some (⟨idx, off, ty, label, text⟩, st.data.length - idx - r3.length)

/-- `expandTokenInternal`, cb/Tokenizer.cpp:116-144: the token and its compact length.  The fields of the token
that are not set keep the value they had: only `text`, of the end of the file, so it is an argument.  `none` for
a failed assertion or a read past the store. -/
def expandTok (st : Store) (left : List Byte) (idx : Nat) : Option (XTok × Nat) :=
  if idx ≤ st.data.length then
    if idx = st.data.length then some (⟨st.next, st.src.length, .endOfFile, 0, left⟩, 0)
    else
      match Label.decodeValue (st.data.drop idx), st.table[idx >>> 8]? with
      | some (d, r), some base => expandRest st idx (u32 (base + d)) r
      | _, _ => none
  else none

/-- The label of a new token, cb/Tokenizer.cpp:194, 259. -/
def newLabel (labels : Label.LabelMap) (ty : TokTy) (text : List Byte) : Option (Nat × Label.LabelMap) :=
  if hasLabel ty then labels.insertOrFind text else some (0, labels)

/-- `Tokenizer::readToken` inside a string, cb/Tokenizer.cpp:280-285 and 216-261; the text of a literal is the
text of its label (line 260).  The token is not stored. -/
def freshStr (st : Store) (left : List Byte) : Option (XTok × Store) :=
  match readStr [] (st.src.drop st.cur) with
  | none => none
  | some (ty, text, rest) =>
    match newLabel st.labels ty text with
    | none => none
    | some (label, labels) =>
      if hasLabel ty then
        match labels.view label with
        | none => none
        | some v => some (⟨st.data.length, st.cur, ty, label, v⟩,
            { st with cur := st.src.length - rest.length, labels := labels })
      else some (⟨st.data.length, st.cur, ty, label, left⟩,
            { st with cur := st.src.length - rest.length, labels := labels })

/-- `Tokenizer::readToken` outside of strings, cb/Tokenizer.cpp:272-484: the token, which is also stored. -/
def freshLex (st : Store) (nl : Bool) (left : List Byte) : Option (XTok × Store) :=
  match lex st.src.length nl (st.src.drop st.cur) with
  | (t, rest) =>
    if t.ty = .endOfFile then
      some (⟨st.next, st.src.length, .endOfFile, 0, left⟩, { st with cur := st.src.length })
    else
      match newLabel st.labels t.ty t.text with
      | none => none
      | some (label, labels) =>
        match encodeTok { st with cur := st.src.length - rest.length, labels := labels }
            ⟨st.data.length, t.off, t.ty, label, t.text⟩ with
        | none => none
        | some st' => some (⟨st.data.length, t.off, t.ty, label, t.text⟩, st')

/-- `Tokenizer::readToken` when everything stored was read, cb/Tokenizer.cpp:272-484. -/
def fresh (st : Store) (nl inStr : Bool) (left : List Byte) : Option (XTok × Store) :=
  if st.src.length ≤ st.cur then some (⟨st.next, st.src.length, .endOfFile, 0, left⟩, st)
  else if inStr then freshStr st left
  else freshLex st nl left

/-- The loop over tokens that were pushed back, cb/Tokenizer.cpp:265-270, then `fresh`.  Every turn goes past a
stored token; `fuel` counts turns. -/
def readLoop (nl inStr : Bool) : (fuel : Nat) → Store → (left : List Byte) → Option (XTok × Store)
  | 0, _, _ => none
  | fuel + 1, st, left =>
    if st.next < st.data.length then
      match expandTok st left st.next with
      | none => none
      | some (t, len) =>
        if t.ty = .newLine ∧ nl = false then readLoop nl inStr fuel { st with next := st.next + len } t.text
        else some (t, { st with next := st.next + len })
    else fresh st nl inStr left

/-- `Tokenizer::readToken`, cb/Tokenizer.cpp:263-484. -/
def readTok (st : Store) (nl inStr : Bool) : Option (XTok × Store) :=
  readLoop nl inStr (st.data.length + 1) st []

/-- `Tokenizer::rewindTo`, cb/Tokenizer.h:118-121. -/
def rewindTo (st : Store) (idx : Nat) : Option Store :=
  if idx ≤ st.next then some { st with next := idx } else none

/-- `Tokenizer::expandToken`, cb/Tokenizer.cpp:146-150. -/
def expandToken (st : Store) (idx : Nat) : Option XTok :=
  match expandTok st [] idx with
  | none => none
  | some (t, _) => some t

end Verif.Crowbar
