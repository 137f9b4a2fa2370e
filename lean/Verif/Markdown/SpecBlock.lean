import Verif.Markdown.ModelBlock
import Verif.Markdown.SpecInline

/-!
# What becomes of the text of a document

How the leaves of a parsed document (paragraphs, headings, code blocks) are related to the lines of
the source.  Nothing here depends on how the parser works.
-/

namespace Verif.Markdown.Spec

open Verif Verif.Markdown

/-- `LinesOf src ls`: `ls` are the lines of `src`, each with its line feed; the last one may have
none, and is not empty. -/
inductive LinesOf : List Byte → List (List Byte) → Prop where
  | nil : LinesOf [] []
  | last {l} : l ≠ [] → 10 ∉ l → LinesOf l [l]
  | line {l src ls} : 10 ∉ l → LinesOf src ls → LinesOf (l ++ 10 :: src) ((l ++ [10]) :: ls)

/-- The bytes block markers are made of: white space, `>`, bullets, and numbers with `.` or `)`. -/
def MarkerByte (c : Byte) : Prop := c ∈ lit " \t>*-+.)0123456789"

/-- A stretch of block markers and indentation. -/
def Markers (m : List Byte) : Prop := ∀ c ∈ m, MarkerByte c

/-- Only white space. -/
def White (w : List Byte) : Prop := ∀ c ∈ w, Str.isWhite c = true

/-- A line without text. -/
def Blank (l : List Byte) : Prop := ∃ m w, l = m ++ w ∧ Markers m ∧ White w

/-- `Trimmed r t`: `t` is `r` without the white space around it, and is not empty. -/
def Trimmed (r t : List Byte) : Prop :=
  ∃ a b, r = a ++ t ++ b ∧ White a ∧ White b ∧
    (∃ c, t.head? = some c ∧ Str.isWhite c = false) ∧
    (∃ c, t.getLast? = some c ∧ Str.isWhite c = false)

/-- `Keeps ls ts`: the texts `ts` are those of the lines `ls`, in order.  Every line gives a text,
of which only markers and the white space around it are left out, except lines without text.  In a
code block white space is kept, up to part of a tab, and blank lines are empty lines. -/
inductive Keeps : List (List Byte) → List (List Byte) → Prop where
  | nil : Keeps [] []
  | blank {l ls ts} : Blank l → Keeps ls ts → Keeps (l :: ls) ts
  | blankCode {l ls ts} : Blank l → Keeps ls ts → Keeps (l :: ls) ([10] :: ts)
  | text {m r t ls ts} : Markers m → Trimmed r t → Keeps ls ts → Keeps ((m ++ r) :: ls) (t :: ts)
  | heading {m k r t ls ts} : Markers m → 1 ≤ k → k ≤ 6 → Trimmed r t → Keeps ls ts →
      Keeps ((m ++ List.replicate k 35 ++ r) :: ls) (t :: ts)
  | emptyHeading {m k r ls ts} : Markers m → 1 ≤ k → k ≤ 6 → White r → Keeps ls ts →
      Keeps ((m ++ List.replicate k 35 ++ r) :: ls) ts
  | code {m r ls ts} : Markers m → Keeps ls ts → Keeps ((m ++ r) :: ls) (r :: ts)
  | codeTab {m k r ls ts} : Markers m → 1 ≤ k → k ≤ 3 → Keeps ls ts →
      Keeps ((m ++ 9 :: r) :: ls) ((List.replicate k 32 ++ r) :: ts)

/-- A leaf of the finished document: the inline elements of a paragraph or heading, or code. -/
inductive Leaf where
  | text (es : List Inline)
  | code (ls : List (List Byte))

mutual
/-- The leaves of a block, in order. -/
def leaves : Block → List Leaf
  | .list _ _ cs => leavesOf cs
  | .item cs => leavesOf cs
  | .quote cs => leavesOf cs
  | .heading _ _ es => [.text es]
  | .para es => [.text es]
  | .code ls => [.code ls]
/-- The leaves of a list of blocks, in order. -/
def leavesOf : List Block → List Leaf
  | [] => []
  | b :: bs => leaves b ++ leavesOf bs
end

mutual
/-- Every list in the block consists of items. -/
def itemsOnly : Block → Prop
  | .list _ _ cs => (∀ c ∈ cs, ∃ bs, c = .item bs) ∧ itemsOnlyOf cs
  | .item cs => itemsOnlyOf cs
  | .quote cs => itemsOnlyOf cs
  | .heading _ _ _ => True
  | .para _ => True
  | .code _ => True
/-- Every list in the blocks consists of items. -/
def itemsOnlyOf : List Block → Prop
  | [] => True
  | b :: bs => itemsOnly b ∧ itemsOnlyOf bs
end

/-- A leaf holds the given lines. -/
def Holds : Leaf → List (List Byte) → Prop
  | .text es, ls => Src es (textOf ls)
  | .code ls', ls => ls' = ls

/-- A relation between the items of two lists at the same places. -/
inductive Each {α β : Type} (R : α → β → Prop) : List α → List β → Prop where
  | nil : Each R [] []
  | cons {a b as bs} : R a b → Each R as bs → Each R (a :: as) (b :: bs)

/-! ## Documents without lists and quotes -/

/-- A block of a flat document: a paragraph or heading with its lines of text, or the lines of a code
block. -/
inductive Piece where
  | para (ts : List (List Byte))
  | heading (level : Nat) (ts : List (List Byte))
  | code (ls : List (List Byte))

/-- A line of a paragraph: text indented by at most three columns that does not start like a heading,
a quote, or an item. -/
def ParaLine (l t : List Byte) : Prop :=
  ∃ k w c, k ≤ 3 ∧ White w ∧ l = List.replicate k 32 ++ t ++ w ∧
    t.head? = some c ∧ Str.isWhite c = false ∧ c ∉ lit "#>*-+0123456789" ∧
    ∃ d, t.getLast? = some d ∧ Str.isWhite d = false

/-- The line of a heading. -/
def HeadLine (l : List Byte) (level : Nat) (ts : List (List Byte)) : Prop :=
  ∃ k r, k ≤ 3 ∧ 1 ≤ level ∧ level ≤ 6 ∧ l = List.replicate k 32 ++ List.replicate level 35 ++ r ∧
    (∃ c, r.head? = some c ∧ Str.isWhite c = true) ∧
    (White r ∧ ts = [] ∨ ∃ t, Trimmed r t ∧ ts = [t])

/-- The column after `w`, starting at column `k`: a tab goes on to the next multiple of four. -/
def column : (k : Nat) → (w : List Byte) → Nat
  | k, [] => k
  | k, c :: w => column (if c = 9 then (k / 4 + 1) * 4 else k + 1) w

/-- Only spaces and tabs. -/
def Blanks (w : List Byte) : Prop := ∀ c ∈ w, c = 32 ∨ c = 9

/-- A line of code, indented by four columns. -/
def CodeLine (l r : List Byte) : Prop :=
  ∃ w, l = w ++ r ∧ Blanks w ∧ column 0 w = 4 ∧ ¬ White r

/-- A blank line of at most four spaces. -/
def Short (l : List Byte) : Prop := ∃ k, k ≤ 4 ∧ l = List.replicate k 32 ++ [10]

/-- The lines of a code block after the first. -/
inductive CodeRest : List (List Byte) → List (List Byte) → Prop where
  | nil : CodeRest [] []
  | cons {bl l r ls rs} : (∀ b ∈ bl, Short b) → CodeLine l r → CodeRest ls rs →
      CodeRest (bl ++ l :: ls) (List.replicate bl.length [10] ++ r :: rs)

/-- The lines a block is written with. -/
inductive PieceLines : Piece → List (List Byte) → Prop where
  | para {ls ts} : ls ≠ [] → Each ParaLine ls ts → PieceLines (.para ts) ls
  | heading {l k ts} : HeadLine l k ts → PieceLines (.heading k ts) [l]
  | code {l r ls rs} : CodeLine l r → CodeRest ls rs → PieceLines (.code (r :: rs)) (l :: ls)

/-- Is it a code block? -/
def Piece.isCode : Piece → Bool
  | .code _ => true
  | _ => false

/-- Blocks with blank lines between them.  Two code blocks in a row would be one. -/
inductive FlatDoc : List (List Byte) → List Piece → Prop where
  | nil {bl} : (∀ b ∈ bl, Short b) → FlatDoc bl []
  | last {bl p pl} : (∀ b ∈ bl, Short b) → PieceLines p pl → FlatDoc (bl ++ pl) [p]
  | cons {bl p pl b ls q ps} : (∀ b ∈ bl, Short b) → PieceLines p pl → Short b →
      FlatDoc ls (q :: ps) → ¬ (p.isCode = true ∧ q.isCode = true) →
      FlatDoc (bl ++ pl ++ b :: ls) (p :: q :: ps)
  | trail {bl p pl b ls} : (∀ b ∈ bl, Short b) → PieceLines p pl → Short b → (∀ b ∈ ls, Short b) →
      FlatDoc (bl ++ pl ++ b :: ls) [p]

/-- Code after headings after code; `pending` if there was code and since then only headings. -/
def codeAfterHeading : (pending : Bool) → List Piece → Bool
  | _, [] => false
  | _, .para _ :: ps => codeAfterHeading false ps
  | pending, .heading _ _ :: ps => codeAfterHeading pending ps
  | pending, .code _ :: ps => pending || codeAfterHeading true ps

/-- `Means p b`: the text of `p` is unambiguous, and `b` is the block it stands for. -/
inductive Means : Piece → Block → Prop where
  | para {ts es} : Writes false none es (textOf ts) none → Means (.para ts) (.para es)
  | heading {k t es} : Writes false none es (textOf [t]) none →
      Means (.heading k [t]) (.heading k [] es)
  | code {ls} : Means (.code ls) (.code ls)

end Verif.Markdown.Spec
