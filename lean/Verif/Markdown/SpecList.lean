import Verif.Markdown.SpecBlock

/-!
# Documents with lists

Lists of paragraphs, beside the blocks of a flat document.  Nothing here depends on how the parser
works.
-/

namespace Verif.Markdown.Spec

open Verif Verif.Markdown

/-- The number that decimal digits stand for. -/
def numberOf (ds : List Byte) : Nat := ds.foldl (fun n d => 10 * n + (d.toNat - 48)) 0

/-- `Marker num punc m`: `m` marks an item of a list; `num` is its number, or `-1` if it has none. -/
inductive Marker : Int → Byte → List Byte → Prop where
  | bullet {c} : c ∈ lit "*-+" → Marker (-1) c [c]
  | number {ds c} : ds ≠ [] → ds.length ≤ 9 → (∀ d ∈ ds, d ∈ lit "0123456789") → c ∈ lit ".)" →
      Marker (Int.ofNat (numberOf ds)) c (ds ++ [c])

/-- Text that does not start like a heading, a quote, or an item, without white space around it. -/
def Text (t : List Byte) : Prop :=
  (∃ c, t.head? = some c ∧ Str.isWhite c = false ∧ c ∉ lit "#>*-+0123456789") ∧
    ∃ d, t.getLast? = some d ∧ Str.isWhite d = false

/-- The first line of an item, indented by `k` columns; the lines of the item start at column `col`
or after it. -/
def ItemLine (num : Int) (punc : Byte) (k col : Nat) (l t : List Byte) : Prop :=
  ∃ m j w, k ≤ 3 ∧ Marker num punc m ∧ 1 ≤ j ∧ j ≤ 4 ∧ White w ∧ Text t ∧
    l = List.replicate k 32 ++ m ++ List.replicate j 32 ++ t ++ w ∧ col = k + m.length + 1

/-- Another line of an item. -/
def MoreLine (col : Nat) (l t : List Byte) : Prop :=
  ∃ k w, col ≤ k ∧ White w ∧ Text t ∧ l = List.replicate k 32 ++ t ++ w

/-- An item with the lines of its paragraph. -/
inductive ItemLines (num : Int) (punc : Byte) (k col : Nat) :
    List (List Byte) → List (List Byte) → Prop where
  | mk {l t ls ts} : ItemLine num punc k col l t → Each (MoreLine col) ls ts →
      ItemLines num punc k col (l :: ls) (t :: ts)

/-- `ListLines punc start k col loose ls items`: the lines of a list.  Its number is that of its first
item, which is indented by `k` columns; `col` is the column of its last item.  Further items begin
before the column of the item before them.  It is loose if there are blank lines between items. -/
inductive ListLines (punc : Byte) : (start : Int) → (k col : Nat) → (loose : Bool) →
    List (List Byte) → List (List (List Byte)) → Prop where
  | one {num k col ls ts} : ItemLines num punc k col ls ts → ListLines punc num k col false ls [ts]
  | more {num k col ls ts bl num' k' col' loose ls' items} : ItemLines num punc k col ls ts →
      (∀ b ∈ bl, Short b) → k' < col → ListLines punc num' k' col' loose ls' items →
      ListLines punc num k col' (!bl.isEmpty || loose) (ls ++ bl ++ ls') (ts :: items)

/-- A block of a document: one of a flat document, or a list of paragraphs, given by their lines. -/
inductive Sect where
  | flat (p : Piece)
  | list (start : Int) (punc : Byte) (loose : Bool) (items : List (List (List Byte)))

/-- The lines of a block. -/
inductive SectLines : Sect → List (List Byte) → Prop where
  | flat {p ls} : PieceLines p ls → SectLines (.flat p) ls
  | list {start punc k col loose ls items} : ListLines punc start k col loose ls items →
      SectLines (.list start punc loose items) ls

/-- `Apart p n q ls`: block `q`, with which the lines `ls` start, can follow block `p` after `n` blank
lines.  Lists need no blank line before them, but directly after a paragraph they start at 1 or have
no numbers.  (This should not be needed after code, too: see `C62_list_after_code_false`.)  Code after
code, a list after one with the same punctuation, and indented lines after a list would be part of
it. -/
def Apart : Sect → Nat → Sect → List (List Byte) → Prop
  | .flat p, n, .flat q, _ => n ≠ 0 ∧ ¬ (p.isCode = true ∧ q.isCode = true)
  | .flat (.para _), n, .list start _ _ _, _ => n ≠ 0 ∨ start = -1 ∨ start = 1
  | .flat (.heading _ _), _, .list _ _ _ _, _ => True
  | .flat (.code _), _, .list start _ _ _, _ => start = -1 ∨ start = 1
  | .list _ punc _ _, n, q, ls =>
    (∃ l ls' c r, ls = l :: ls' ∧ l = c :: r ∧ Str.isWhite c = false) ∧
      match q with
      | .flat _ => n ≠ 0
      | .list _ punc' _ _ => punc' ≠ punc

/-- Blocks with blank lines between them and at the end. -/
inductive Doc : List (List Byte) → List Sect → Prop where
  | nil : Doc [] []
  | last {p pl bl} : SectLines p pl → (∀ b ∈ bl, Short b) → Doc (pl ++ bl) [p]
  | cons {p pl bl q ls qs} : SectLines p pl → (∀ b ∈ bl, Short b) → Apart p bl.length q ls →
      Doc ls (q :: qs) → Doc (pl ++ bl ++ ls) (p :: q :: qs)

/-- Code after headings after code; `pending` if there was code and since then only headings. -/
def codeAfter : (pending : Bool) → List Sect → Bool
  | _, [] => false
  | _, .flat (.para _) :: ps => codeAfter false ps
  | pending, .flat (.heading _ _) :: ps => codeAfter pending ps
  | pending, .flat (.code _) :: ps => pending || codeAfter true ps
  | _, .list _ _ _ _ :: ps => codeAfter false ps

/-- `MeansSect s b`: the text of `s` is unambiguous, and `b` is the block it stands for. -/
inductive MeansSect : Sect → Block → Prop where
  | flat {p b} : Means p b → MeansSect (.flat p) b
  | list {start punc loose items bs} :
      Each (fun ts b => ∃ es, Writes false none es (textOf ts) none ∧ b = Block.item [.para es]) items bs →
      MeansSect (.list start punc loose items) (.list start loose bs)

end Verif.Markdown.Spec
