import Verif.Markdown.LemmasFlat
import Verif.Markdown.LemmasTestBlock
import Verif.Markdown.ModelHtml

/-!
# C62: the blocks of a document

Sources are any bytes.
-/

namespace Verif.Markdown

open Verif Verif.Markdown.Spec

/-- **C62.**  Every line of the source is in the finished document, and nothing else.  The texts of
all leaves (paragraphs, headings, code blocks) together are the texts of all lines in order: of each
line only block markers, indentation and the white space around it are left out, and of each text
line a leaf has exactly that.  Leaves may be in another order. -/
theorem C62_kept {src : List Byte} {doc : List Block} (h : parse src = some doc) :
    ∃ ls parts parts', LinesOf src ls ∧ Keeps ls parts.flatten ∧ parts'.Perm parts ∧
      Each Holds (leavesOf doc) parts' := by
  obtain ⟨nodes, ht, _, hk, _, he⟩ := parse_kept h
  refine ⟨_, (List.range nodes.length).filterMap (leafRaw nodes), _, splitLines_lines src, ?_, ?_, he⟩
  · rw [flatten_leafRaw ht]; exact hk
  · exact (trav_perm ht).filterMap _

/-- **C62.**  If every list of the finished document consists of items (which it does unless a list
marker directly follows a list marker), leaves are in the order of the lines. -/
theorem C62_in_order {src : List Byte} {doc : List Block} (h : parse src = some doc)
    (hi : itemsOnlyOf doc) :
    ∃ ls parts, LinesOf src ls ∧ Keeps ls parts.flatten ∧ Each Holds (leavesOf doc) parts := by
  obtain ⟨nodes, ht, ho, hk, hd, he⟩ := parse_kept h
  rw [trav_range ht (pre_of_items ht ho hd hi)] at he
  refine ⟨_, (List.range nodes.length).filterMap (leafRaw nodes), splitLines_lines src, ?_, he⟩
  rw [flatten_leafRaw ht]; exact hk

/-- **C62.**  A document of paragraphs, headings and code blocks with blank lines between them is
read as it was meant, each as one block, unless there is code after headings after code. -/
theorem C62_flat {src : List Byte} {ls : List (List Byte)} {ps : List Piece} {bs : List Block}
    (hl : LinesOf src ls) (h : FlatDoc ls ps) (hm : Each Means ps bs)
    (hc : codeAfterHeading false ps = false) : parse src = some bs := by
  rw [parse_flat hl h, hc]
  exact mapM_means hm (flatDoc_pieces h)

/-- **C62.**  There the parser asserts: `numBlankLinesInCode` is left from the first code block
(md/ParseMarkdown.cpp:321 and 358-366). -/
theorem C62_flat_asserts {src : List Byte} {ls : List (List Byte)} {ps : List Piece}
    (hl : LinesOf src ls) (h : FlatDoc ls ps) (hc : codeAfterHeading false ps = true) :
    parse src = none := by
  rw [parse_flat hl h, hc]
  rfl

/-- **C62.**  In a line of code the columns are kept: what is left of the indentation when the block
begins at column `k` ends in the same column as before, with tabs going on to multiples of four. -/
theorem C62_code_columns {w r : List Byte} {k : Nat} (hw : Blanks w) (hr : r ≠ [])
    (hk : k ≤ column 0 w) :
    ∃ w', extractCodeLine (w ++ r) k = some (w' ++ r) ∧ Blanks w' ∧ column k w' = column 0 w :=
  extractLoop_blanks k w 0 r hw hr (Nat.zero_le _) hk

/-- A tab of which two columns are left. -/
example : extractCodeLine (lit "     \tx") 6 = some (lit "  x") ∧ column 0 (lit "     \t") = 8 := by
  decide

/-! ## Concrete cases -/

/-- A document with a heading, a list, a quote and code. -/
def mixedSrc : List Byte := lit "# h *i*\n* a\n\n* b\n  c\n> q\n\n    x\n\n      y\n"

/-- What it means. -/
def mixedDoc : List Block :=
  [.heading 1 [] [.text (lit "h "), .emph [.text (lit "i")]],
    .list (-1) true [.item [.para [.text (lit "a")]],
      .item [.para [.text (lit "b"), .soft, .text (lit "c")]]],
    .quote [.para [.text (lit "q")]],
    .code [lit "x\n", lit "\n", lit "  y\n"]]

set_option maxRecDepth 10000 in
/-- The hypotheses of `C62_kept` and `C62_in_order` are met. -/
example : parse mixedSrc = some mixedDoc ∧ itemsOnlyOf mixedDoc := by
  refine ⟨eq_of_parsedAsBlocks (by decide +kernel), ?_⟩
  simp [mixedDoc, itemsOnlyOf, itemsOnly]

/-- A flat document. -/
def flatSrc : List Byte := lit "# *i*\n\none\n two\n\n   \tx\n\n    y\n\nend"

/-- Its lines. -/
def flatLines : List (List Byte) :=
  [lit "# *i*\n", lit "\n", lit "one\n", lit " two\n", lit "\n", lit "   \tx\n", lit "\n",
    lit "    y\n", lit "\n", lit "end"]

/-- Its blocks, as written. -/
def flatPieces : List Piece :=
  [.heading 1 [lit "*i*"], .para [lit "one", lit "two"], .code [lit "x\n", lit "\n", lit "y\n"],
    .para [lit "end"]]

/-- Its blocks, as meant. -/
def flatBlocks : List Block :=
  [.heading 1 [] [.emph [.text (lit "i")]], .para [.text (lit "one"), .soft, .text (lit "two")],
    .code [lit "x\n", lit "\n", lit "y\n"], .para [.text (lit "end")]]

theorem white_all {w : List Byte} (h : w.all Str.isWhite = true) : White w :=
  fun c hc => List.all_eq_true.mp h c hc

/-- The hypotheses of `C62_flat` are met. -/
theorem flat_sample : LinesOf flatSrc flatLines ∧ FlatDoc flatLines flatPieces ∧
    Each Means flatPieces flatBlocks ∧ codeAfterHeading false flatPieces = false := by
  have hp : ∀ t : List Byte, t.all (fun c => c != 96 && c != 42 && c != 95 && c != 91 && c != 93) →
      ∀ c ∈ t, Plain c := by
    intro t h c hc
    have := List.all_eq_true.mp h c hc
    simp at this
    exact ⟨this.1.1.1.1, this.1.1.1.2, this.1.1.2, this.1.2, this.2⟩
  have short : Short (lit "\n") := ⟨0, by omega, rfl⟩
  have hb : ∀ b ∈ ([] : List (List Byte)), Short b := by simp
  have h1 : PieceLines (.heading 1 [lit "*i*"]) [lit "# *i*\n"] :=
    .heading ⟨0, lit " *i*\n", by omega, by omega, by omega, rfl, ⟨32, rfl, rfl⟩,
      Or.inr ⟨lit "*i*", ⟨lit " ", lit "\n", rfl, white_all rfl, white_all rfl, ⟨42, rfl, rfl⟩,
        ⟨42, rfl, rfl⟩⟩, rfl⟩⟩
  have h2 : PieceLines (.para [lit "one", lit "two"]) [lit "one\n", lit " two\n"] :=
    .para (by simp)
      (.cons ⟨0, lit "\n", 111, by omega, white_all rfl, rfl, rfl, rfl, by decide, 101, rfl, rfl⟩
        (.cons ⟨1, lit "\n", 116, by omega, white_all rfl, rfl, rfl, rfl, by decide, 111, rfl, rfl⟩ .nil))
  have h3 : PieceLines (.code [lit "x\n", lit "\n", lit "y\n"])
      [lit "   \tx\n", lit "\n", lit "    y\n"] :=
    .code ⟨lit "   \t", rfl, (by unfold Blanks; decide), rfl, fun h => absurd (h 120 (by decide)) (by decide)⟩
      (.cons (bl := [lit "\n"]) (l := lit "    y\n") (r := lit "y\n") (ls := []) (rs := [])
        (by intro b h; rw [List.mem_singleton.mp h]; exact short)
        ⟨lit "    ", rfl, (by unfold Blanks; decide), rfl, fun h => absurd (h 121 (by decide)) (by decide)⟩ .nil)
  have h4 : PieceLines (.para [lit "end"]) [lit "end"] :=
    .para (by simp)
      (.cons ⟨0, [], 101, by omega, white_all rfl, rfl, rfl, rfl, by decide, 100, rfl, rfl⟩ .nil)
  refine ⟨?_, ?_, ?_, rfl⟩
  · exact .line (l := lit "# *i*") (by decide) (.line (l := []) (by decide) (.line (l := lit "one") (by decide)
      (.line (l := lit " two") (by decide) (.line (l := []) (by decide) (.line (l := lit "   \tx") (by decide)
      (.line (l := []) (by decide) (.line (l := lit "    y") (by decide) (.line (l := []) (by decide)
      (.last (by decide) (by decide))))))))))
  · exact .cons (bl := []) hb h1 short (.cons (bl := []) hb h2 short (.cons (bl := []) hb h3 short
      (.last (bl := []) hb h4) (by simp [Piece.isCode])) (by simp [Piece.isCode])) (by simp [Piece.isCode])
  · refine .cons (.heading ?_) (.cons (.para ?_) (.cons .code (.cons (.para ?_) .nil)))
    · exact .emph (d := 42) (b := (lit "i").map some) (s := []) (Or.inl rfl)
        ⟨105, rfl, rfl, Or.inl trivial⟩ ⟨105, rfl, rfl, Or.inl trivial⟩ (by decide) (by decide) (by decide)
        (.text (t := lit "i") (s := []) (by decide) (hp _ (by decide)) .nil) .nil
    · exact .text (t := lit "one") (by decide) (hp _ (by decide))
        (.soft (.text (t := lit "two") (s := []) (by decide) (hp _ (by decide)) .nil))
    · exact .text (t := lit "end") (s := []) (by decide) (hp _ (by decide)) .nil

/-- The concrete case of `C62_flat`. -/
example : parse flatSrc = some flatBlocks :=
  C62_flat flat_sample.1 flat_sample.2.1 flat_sample.2.2.1 flat_sample.2.2.2

/-! ## Where the parser goes wrong -/

set_option maxRecDepth 10000 in
/-- **C62 (negation).**  Order is not kept in general: in a list in a list the text of the later line
comes first. -/
theorem C62_order_false : parse (lit "* * a\n\n  b") = some [.list (-1) true
    [.item [.para [.text (lit "b")]], .list (-1) false [.item [.para [.text (lit "a")]]]]] :=
  eq_of_parsedAsBlocks (by decide +kernel)

set_option maxRecDepth 10000 in
/-- **C62 (negation).**  The text after a quote marker is not put into the quote if a paragraph comes
before it, and the quote is empty. -/
theorem C62_quote_false : parse (lit "a\n> b") = some [.para [.text (lit "a"), .soft, .text (lit "b")],
    .quote []] :=
  eq_of_parsedAsBlocks (by decide +kernel)

set_option maxRecDepth 10000 in
/-- **C62 (negation).**  A second paragraph of a nested item, indented like the first, is put outside
the item: the indentation of an item counts from the start of the line when it is stored and from the
enclosing item when it is compared (md/ParseMarkdown.cpp:119-127 and 236). -/
theorem C62_nested_false : parse (lit "* a\n  * b\n\n    c\n") = some [.list (-1) true [.item
    [.para [.text (lit "a")], .list (-1) false [.item [.para [.text (lit "b")]]],
      .para [.text (lit "c")]]]] :=
  eq_of_parsedAsBlocks (by decide +kernel)

set_option maxRecDepth 10000 in
/-- **C62 (negation).**  Not every source can be parsed: an empty quote, an empty heading, text after
code in an item, and code after a heading after code assert. -/
theorem C62_total_false : (parse (lit ">\n")).isNone ∧ (parse (lit "#\n")).isNone ∧
    (parse (lit "* a\n\n      code\n  b")).isNone ∧
    (parse (lit "    code\n\n# h\n\n    code2")).isNone := by
  decide +kernel

end Verif.Markdown
