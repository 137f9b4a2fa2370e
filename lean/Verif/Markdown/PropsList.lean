import Verif.Markdown.LemmasDoc
import Verif.Markdown.LemmasTestBlock

/-!
# C62: lists
-/

namespace Verif.Markdown

open Verif Verif.Markdown.Spec

theorem mapM_meansSect {ps : List Sect} {bs : List Block} (h : Each MeansSect ps bs)
    (hp : ∀ p ∈ ps, ∃ pl, SectLines p pl) : ps.mapM blockOfSect = some bs := by
  have listTexts : ∀ {punc : Byte} {start : Int} {k col : Nat} {loose : Bool} {ls : List (List Byte)}
      {items : List (List (List Byte))}, ListLines punc start k col loose ls items →
      ∀ ts ∈ items, ts ≠ [] ∧ ∀ t ∈ ts, t ≠ [] := by
    have one : ∀ {num : Int} {punc : Byte} {k col : Nat} {ls ts : List (List Byte)},
        ItemLines num punc k col ls ts → ts ≠ [] ∧ ∀ t ∈ ts, t ≠ [] := by
      intro num punc k col ls ts h
      have hne : ∀ t, Text t → t ≠ [] := by
        rintro t ⟨⟨c, h, _⟩, _⟩ rfl
        cases h
      have more : ∀ {ls ts : List (List Byte)}, Each (MoreLine col) ls ts → ∀ t ∈ ts, t ≠ [] := by
        intro ls ts h
        induction h with
        | nil => intro t ht; cases ht
        | cons h _ ih =>
          intro t ht
          rcases List.mem_cons.mp ht with rfl | ht
          · obtain ⟨_, _, _, _, h, _⟩ := h
            exact hne _ h
          · exact ih t ht
      cases h with
      | mk h1 h2 =>
        refine ⟨by simp, ?_⟩
        intro t ht
        rcases List.mem_cons.mp ht with rfl | ht
        · obtain ⟨_, _, _, _, _, _, _, _, h, _⟩ := h1
          exact hne _ h
        · exact more h2 t ht
    intro punc start k col loose ls items h
    induction h with
    | one h => intro ts hts; rw [List.mem_singleton.mp hts]; exact one h
    | more h _ _ _ ih =>
      intro ts hts
      rcases List.mem_cons.mp hts with rfl | hts
      · exact one h
      · exact ih ts hts
  have itemsM : ∀ {items : List (List (List Byte))} {bs : List Block},
      Each (fun ts b => ∃ es, Writes false none es (textOf ts) none ∧ b = Block.item [.para es]) items bs →
      (∀ ts ∈ items, ts ≠ [] ∧ ∀ t ∈ ts, t ≠ []) →
      items.mapM (fun ts => (expandInlineElements ts).map (fun es => Block.item [.para es])) = some bs := by
    intro items bs hm
    induction hm with
    | nil => intro _; rfl
    | cons h _ ih =>
      intro ht
      obtain ⟨es, hw, rfl⟩ := h
      obtain ⟨h1, h2⟩ := ht _ (List.mem_cons_self ..)
      rw [List.mapM_cons, ih fun ts hts => ht ts (List.mem_cons_of_mem _ hts),
        expandInline_simple h1 h2 hw]
      rfl
  induction h with
  | nil => rfl
  | @cons p b ps bs hm _ ih =>
    rw [List.mapM_cons, ih fun q hq => hp q (List.mem_cons_of_mem _ hq)]
    obtain ⟨pl, hpl⟩ := hp p (by simp)
    have : blockOfSect p = some b := by
      cases hm with
      | @flat p b hm =>
        cases hpl with
        | flat hpl =>
          have := mapM_means (.cons hm .nil) (by
            intro q hq; rw [List.mem_singleton.mp hq]; exact ⟨pl, hpl⟩)
          rw [List.mapM_cons, List.mapM_nil] at this
          show blockOf p = some b
          cases hb : blockOf p with
          | none => rw [hb] at this; cases this
          | some b' => rw [hb] at this; cases this; rfl
      | @list start punc loose items bs hm =>
        cases hpl with
        | list hpl =>
          rw [blockOfSect, itemsM hm (listTexts hpl)]
          rfl
    rw [this]
    rfl

theorem doc_sects {ls : List (List Byte)} {ps : List Sect} (h : Doc ls ps) :
    ∀ p ∈ ps, ∃ pl, SectLines p pl := by
  induction h with
  | nil => simp
  | last hp _ => intro p hp'; rw [List.mem_singleton.mp hp']; exact ⟨_, hp⟩
  | cons hp _ _ _ ih =>
    intro p hp'
    rcases List.mem_cons.mp hp' with rfl | hp'
    · exact ⟨_, hp⟩
    · exact ih p hp'

/-- **C62.**  A document of paragraphs, headings, code blocks and lists of paragraphs is read as it was
meant: a list has the number of its first item and all its items in order, is loose if there are
blank lines between its items, and ends where the punctuation of items changes or text is not
indented.  (Unless there is code after headings after code, where the parser asserts.) -/
theorem C62_lists {src : List Byte} {bl ls : List (List Byte)} {ps : List Sect} {bs : List Block}
    (hl : LinesOf src (bl ++ ls)) (hb : ∀ b ∈ bl, Short b) (h : Doc ls ps) (hm : Each MeansSect ps bs)
    (hc : codeAfter false ps = false) : parse src = some bs := by
  rw [parse_doc hl hb h, hc]
  exact mapM_meansSect hm (doc_sects h)

/-! ## A concrete case -/

/-- A document with lists. -/
def listSrc : List Byte := lit "a\n* b\n  c\n\n* d\n- e\n\n12) f\n\n# h\n"

/-- Its lines. -/
def listLines : List (List Byte) :=
  [lit "a\n", lit "* b\n", lit "  c\n", lit "\n", lit "* d\n", lit "- e\n", lit "\n", lit "12) f\n",
    lit "\n", lit "# h\n"]

/-- Its blocks, as written. -/
def listSects : List Sect :=
  [.flat (.para [lit "a"]), .list (-1) 42 true [[lit "b", lit "c"], [lit "d"]],
    .list (-1) 45 false [[lit "e"]], .list 12 41 false [[lit "f"]], .flat (.heading 1 [lit "h"])]

/-- Its blocks, as meant. -/
def listBlocks : List Block :=
  [.para [.text (lit "a")],
    .list (-1) true [.item [.para [.text (lit "b"), .soft, .text (lit "c")]],
      .item [.para [.text (lit "d")]]],
    .list (-1) false [.item [.para [.text (lit "e")]]],
    .list 12 false [.item [.para [.text (lit "f")]]],
    .heading 1 [] [.text (lit "h")]]

theorem isWhite_all {w : List Byte} (h : w.all Str.isWhite = true) : White w :=
  fun c hc => List.all_eq_true.mp h c hc

/-- A text of one letter. -/
theorem letter_text {c : Byte} (h1 : Str.isWhite c = false) (h2 : c ∉ lit "#>*-+0123456789") : Text [c] :=
  ⟨⟨c, rfl, h1, h2⟩, c, rfl, h1⟩

/-- The hypotheses of `C62_lists` are met. -/
theorem list_sample : LinesOf listSrc ([] ++ listLines) ∧ Doc listLines listSects ∧
    Each MeansSect listSects listBlocks ∧ codeAfter false listSects = false := by
  have short : Short (lit "\n") := ⟨0, by omega, rfl⟩
  have hb0 : ∀ b ∈ ([] : List (List Byte)), Short b := by simp
  have hb1 : ∀ b ∈ [lit "\n"], Short b := by intro b h; rw [List.mem_singleton.mp h]; exact short
  have hw : White (lit "\n") := isWhite_all rfl
  have item : ∀ {num : Int} {punc : Byte} {m : List Byte} {c : Byte}, Marker num punc m →
      Str.isWhite c = false → c ∉ lit "#>*-+0123456789" →
      ItemLine num punc 0 (0 + m.length + 1) (List.replicate 0 32 ++ m ++ List.replicate 1 32 ++ [c] ++ lit "\n") [c] :=
    fun hm h1 h2 => ⟨_, 1, lit "\n", by omega, hm, by omega, by omega, isWhite_all rfl, letter_text h1 h2, rfl, rfl⟩
  have h1 : SectLines (.flat (.para [lit "a"])) [lit "a\n"] :=
    .flat (.para (by simp)
      (.cons ⟨0, lit "\n", 97, by omega, hw, rfl, rfl, rfl, by decide, 97, rfl, rfl⟩ .nil))
  have h2 : SectLines (.list (-1) 42 true [[lit "b", lit "c"], [lit "d"]])
      [lit "* b\n", lit "  c\n", lit "\n", lit "* d\n"] :=
    .list (k := 0) (col := 2) (.more (ls := [lit "* b\n", lit "  c\n"]) (bl := [lit "\n"]) (k := 0) (col := 2)
      (loose := false)
      (.mk (item (c := 98) (.bullet (by decide)) (by decide) (by decide))
        (.cons ⟨2, lit "\n", by omega, hw, letter_text (c := 99) (by decide) (by decide), rfl⟩ .nil))
      hb1 (k' := 0) (by omega)
      (.one (.mk (item (c := 100) (.bullet (by decide)) (by decide) (by decide)) .nil)))
  have h3 : SectLines (.list (-1) 45 false [[lit "e"]]) [lit "- e\n"] :=
    .list (.one (.mk (item (c := 101) (.bullet (by decide)) (by decide) (by decide)) .nil))
  have h4 : SectLines (.list 12 41 false [[lit "f"]]) [lit "12) f\n"] :=
    .list (.one (.mk (item (c := 102) (.number (ds := lit "12") (by decide) (by decide) (by decide) (by decide))
      (by decide) (by decide)) .nil))
  have h5 : SectLines (.flat (.heading 1 [lit "h"])) [lit "# h\n"] :=
    .flat (.heading ⟨0, lit " h\n", by omega, by omega, by omega, rfl, ⟨32, rfl, rfl⟩,
      Or.inr ⟨lit "h", ⟨lit " ", lit "\n", rfl, isWhite_all rfl, hw, ⟨104, rfl, rfl⟩,
        ⟨104, rfl, rfl⟩⟩, rfl⟩⟩)
  refine ⟨?_, ?_, ?_, rfl⟩
  · exact .line (l := lit "a") (by decide) (.line (l := lit "* b") (by decide) (.line (l := lit "  c") (by decide)
      (.line (l := []) (by decide) (.line (l := lit "* d") (by decide) (.line (l := lit "- e") (by decide)
      (.line (l := []) (by decide) (.line (l := lit "12) f") (by decide) (.line (l := []) (by decide)
      (.line (l := lit "# h") (by decide) .nil)))))))))
  · exact .cons (bl := []) h1 hb0 (Or.inr (Or.inl rfl)) (.cons (bl := []) h2 hb0
      ⟨⟨_, _, _, _, rfl, rfl, rfl⟩, by decide⟩ (.cons h3 hb1 ⟨⟨_, _, _, _, rfl, rfl, rfl⟩, by decide⟩
      (.cons h4 hb1 ⟨⟨_, _, _, _, rfl, rfl, rfl⟩, by decide⟩ (.last (bl := []) h5 hb0))))
  · have hp : ∀ t : List Byte, t.all (fun c => c != 96 && c != 42 && c != 95 && c != 91 && c != 93) →
        ∀ c ∈ t, Plain c := by
      intro t h c hc
      have := List.all_eq_true.mp h c hc
      simp at this
      exact ⟨this.1.1.1.1, this.1.1.1.2, this.1.1.2, this.1.2, this.2⟩
    have one : ∀ {c : Byte}, [c].all (fun c => c != 96 && c != 42 && c != 95 && c != 91 && c != 93) →
        Writes false none [.text [c]] (textOf [[c]]) none := by
      intro c h
      exact .text (t := [c]) (s := []) (by simp) (hp _ h) .nil
    refine .cons (.flat (.para (one rfl))) (.cons (.list (.cons ⟨_, ?_, rfl⟩ (.cons ⟨_, one rfl, rfl⟩ .nil)))
      (.cons (.list (.cons ⟨_, one rfl, rfl⟩ .nil)) (.cons (.list (.cons ⟨_, one rfl, rfl⟩ .nil))
      (.cons (.flat (.heading (one rfl))) .nil))))
    exact .text (t := lit "b") (by decide) (hp _ (by decide))
      (.soft (.text (t := lit "c") (s := []) (by decide) (hp _ (by decide)) .nil))

/-- The concrete case of `C62_lists`. -/
example : parse listSrc = some listBlocks :=
  C62_lists list_sample.1 (by simp) list_sample.2.1 list_sample.2.2.1 list_sample.2.2.2

set_option maxRecDepth 10000 in
/-- **C62 (negation).**  After code a list cannot start with a number other than 1, although only
paragraphs should not be interrupted by it: its lines become a paragraph.  (`leafNode` is tested, not
the type of the leaf: md/ParseMarkdown.cpp:268-271.) -/
theorem C62_list_after_code_false : parse (lit "    x\n\n2. b\n") = some
    [.code [lit "x\n"], .para [.text (lit "2. b")]] :=
  eq_of_parsedAsBlocks (by decide +kernel)

end Verif.Markdown
