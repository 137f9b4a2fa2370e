import Verif.Markdown.LemmasSimple
import Verif.Markdown.LemmasTest

/-!
# C61: inline elements

The lines of a paragraph or heading are any bytes.
-/

namespace Verif.Markdown

open Verif Verif.Markdown.Spec

/-- **C61.**  Whatever the parser makes of a paragraph, it is a correct reading: writing its
elements in Markdown gives back the text, character by character.  Nothing is lost, doubled or
moved; delimiters pair up; emphasised text does not begin or end with white space; code is taken
literally. -/
theorem C61_reading {lines : List (List Byte)} {es : List Inline}
    (h : expandInlineElements lines = some es) : Src es (textOf lines) :=
  expandInline_src h

/-- **C61.**  Text written without ambiguities is read as it was meant: any nesting of texts, code,
links and emphasis. -/
theorem C61_simple {es : List Inline} {lines : List (List Byte)} (hne : lines ≠ [])
    (hl : ∀ l ∈ lines, l ≠ []) (h : Writes false none es (textOf lines) none) :
    expandInlineElements lines = some es :=
  expandInline_simple hne hl h

/-- **C61.**  The only paragraphs (of lines that are not empty) the parser cannot read are those that
begin with `](`: there `rfind` asserts on an empty array. -/
theorem C61_total {lines : List (List Byte)} (hne : lines ≠ []) (hl : ∀ l ∈ lines, l ≠ []) :
    expandInlineElements lines = none ↔ ∃ t, textOf lines = some 93 :: some 40 :: t :=
  expandInline_none hne hl

/-- Two lines with nested emphasis, code and a link. -/
def sampleLines : List (List Byte) := [lit "see *a __b__ c*,", lit "[x `y z`](u(v))."]

/-- What they mean. -/
def sampleElems : List Inline :=
  [.text (lit "see "), .emph [.text (lit "a "), .strong [.text (lit "b")], .text (lit " c")],
    .text (lit ","), .soft, .link (lit "u(v)") [.text (lit "x "), .code (lit "y z")],
    .text (lit ".")]

/-- They are unambiguous. -/
theorem sample_writes : Writes false none sampleElems (textOf sampleLines) none := by
  have hp : ∀ t : List Byte, t.all (fun c => c != 96 && c != 42 && c != 95 && c != 91 && c != 93) →
      ∀ c ∈ t, Plain c := by
    intro t h c hc
    have := List.all_eq_true.mp h c hc
    simp at this
    exact ⟨this.1.1.1.1, this.1.1.1.2, this.1.1.2, this.1.2, this.2⟩
  have h1 : Writes false (some 42) [.text (lit "a "), .strong [.text (lit "b")], .text (lit " c")]
      ((lit "a __b__ c").map some) (some 42) :=
    .text (t := lit "a ") (by decide) (hp _ (by decide))
      (.strong (d := 95) (b := (lit "b").map some) (s := (lit " c").map some) (Or.inr rfl)
        ⟨98, rfl, rfl, Or.inl rfl⟩ ⟨98, rfl, rfl, Or.inl rfl⟩ (by decide) (by decide) (by decide)
        (.text (t := lit "b") (s := []) (by decide) (hp _ (by decide)) .nil)
        (.text (t := lit " c") (s := []) (by decide) (hp _ (by decide)) .nil))
  have h2 : Writes false (some 91) [.text (lit "x "), .code (lit "y z")]
      ((lit "x `y z`").map some) (some 93) :=
    .text (t := lit "x ") (by decide) (hp _ (by decide))
      (.code (k := 1) (b := (lit "y z").map some) (s := []) (by decide) (by decide)
        (by
          intro x y e
          have : (none : Sym) ∈ (lit "y z").map some := by rw [e]; simp
          simp at this)
        ⟨by decide, Or.inr ⟨by
          rintro ⟨m, e, _⟩
          have := congrArg List.head? e
          revert this
          simp only [List.head?_cons]
          decide, rfl⟩⟩ (by decide) .nil)
  have h3 : Writes false none
      [.link (lit "u(v)") [.text (lit "x "), .code (lit "y z")], .text (lit ".")]
      ((lit "[x `y z`](u(v)).").map some) none :=
    .link (raw := lit "u(v)") (s := (lit ".").map some) h2 (by decide) (by decide) (by decide)
      (.text (t := lit ".") (s := []) (by decide) (hp _ (by decide)) .nil)
  exact .text (t := lit "see ") (by decide) (hp _ (by decide))
    (.emph (d := 42) (b := (lit "a __b__ c").map some) (Or.inl rfl)
      ⟨97, rfl, rfl, Or.inl rfl⟩ ⟨99, rfl, rfl, Or.inr ⟨44, rfl, by decide, by decide⟩⟩
      (by decide) (by decide) (by decide) h1
      (.text (t := lit ",") (by decide) (hp _ (by decide)) (.soft h3)))

/-- So the parser reads them that way. -/
example : expandInlineElements sampleLines = some sampleElems :=
  C61_simple (by decide) (by decide) sample_writes

/-- A paragraph the parser cannot read. -/
example : expandInlineElements [lit "](x"] = none :=
  (C61_total (by decide) (by decide)).mpr ⟨_, rfl⟩

/-- `C61_total` on a text with brackets that do not match. -/
example : expandInlineElements [lit "x](", lit "[*"] ≠ none := by
  rw [Ne, C61_total (by decide) (by decide)]
  rintro ⟨t, e⟩
  have := congrArg List.head? e
  revert this
  simp only [List.head?_cons]
  decide

/-- **C61 (disagreement).**  Emphasis inside a word is not recognised: the star after `a` could both
open and close, is tried as a closer first, and is then left out of the search for openers. -/
theorem C61_intraword :
    expandInlineElements [lit "a*b* c"] = some [.text (lit "a*b* c")] := by
  exact eq_of_parsedAs (by decide +kernel)

/-- **C61 (disagreement).**  A backslash in a link destination protects nothing: the parenthesis
after it is both copied and taken as the end, so the destination of `[a](b\)c)` is `b)` and `c)` is
left over. -/
theorem C61_link_escape :
    expandInlineElements [lit "[a](b\\)c)"] =
      some [.link (lit "b)") [.text (lit "a")], .text (lit "c)")] := by
  exact eq_of_parsedAs (by decide +kernel)

end Verif.Markdown
