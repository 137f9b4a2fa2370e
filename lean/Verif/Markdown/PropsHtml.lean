import Verif.Markdown.LemmasHtml
import Verif.Esc.Props

/-!
# C60: the HTML a document is written as

The document tree can be any (it need not come from the parser), and its texts can be any bytes.
-/

namespace Verif.Markdown

open Verif Verif.Markdown.Spec

/-- **C60.**  Whatever is in a document, the HTML written for it is a properly nested fragment with
only the elements and attributes of `Spec.elements` and `Spec.attributes`, and a browser reads it as
exactly the tree of the document: texts cannot open or close elements, end an attribute or turn
into entities.  Every text comes out as it is, unless it holds an overlong encoding of an ASCII
character (C11). -/
theorem C60_reads : ∃ shown : List Byte → List Byte,
    (∀ s, Esc.NoOverlongAscii s → shown s = s) ∧
    ∀ (anchors : Bool) (doc : List Block), BlocksOk false doc →
      ∃ out, toHtml anchors doc = some out ∧ Reads out (docDom shown anchors doc) := by
  have hex : ∀ s, ∃ t, (∃ o, Esc.xmlEscape 0 s = some o ∧ Esc.Resolves o t) ∧
      (Esc.NoOverlongAscii s → t = s) := by
    intro s
    obtain ⟨o, t, h1, h2, _⟩ := Esc.C11_no_markup 0 s
    refine ⟨t, ⟨o, h1, h2⟩, fun hs => ?_⟩
    obtain ⟨o', h3, h4⟩ := Esc.C11_roundtrip_partial s hs
    rw [h1] at h3
    cases h3
    exact Esc.C11_resolve_unique h2 h4
  refine ⟨fun s => (hex s).choose, fun s hs => (hex s).choose_spec.2 hs, ?_⟩
  intro anchors doc hok
  exact blocksHtml_reads (fun s => (hex s).choose_spec.1) anchors doc false false hok

/-- A document with a loose list, a heading with an anchor, and hostile text. -/
def sampleDoc : List Block :=
  [.heading 2 (lit "a\"b") [.text (lit "1 < 2")],
    .list 3 false [.item [.para [.link (lit "x\" onclick=\"y") [.emph [.text (lit "</em>")]]]],
      .item [.code [lit "if (a && b)\n"]]],
    .quote [.para [.strong [.text (lit "<script>")], .soft, .code (lit "&lt;")]]]

/-- The hypothesis of `C60_reads` holds for it. -/
example : BlocksOk false sampleDoc := by
  simp [sampleDoc, BlocksOk, BlockOk]

set_option maxRecDepth 10000 in
/-- What is written for it. -/
example : toHtml true sampleDoc = some (lit
    ("<h2 class=\"anchored\"><span class=\"anchor\" id=\"a&quot;b\">&nbsp;</span>1 &lt; 2</h2>\n" ++
    "<ol start=\"3\">\n<li><a href=\"x&quot; onclick=&quot;y\"><em>&lt;/em&gt;</em></a></li>\n" ++
    "<li>\n<pre><code>if (a &amp;&amp; b)\n</code></pre>\n</li>\n</ol>\n<blockquote>\n" ++
    "<p><strong>&lt;script&gt;</strong>\n<code>&amp;lt;</code></p>\n</blockquote>\n")) := by
  decide +kernel

/-- **C60.**  A tight list with an empty item cannot be written: the writer's assertion that an item
has a child fails. -/
theorem C60_empty_item_asserts (anchors : Bool) (start : Int) (before after : List Block) :
    toHtml anchors [.list start false (before ++ .item [] :: after)] = none := by
  have h : ∀ before : List Block,
      blocksHtml anchors false false (before ++ .item [] :: after) = none := by
    intro before
    induction before with
    | nil =>
      rw [List.nil_append, blocksHtml, blockHtml]
      simp [itemBreak]
    | cons b bs ih =>
      rw [List.cons_append, blocksHtml, ih]
      cases blockHtml anchors false false b <;> rfl
  unfold toHtml
  rw [blocksHtml, blockHtml, h]
  cases listOpen start <;> rfl

end Verif.Markdown
