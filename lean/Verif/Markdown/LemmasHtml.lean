import Verif.Markdown.SpecHtml
import Verif.Esc.Props
import Verif.Num.Props

/-! # Lemmas about the HTML writer -/

namespace Verif.Markdown

open Verif Spec

theorem lit0 : lit "<a href=\"" = [60, 97, 32, 104, 114, 101, 102, 61, 34] := rfl
theorem lit1 : lit "\">" = [34, 62] := rfl
theorem lit2 : lit "</a>" = [60, 47, 97, 62] := rfl
theorem lit3 : lit "<code>" = [60, 99, 111, 100, 101, 62] := rfl
theorem lit4 : lit "</code>" = [60, 47, 99, 111, 100, 101, 62] := rfl
theorem lit5 : lit "\n" = [10] := rfl
theorem lit6 : lit "<em>" = [60, 101, 109, 62] := rfl
theorem lit7 : lit "</em>" = [60, 47, 101, 109, 62] := rfl
theorem lit8 : lit "<strong>" = [60, 115, 116, 114, 111, 110, 103, 62] := rfl
theorem lit9 : lit "</strong>" = [60, 47, 115, 116, 114, 111, 110, 103, 62] := rfl
theorem lit10 : lit "<ol start=\"" = [60, 111, 108, 32, 115, 116, 97, 114, 116, 61, 34] := rfl
theorem lit11 : lit "\">\n" = [34, 62, 10] := rfl
theorem lit12 : lit "<ol>\n" = [60, 111, 108, 62, 10] := rfl
theorem lit13 : lit "<ul>\n" = [60, 117, 108, 62, 10] := rfl
theorem lit14 : lit "</ol>\n" = [60, 47, 111, 108, 62, 10] := rfl
theorem lit15 : lit "</ul>\n" = [60, 47, 117, 108, 62, 10] := rfl
theorem lit16 : lit " class=\"anchored\"><span class=\"anchor\" id=\"" = [32, 99, 108, 97, 115, 115, 61, 34, 97, 110, 99, 104, 111, 114, 101, 100, 34, 62, 60, 115, 112, 97, 110, 32, 99, 108, 97, 115, 115, 61, 34, 97, 110, 99, 104, 111, 114, 34, 32, 105, 100, 61, 34] := rfl
theorem lit17 : lit "\">&nbsp;</span>" = [34, 62, 38, 110, 98, 115, 112, 59, 60, 47, 115, 112, 97, 110, 62] := rfl
theorem lit18 : lit " id=\"" = [32, 105, 100, 61, 34] := rfl
theorem lit19 : lit ">" = [62] := rfl
theorem lit20 : lit "<li>" = [60, 108, 105, 62] := rfl
theorem lit21 : lit "</li>\n" = [60, 47, 108, 105, 62, 10] := rfl
theorem lit22 : lit "<blockquote>\n" = [60, 98, 108, 111, 99, 107, 113, 117, 111, 116, 101, 62, 10] := rfl
theorem lit23 : lit "</blockquote>\n" = [60, 47, 98, 108, 111, 99, 107, 113, 117, 111, 116, 101, 62, 10] := rfl
theorem lit24 : lit "<h" = [60, 104] := rfl
theorem lit25 : lit "</h" = [60, 47, 104] := rfl
theorem lit26 : lit ">\n" = [62, 10] := rfl
theorem lit27 : lit "<p>" = [60, 112, 62] := rfl
theorem lit28 : lit "</p>\n" = [60, 47, 112, 62, 10] := rfl
theorem lit29 : lit "<pre><code>" = [60, 112, 114, 101, 62, 60, 99, 111, 100, 101, 62] := rfl
theorem lit30 : lit "</code></pre>\n" = [60, 47, 99, 111, 100, 101, 62, 60, 47, 112, 114, 101, 62, 10] := rfl
theorem lit31 : lit "&nbsp;" = [38, 110, 98, 115, 112, 59] := rfl
theorem lit32 : lit "anchored" = [97, 110, 99, 104, 111, 114, 101, 100] := rfl
theorem lit33 : lit "anchor" = [97, 110, 99, 104, 111, 114] := rfl
theorem lit34 : lit "ol" = [111, 108] := rfl
theorem lit35 : lit "ul" = [117, 108] := rfl
theorem lit36 : lit "li" = [108, 105] := rfl
theorem lit37 : lit "blockquote" = [98, 108, 111, 99, 107, 113, 117, 111, 116, 101] := rfl
theorem lit38 : lit "h1" = [104, 49] := rfl
theorem lit39 : lit "h2" = [104, 50] := rfl
theorem lit40 : lit "h3" = [104, 51] := rfl
theorem lit41 : lit "h4" = [104, 52] := rfl
theorem lit42 : lit "h5" = [104, 53] := rfl
theorem lit43 : lit "h6" = [104, 54] := rfl
theorem lit44 : lit "p" = [112] := rfl
theorem lit45 : lit "pre" = [112, 114, 101] := rfl
theorem lit46 : lit "code" = [99, 111, 100, 101] := rfl
theorem lit47 : lit "a" = [97] := rfl
theorem lit48 : lit "em" = [101, 109] := rfl
theorem lit49 : lit "strong" = [115, 116, 114, 111, 110, 103] := rfl
theorem lit50 : lit "span" = [115, 112, 97, 110] := rfl
theorem lit51 : lit "start" = [115, 116, 97, 114, 116] := rfl
theorem lit52 : lit "class" = [99, 108, 97, 115, 115] := rfl
theorem lit53 : lit "id" = [105, 100] := rfl
theorem lit54 : lit "href" = [104, 114, 101, 102] := rfl

-- lit0, lit1, lit2, lit3, lit4, lit5, lit6, lit7, lit8, lit9, lit10, lit11, lit12, lit13, lit14, lit15, lit16, lit17, lit18, lit19, lit20, lit21, lit22, lit23, lit24, lit25, lit26, lit27, lit28, lit29, lit30, lit31, lit32, lit33, lit34, lit35, lit36, lit37, lit38, lit39, lit40, lit41, lit42, lit43, lit44, lit45, lit46, lit47, lit48, lit49, lit50, lit51, lit52, lit53, lit54

theorem Spec.Reads.append {o p : List Byte} {ds es : List Dom} (h : Reads o ds) (k : Reads p es) :
    Reads (o ++ p) (ds ++ es) := by
  induction h with
  | nil => exact k
  | newline _ ih => exact .newline ih
  | text h _ ih => rw [List.append_assoc]; exact .text h ih
  | space _ ih => rw [List.append_assoc]; exact .space ih
  | elem h1 h2 h3 _ _ ih =>
    have := Reads.elem h1 h2 h3 ih
    simpa using this

/-- An element without attributes. -/
theorem Spec.Reads.plain {name : String} {body : List Byte} {cs : List Dom} (hn : name ∈ elements)
    (hb : Reads body cs) :
    Reads (60 :: (lit name ++ 62 :: (body ++ 60 :: 47 :: (lit name ++ [62])))) [.elem name [] cs] := by
  have := Reads.elem hn .nil hb .nil
  simpa using this

theorem Spec.Reads.line {o : List Byte} {ds : List Dom} (h : Reads o ds) : Reads (o ++ [10]) ds := by
  have := h.append (.newline .nil)
  simpa using this

theorem resolves_newline : Esc.Resolves [10] [10] :=
  .other 10 (by decide) (by decide) (by decide) (by decide) .nil

theorem printU64_decimal (v : Nat) (hv : v < 2 ^ 64) : Num.printU64 v 10 false = some (decimal v) := by
  have key : ∀ k v acc, 0 < v → v < 2 ^ k → v < 2 ^ 64 →
      Num.printLoop 10 false k v acc = some (decimal v ++ acc) := by
    intro k
    induction k with
    | zero => intro v acc h1 h2 _; omega
    | succ k ih =>
      intro v acc h1 h2 h3
      rw [Num.printLoop, if_pos h1]
      dsimp only
      have e : v - v / 10 * 10 = v % 10 := by omega
      have e2 : u32 (v % 10) = v % 10 := Nat.mod_eq_of_lt (by omega)
      have e3 : Num.toDigit (v % 10) false = UInt8.ofNat (48 + v % 10) := by
        rw [Num.toDigit, if_pos (by omega), if_pos (by omega)]
      rw [e, e2, e3, decimal]
      by_cases hlt : v < 10
      · rw [if_pos hlt, Nat.div_eq_of_lt hlt, Nat.mod_eq_of_lt hlt]
        cases k <;> simp [Num.printLoop]
      · rw [if_neg hlt, ih _ _ (by omega) (by rw [Nat.pow_succ] at h2; omega) (by omega)]
        simp
  unfold Num.printU64
  rw [if_pos (by decide)]
  by_cases h0 : v = 0
  · subst h0; rw [if_pos rfl, decimal]; rfl
  · rw [if_neg h0, key 64 v [] (by omega) hv hv]; simp

theorem printS64_decimal (v : Int) (h0 : 0 ≤ v) (hv : v < 2 ^ 31) :
    Num.printS64 v 10 false = some (decimal v.toNat) := by
  rw [Num.printS64, if_pos h0, printU64_decimal _ (by omega)]

theorem decimal_digits (n : Nat) : ∀ c ∈ decimal n, 48 ≤ c.toNat ∧ c.toNat ≤ 57 := by
  induction n using Nat.strongRecOn with
  | ind n ih =>
    rw [decimal]
    intro c hc
    have hd : ∀ k, k < 10 → 48 ≤ (UInt8.ofNat (48 + k)).toNat ∧ (UInt8.ofNat (48 + k)).toNat ≤ 57 := by
      decide
    split at hc
    · rename_i h
      rw [List.mem_singleton.mp hc]; exact hd n h
    · rename_i h
      rcases List.mem_append.mp hc with hc | hc
      · exact ih _ (by omega) c hc
      · rw [List.mem_singleton.mp hc]; exact hd _ (by omega)

theorem resolves_plain : ∀ {s : List Byte}, (∀ c ∈ s, c ≠ 38 ∧ c ≠ 60 ∧ c ≠ 62 ∧ c ≠ 34) →
    Esc.Resolves s s
  | [], _ => .nil
  | c :: s, h =>
    have hc := h c (by simp)
    .other c hc.1 hc.2.1 hc.2.2.1 hc.2.2.2 (resolves_plain (fun d hd => h d (by simp [hd])))

theorem decimal_resolves (n : Nat) : Esc.Resolves (decimal n) (decimal n) := by
  refine resolves_plain fun c hc => ?_
  have := decimal_digits n c hc
  refine ⟨?_, ?_, ?_, ?_⟩ <;> rintro rfl <;> revert this <;> decide

section
variable {f : List Byte → List Byte}
  (hf : ∀ s, ∃ o, Esc.xmlEscape 0 s = some o ∧ Esc.Resolves o (f s))

include hf

mutual
theorem inlineHtml_reads : ∀ e : Inline, ∃ o, inlineHtml e = some o ∧ Reads o [inlineDom f e]
  | .text t => by
    obtain ⟨o, h1, h2⟩ := hf t
    refine ⟨o, by rw [inlineHtml, h1], ?_⟩
    have := Reads.text h2 .nil
    simpa [inlineDom] using this
  | .link dest cs => by
    obtain ⟨d, h1, h2⟩ := hf dest
    obtain ⟨b, h3, h4⟩ := inlinesHtml_reads cs
    refine ⟨_, by rw [inlineHtml, h1, h3]; rfl, ?_⟩
    have := Reads.elem (name := "a") (by decide) (.cons (name := "href") (by decide) h2 .nil) h4 .nil
    rw [inlineDom]
    rw [lit47, lit54] at this
    rw [lit0, lit1, lit2]
    simpa using this
  | .code t => by
    obtain ⟨b, h1, h2⟩ := hf t
    refine ⟨_, by rw [inlineHtml, h1]; rfl, ?_⟩
    have := Reads.plain (name := "code") (by decide) (.text h2 .nil)
    rw [inlineDom]
    rw [lit46] at this
    rw [lit3, lit4]
    simpa using this
  | .soft => ⟨[10], rfl, by
    have := Reads.text resolves_newline .nil
    simpa [inlineDom] using this⟩
  | .emph cs => by
    obtain ⟨b, h3, h4⟩ := inlinesHtml_reads cs
    refine ⟨_, by rw [inlineHtml, h3]; rfl, ?_⟩
    have := Reads.plain (name := "em") (by decide) h4
    rw [inlineDom]
    rw [lit48] at this
    rw [lit6, lit7]
    simpa using this
  | .strong cs => by
    obtain ⟨b, h3, h4⟩ := inlinesHtml_reads cs
    refine ⟨_, by rw [inlineHtml, h3]; rfl, ?_⟩
    have := Reads.plain (name := "strong") (by decide) h4
    rw [inlineDom]
    rw [lit49] at this
    rw [lit8, lit9]
    simpa using this
theorem inlinesHtml_reads : ∀ es : List Inline,
    ∃ o, inlinesHtml es = some o ∧ Reads o (inlinesDom f es)
  | [] => ⟨[], by rw [inlinesHtml], .nil⟩
  | e :: es => by
    obtain ⟨a, h1, h2⟩ := inlineHtml_reads e
    obtain ⟨b, h3, h4⟩ := inlinesHtml_reads es
    refine ⟨a ++ b, by rw [inlinesHtml, h1, h3]; rfl, ?_⟩
    rw [inlinesDom]
    exact h2.append h4
end

theorem codeHtml_reads : ∀ ls : List (List Byte),
    ∃ o, codeHtml ls = some o ∧ Reads o (ls.map (fun l => .text (f l)))
  | [] => ⟨[], rfl, .nil⟩
  | l :: ls => by
    obtain ⟨a, h1, h2⟩ := hf l
    obtain ⟨b, h3, h4⟩ := codeHtml_reads ls
    refine ⟨a ++ b, by rw [codeHtml, h1, h3]; rfl, ?_⟩
    rw [List.map_cons]
    exact .text h2 h4

/-- The start tag of a heading and its anchor. -/
theorem headingOpen_reads (anchors : Bool) (id : List Byte) :
    ∃ o a body, headingOpen anchors id = some o ∧ o = a ++ 62 :: body ∧
      Attrs a (headingParts f anchors id).1 ∧ Reads body (headingParts f anchors id).2 := by
  by_cases hid : id = []
  · refine ⟨lit ">", [], [], ?_, rfl, ?_, ?_⟩
    · rw [headingOpen, if_neg (fun h => h hid)]
    · rw [headingParts, if_pos hid]; exact .nil
    · rw [headingParts, if_pos hid]; exact .nil
  · obtain ⟨i, h1, h2⟩ := hf id
    rw [headingOpen, if_pos hid, h1, headingParts, if_neg hid]
    have r1 : Esc.Resolves (lit "anchored") (lit "anchored") := resolves_plain (by decide)
    have r2 : Esc.Resolves (lit "anchor") (lit "anchor") := resolves_plain (by decide)
    cases anchors with
    | false =>
      have h := Attrs.cons (name := "id") (by decide) h2 .nil
      refine ⟨_, _, _, rfl, ?_, h, .nil⟩
      rw [lit18, lit53, lit1]
      simp
    | true =>
      have h := Attrs.cons (name := "class") (by decide) r1 .nil
      have h' := Attrs.cons (name := "class") (by decide) r2
        (Attrs.cons (name := "id") (by decide) h2 .nil)
      have hb := Reads.elem (name := "span") (by decide) h' (.space .nil) .nil
      refine ⟨_, _, _, rfl, ?_, h, hb⟩
      rw [lit16, lit17, lit52, lit53, lit50, lit32, lit33, lit31]
      simp

omit hf in
theorem listOpen_reads (start : Int) (h : start < 2 ^ 31) (body : List Byte) (cs : List Dom)
    (hb : Reads body cs) : ∃ o, listOpen start = some o ∧
      Reads (o ++ body ++ listClose start)
        [.elem (if start ≥ 0 then "ol" else "ul") (listAttrs start) cs] := by
  unfold listOpen listClose listAttrs
  by_cases h0 : start ≥ 0
  · simp only [if_pos h0, h0, true_and]
    by_cases h1 : start = 1
    · simp only [h1, ne_eq, not_true_eq_false, if_false]
      refine ⟨_, rfl, ?_⟩
      have := (Reads.plain (name := "ol") (by decide) (.newline hb)).line
      rw [lit34] at this
      rw [lit12, lit14]
      simpa using this
    · simp only [h1, ne_eq, not_false_eq_true, if_true]
      rw [printS64_decimal start h0 h]
      refine ⟨_, rfl, ?_⟩
      have := (Reads.elem (name := "ol") (by decide)
        (.cons (name := "start") (by decide) (decimal_resolves start.toNat) .nil) (.newline hb)
        .nil).line
      rw [lit34, lit51] at this
      rw [lit10, lit11, lit14]
      simpa using this
  · simp only [if_neg h0, h0, false_and, if_false]
    refine ⟨_, rfl, ?_⟩
    have := (Reads.plain (name := "ul") (by decide) (.newline hb)).line
    rw [lit35] at this
    rw [lit13, lit15]
    simpa using this

mutual
theorem blockHtml_reads (anchors : Bool) : ∀ (b : Block) (loose tight : Bool), BlockOk loose b →
    ∃ o, blockHtml anchors loose tight b = some o ∧ Reads o (blockDom f anchors loose tight b)
  | .list start l cs, loose, tight, hok => by
    rw [BlockOk] at hok
    obtain ⟨b, h1, h2⟩ := blocksHtml_reads anchors cs l false hok.2
    obtain ⟨o, h3, h4⟩ := listOpen_reads start hok.1.1 b _ h2
    refine ⟨_, by rw [blockHtml, h3, h1]; rfl, ?_⟩
    rw [blockDom]
    exact h4
  | .item cs, loose, tight, hok => by
    rw [BlockOk] at hok
    obtain ⟨b, h1, h2⟩ := itemHtml_reads anchors cs (!loose) hok.2
    have hnl : ∃ nl, itemBreak loose cs = some nl ∧ (nl = [] ∨ nl = [10]) := by
      cases loose with
      | true => exact ⟨_, rfl, Or.inr rfl⟩
      | false =>
        cases cs with
        | nil => exact absurd rfl (hok.1 rfl)
        | cons c cs =>
          by_cases hc : c.isPara
          · exact ⟨[], by simp [itemBreak, hc], Or.inl rfl⟩
          · exact ⟨[10], by simp [itemBreak, hc]; rfl, Or.inr rfl⟩
    obtain ⟨nl, e1, e2⟩ := hnl
    refine ⟨lit "<li>" ++ nl ++ b ++ lit "</li>\n", ?_, ?_⟩
    · rw [blockHtml, e1, h1]
      rfl
    · rw [blockDom]
      have hb : Reads (nl ++ b) (blocksDom f anchors false (!loose) cs) := by
        rcases e2 with rfl | rfl
        · exact h2
        · exact .newline h2
      have := (Reads.plain (name := "li") (by decide) hb).line
      rw [lit36] at this
      rw [lit20, lit21]
      simpa using this
  | .quote cs, loose, tight, hok => by
    rw [BlockOk] at hok
    obtain ⟨b, h1, h2⟩ := blocksHtml_reads anchors cs false false hok
    refine ⟨_, by rw [blockHtml, h1]; rfl, ?_⟩
    rw [blockDom]
    have := (Reads.plain (name := "blockquote") (by decide) (.newline h2)).line
    rw [lit37] at this
    rw [lit22, lit23]
    simpa using this
  | .heading level id cs, loose, tight, hok => by
    rw [BlockOk] at hok
    obtain ⟨o, a, hbody, h1, rfl, h3, h4⟩ := headingOpen_reads hf anchors id
    obtain ⟨b, h5, h6⟩ := inlinesHtml_reads hf cs
    have hlv : Num.printU64 level 10 false = some (decimal level) := printU64_decimal _ (by omega)
    have hname : headingName level ∈ elements ∧ lit (headingName level) = 104 :: decimal level := by
      have : level = 1 ∨ level = 2 ∨ level = 3 ∨ level = 4 ∨ level = 5 ∨ level = 6 := by omega
      rcases this with rfl | rfl | rfl | rfl | rfl | rfl <;> decide +kernel
    refine ⟨_, by rw [blockHtml, hlv, h1, h5]; rfl, ?_⟩
    rw [blockDom]
    have := (Reads.elem hname.1 h3 (h4.append h6) .nil).line
    rw [hname.2] at this
    rw [lit24, lit25, lit26]
    simpa using this
  | .para cs, loose, tight, _ => by
    obtain ⟨b, h5, h6⟩ := inlinesHtml_reads hf cs
    cases tight with
    | true => exact ⟨b, by rw [blockHtml, h5]; rfl, by rw [blockDom]; simpa using h6⟩
    | false =>
      refine ⟨_, by rw [blockHtml, h5]; rfl, ?_⟩
      rw [blockDom]
      have := (Reads.plain (name := "p") (by decide) h6).line
      rw [lit44] at this
      rw [lit27, lit28]
      simpa using this
  | .code ls, loose, tight, _ => by
    obtain ⟨b, h5, h6⟩ := codeHtml_reads hf ls
    refine ⟨_, by rw [blockHtml, h5]; rfl, ?_⟩
    rw [blockDom]
    have := (Reads.plain (name := "pre") (by decide)
      (Reads.plain (name := "code") (by decide) h6)).line
    rw [lit45, lit46] at this
    rw [lit29, lit30]
    simpa using this
theorem blocksHtml_reads (anchors : Bool) : ∀ (bs : List Block) (loose tight : Bool),
    BlocksOk loose bs →
    ∃ o, blocksHtml anchors loose tight bs = some o ∧ Reads o (blocksDom f anchors loose tight bs)
  | [], _, _, _ => ⟨[], by rw [blocksHtml], by rw [blocksDom]; exact .nil⟩
  | b :: bs, loose, tight, hok => by
    rw [BlocksOk] at hok
    obtain ⟨o, h1, h2⟩ := blockHtml_reads anchors b loose tight hok.1
    obtain ⟨o', h3, h4⟩ := blocksHtml_reads anchors bs loose tight hok.2
    refine ⟨o ++ o', by rw [blocksHtml, h1, h3]; rfl, ?_⟩
    rw [blocksDom]
    exact h2.append h4
theorem itemHtml_reads (anchors : Bool) : ∀ (bs : List Block) (tight : Bool), BlocksOk false bs →
    ∃ o, itemHtml anchors tight bs = some o ∧ Reads o (blocksDom f anchors false tight bs)
  | [], _, _ => ⟨[], by rw [itemHtml], by rw [blocksDom]; exact .nil⟩
  | b :: bs, tight, hok => by
    rw [BlocksOk] at hok
    obtain ⟨o, h1, h2⟩ := blockHtml_reads anchors b false tight hok.1
    obtain ⟨o', h3, h4⟩ := itemHtml_reads anchors bs tight hok.2
    refine ⟨_, by rw [itemHtml, h1, h3]; rfl, ?_⟩
    rw [blocksDom]
    refine Reads.append ?_ h4
    split
    · exact h2.line
    · simpa using h2
end

end

end Verif.Markdown
