import Verif.TFmt.LemmasAscii
/-!
# C71 — text files in various formats

A text saved in a format reads back as the same text; the format of a saved file is detected; files
are never so strange that detection fails.
-/
namespace Verif.TFmt
open Verif Verif.Enc Verif.TConv TFmt.Spec

variable {atEnd : Bool}

/-! ## Saving and loading in a given format -/

theorem utf8_unix (cs : List Char) :
    utf8 (unix cs) = (nlP false (cs.map Char.toNat)).flatMap (encF .utf8) := by
  rw [utf8_eq, unix_map]

/-- **C71.** Writing a text in any of the Unicode formats (UTF-8 or UTF-16 of either byte order, with
or without byte order mark, with either kind of line ends) and reading it back in the same format
gives the text, in UTF-8, without carriage returns. -/
theorem C71_roundtrip (f : Format) (he : f.encoding ≠ .bytes) (cs : List Char) :
    importText atEnd f (exportText f (utf8 cs)) = some (utf8 (unix cs)) := by
  rw [import_points he (nlP_scalar (map_scalar cs)) (skipBom_export he cs), nlP_nlP, utf8_unix]

example : exportText ⟨.utf16le, .crlf, true⟩ (utf8 ['h', 'é', '\n', '😀']) =
      [0xff, 0xfe, 0x68, 0, 0xe9, 0, 13, 0, 10, 0, 0x3d, 0xd8, 0, 0xde] ∧
    importText true ⟨.utf16le, .crlf, true⟩
      [0xff, 0xfe, 0x68, 0, 0xe9, 0, 13, 0, 10, 0, 0x3d, 0xd8, 0, 0xde] =
      some [0x68, 0xc3, 0xa9, 10, 0xf0, 0x9f, 0x98, 0x80] := by decide +kernel

/-- **C71.** In UTF-8 formats this holds for any bytes at all, well-formed or not: writing and reading
back removes the carriage returns and changes nothing else. -/
theorem C71_utf8_any_bytes (nl : NewLine) (bom : Bool) (data : List Byte) :
    importText atEnd ⟨.utf8, nl, bom⟩ (exportText ⟨.utf8, nl, bom⟩ data) =
      some (data.filter (· ≠ 13)) := by
  have hnn : ∀ b (l : List Byte), Stream.Spec.newlines false (Stream.Spec.newlines b l) =
      l.filter (· ≠ 13) := by
    intro b l
    induction l with
    | nil => rfl
    | cons c l ih =>
      rw [show c :: l = [c] ++ l from rfl, newlines_append, newlines_append, ih]
      simp only [List.filter_append]
      congr 1
      by_cases h13 : c = 13
      · subst h13; cases b <;> decide
      · by_cases h10 : c = 10
        · subst h10; cases b <;> decide
        · simp [Stream.Spec.newlines, h13, h10]
  have hskip : skipBom ⟨.utf8, nl, bom⟩ (exportText ⟨.utf8, nl, bom⟩ data) =
      some (Stream.Spec.newlines (decide (nl = .crlf)) data) := by
    cases bom
    · rfl
    · unfold skipBom exportText
      dsimp only
      rw [if_neg (by simp), if_neg (by simp), if_pos rfl, if_pos, List.drop_left]
      exact List.isPrefixOf_iff_prefix.mpr (List.prefix_append _ _)
  unfold importText
  rw [hskip]
  dsimp only
  rw [if_pos rfl, hnn]

example : exportText ⟨.utf8, .crlf, true⟩ [0x80, 10, 0xff] = [0xef, 0xbb, 0xbf, 0x80, 13, 10, 0xff] ∧
    importText true ⟨.utf8, .crlf, true⟩ [0xef, 0xbb, 0xbf, 0x80, 13, 10, 0xff] =
      some [0x80, 10, 0xff] := by decide +kernel

/-! ## Detection -/

/-- **C71.** A file saved with a byte order mark is recognised: encoding and mark always; the line
ends exactly if the file has LF line ends or some line ends within the first 4000 bytes. -/
theorem C71_detect_bom (cmp : Scoring) (f : Format) (he : f.encoding ≠ .bytes) (hb : f.bom = true)
    (cs : List Char) :
    ∃ nl, autodetect cmp (exportText f (utf8 cs)) = some ⟨f.encoding, nl, true⟩ ∧
      (nl = .crlf ↔ f.newLine = .crlf ∧ EarlyLine f cs) := by
  rw [export_eq he]
  obtain ⟨t, hs, ht, _⟩ := scan_enc he (filePoints f cs) (filePoints_scalar f cs)
  obtain ⟨nl, h1, h2⟩ := newLine_export he cs ht
  refine ⟨nl, ?_, h2⟩
  unfold autodetect
  have hbo : bomOf ((filePoints f cs).flatMap (encF f.encoding)) = some f.encoding := by
    unfold filePoints
    rw [hb]
    simp only [if_true, List.cons_append, List.nil_append, List.flatMap_cons]
    exact bomOf_bom he _
  rw [hbo]
  dsimp only
  rw [hs]
  dsimp only
  rw [h1]

example (cmp : Scoring) : autodetect cmp
    [0xff, 0xfe, 0x68, 0, 0xe9, 0, 13, 0, 10, 0, 0x3d, 0xd8, 0, 0xde] =
    some ⟨.utf16le, .crlf, true⟩ := by
  obtain ⟨nl, h, h2⟩ := C71_detect_bom cmp ⟨.utf16le, .crlf, true⟩ (by decide) rfl
    ['h', 'é', '\n', '😀']
  have : nl = .crlf := h2.mpr ⟨rfl, ['h', 'é'], ['😀'], rfl, by decide +kernel⟩
  rw [this] at h
  exact h

theorem ctl_char {c : Char} (h : ¬ Control c) : ctlN c.toNat = false := by
  unfold ctlN
  simp only [decide_eq_false_iff_not]
  rintro ⟨h1, h2, h3, h4⟩
  refine h ⟨h1, ?_, ?_, ?_⟩
  · rintro rfl; exact h3 rfl
  · rintro rfl; exact h2 rfl
  · rintro rfl; exact h4 rfl

/-- Scanning UTF-8 text without control characters and without mark. -/
theorem guess_utf8 (cmp : Scoring) (ps : List Nat) (hps : ∀ p ∈ ps, IsScalar p)
    (hc : ∀ p ∈ ps, ctlN p = false) (hh : ps.head? ≠ some 0xFEFF) :
    ∃ t, Tallied {} t false (seen (encF .utf8) 4000 0 ps) ∧
      ∀ nl, t.getNewLineType = some nl →
        autodetect cmp (ps.flatMap (encF .utf8)) = some ⟨.utf8, nl, false⟩ := by
  obtain ⟨t, hs, ht, _⟩ := scan_enc (e := .utf8) (by decide) ps hps
  refine ⟨t, ht, ?_⟩
  intro nl hnl
  unfold autodetect
  rw [bomOf_utf8 ps hps hh]
  dsimp only
  unfold guessFileEncoding
  have hs : scanTextFile utf8E (ps.flatMap (encF .utf8)) = some (t, _) := hs
  rw [hs]
  dsimp only
  split
  · rename_i h0
    cases ps with
    | nil =>
      have h1 := ht.crlf
      have h2 := ht.lines
      simp only [seen, pairsN] at h1 h2
      have : t.getNewLineType = some .lf := by
        unfold Stats.getNewLineType
        rw [h1, h2]
        rfl
      rw [this] at hnl
      cases hnl
      rfl
    | cons p ps =>
      obtain ⟨l, hl⟩ := nonempty_seen (E := encF .utf8) (p := p) (ps := ps)
      rw [hl, List.flatMap_cons, List.length_append] at h0
      have := (dec_enc (e := .utf8) (by decide) (hps p (by simp)) []).2
      omega
  · rw [if_pos, hnl]
    constructor
    · unfold Stats.numInvalidPoints; rw [ht.points, ht.valid]; exact Nat.sub_self _
    · rw [ht.control, countP_zero]
      intro p hp
      exact hc p ((seen_prefix _ _ _ _).subset hp)

theorem utf8Size_eq (c : Char) : (encF .utf8 c.toNat).length = c.utf8Size := by
  show ((encodeUTF8 4 c.toNat).getD []).length = _
  rw [C01_utf8_standard c 4 (numBytesUTF8_le _)]
  exact String.length_utf8EncodeChar c

theorem seen_early : ∀ (cs : List Char) (n : Nat),
    seen (encF .utf8) 4000 n (cs.map Char.toNat) = (early n cs).map Char.toNat := by
  intro cs
  induction cs with
  | nil => intro _; rfl
  | cons c cs ih =>
    intro n
    simp only [List.map_cons, seen, early]
    by_cases h : n < 4000
    · rw [if_pos h, if_neg (by omega), ih, utf8Size_eq]; rfl
    · rw [if_neg h, if_pos (by omega)]; rfl

theorem pairs_map : ∀ (cs : List Char) (cr : Bool), pairsN cr (cs.map Char.toNat) =
    (if cr = true ∧ cs.head? = some '\n' then 1 else 0) + pairs cs := by
  intro cs
  induction cs with
  | nil => intro cr; simp [pairsN, pairs]
  | cons c cs ih =>
    intro cr
    simp only [List.map_cons, pairsN, ih, List.head?_cons, Option.some.injEq]
    have h10 : (c.toNat = 10) ↔ c = '\n' := ⟨fun h => toNat_inj h, fun h => by rw [h]; rfl⟩
    have h13 : decide (c.toNat = 13) = decide (c = '\r') := by
      by_cases h : c = '\r'
      · subst h; rfl
      · simp only [h, decide_false, decide_eq_false_iff_not]
        exact fun h' => h (toNat_inj h')
    rw [h13]
    have hp : pairs (c :: cs) =
        (if c = '\r' ∧ cs.head? = some '\n' then 1 else 0) + pairs cs := by
      by_cases h : c = '\r' ∧ cs.head? = some '\n'
      · obtain ⟨rfl, h2⟩ := h
        cases cs with
        | nil => simp at h2
        | cons d cs =>
          simp only [List.head?_cons, Option.some.injEq] at h2
          subst h2
          rw [if_pos (by simp)]
          have : pairs ('\n' :: cs) = pairs cs := by rw [pairs.eq_def]; rfl
          rw [this]
          show pairs cs + 1 = _
          omega
      · rw [if_neg h, Nat.zero_add, pairs.eq_def]
        split
        · rename_i heq
          simp only [List.cons.injEq] at heq
          exact absurd ⟨heq.1, by rw [heq.2]; rfl⟩ h
        · rename_i heq
          simp only [List.cons.injEq] at heq
          rw [heq.2]
        · rename_i heq; simp at heq
    rw [hp]
    simp only [h10, decide_eq_true_eq, And.comm (a := c = '\n')]

/-- **C71.** Any UTF-8 file without control characters and without byte order mark is recognised as
UTF-8 without mark, wherever it comes from.  The line ends found are CRLF exactly if, among the
characters that start in the first 4000 bytes, there is a line feed behind a carriage return and at
least half of the line feeds are. -/
theorem C71_detect_utf8 (cmp : Scoring) (cs : List Char) (hc : ∀ c ∈ cs, ¬ Control c)
    (hh : cs.head? ≠ some mark) :
    ∃ nl, autodetect cmp (utf8 cs) = some ⟨.utf8, nl, false⟩ ∧
      (nl = .crlf ↔ 0 < pairs (early 0 cs) ∧
        lineFeeds (early 0 cs) ≤ 2 * pairs (early 0 cs)) := by
  have hh' : (cs.map Char.toNat).head? ≠ some 0xFEFF := by
    intro h
    cases cs with
    | nil => simp at h
    | cons c cs =>
      simp only [List.map_cons, List.head?_cons, Option.some.injEq] at h
      refine hh ?_
      simp only [List.head?_cons, Option.some.injEq]
      exact toNat_inj h
  have hc' : ∀ p ∈ cs.map Char.toNat, ctlN p = false := by
    intro p hp
    simp only [List.mem_map] at hp
    obtain ⟨c, h, rfl⟩ := hp
    exact ctl_char (hc c h)
  obtain ⟨t, ht, hd⟩ := guess_utf8 cmp _ (map_scalar cs) hc' hh'
  obtain ⟨nl, h1, h2⟩ := newLine_iff ht.crlf_le
  rw [← utf8_eq] at hd
  refine ⟨nl, hd nl h1, ?_⟩
  rw [h2, ht.crlf, ht.lines, seen_early, pairs_map]
  have : ((early 0 cs).map Char.toNat).countP (· = 10) = lineFeeds (early 0 cs) := by
    unfold lineFeeds
    rw [List.countP_map]
    apply List.countP_congr
    intro c _
    simp only [Function.comp, decide_eq_true_eq]
    exact ⟨fun h => toNat_inj h, fun h => by rw [h]; rfl⟩
  rw [this]
  simp

example (cmp : Scoring) : autodetect cmp [0x61, 13, 10, 0xc3, 0xa9, 10] =
    some ⟨.utf8, .crlf, false⟩ := by
  obtain ⟨nl, h, h2⟩ := C71_detect_utf8 cmp ['a', '\r', '\n', 'é', '\n'] (by unfold Control; decide)
    (by decide)
  have : nl = .crlf := h2.mpr (by decide +kernel)
  rw [this] at h
  exact h

/-- **C71.** A non-empty plain ASCII text saved in UTF-16 without byte order mark is recognised, byte
order and all, if the comparison of scores is right where the exact scores are half a point apart. -/
theorem C71_detect_ascii16 (cmp : Scoring) (hf : Faithful cmp) (f : Format)
    (he : f.encoding = .utf16le ∨ f.encoding = .utf16be) (hb : f.bom = false) (cs : List Char)
    (hp : ∀ c ∈ cs, PlainText c) (hne : unix cs ≠ []) :
    ∃ nl, autodetect cmp (exportText f (utf8 cs)) = some ⟨f.encoding, nl, false⟩ ∧
      (nl = .crlf ↔ f.newLine = .crlf ∧ EarlyLine f cs) := by
  have heb : f.encoding ≠ .bytes := by rcases he with h | h <;> rw [h] <;> decide
  obtain ⟨be, hbe⟩ : ∃ be, f.encoding = e16 be := by
    rcases he with h | h
    · exact ⟨false, h⟩
    · exact ⟨true, h⟩
  have hq : filePoints f cs ≠ [] := by
    intro h0
    have hu := unix_map cs
    unfold filePoints at h0
    rw [hb] at h0
    simp only [Bool.false_eq_true, if_false, List.nil_append] at h0
    have := nlP_nlP (decide (f.newLine = .crlf)) (cs.map Char.toNat)
    rw [h0, ← hu] at this
    have h1 : (unix cs).map Char.toNat = [] := this.symm
    exact hne (List.map_eq_nil_iff.mp h1)
  obtain ⟨t, ht, hd⟩ := guess_ascii hf be _ (plain_points hb hp) hq
  rw [← hbe] at ht hd
  obtain ⟨nl, h1, h2⟩ := newLine_export heb cs ht
  rw [export_eq heb]
  exact ⟨nl, hd nl h1, h2⟩

/-- Comparing exact scores. -/
def exactScoring : Scoring where
  gt a b := decide (Above a b)
  ge a b := !decide (Above b a)
  tooMany i h := decide (h ≤ 5 * i)

theorem above_asymm {a b : Stats} (h : Above a b) : ¬ Above b a := by
  rintro ⟨_, _, h2⟩
  obtain ⟨ha, hb, h1⟩ := h
  have e : (b.denom : Int) * a.denom = a.denom * b.denom := Int.mul_comm _ _
  have pos : 0 < (a.denom : Int) * b.denom := Int.mul_pos (by omega) (by omega)
  omega

theorem exact_faithful : Faithful exactScoring where
  gt a b h := ⟨by simp [exactScoring, h], by simp [exactScoring, above_asymm h]⟩
  ge a b h := ⟨by simp [exactScoring, above_asymm h], by simp [exactScoring, h]⟩
  irrefl a := by
    simp only [exactScoring, decide_eq_false_iff_not]
    exact fun h => above_asymm h h

example : exportText ⟨.utf16be, .crlf, false⟩ (utf8 ['H', 'i', '\n']) = [0, 72, 0, 105, 0, 13, 0, 10] ∧
    autodetect exactScoring [0, 72, 0, 105, 0, 13, 0, 10] = some ⟨.utf16be, .crlf, false⟩ ∧
    (∀ c ∈ ['H', 'i', '\n'], PlainText c) := by
  refine ⟨by decide +kernel, by decide +kernel, by unfold PlainText; decide⟩

end Verif.TFmt
