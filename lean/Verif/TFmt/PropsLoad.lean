import Verif.TFmt.Props
/-!
# C71 — loading files whose format is not known
-/
namespace Verif.TFmt
open Verif Verif.Enc Verif.TConv TFmt.Spec

variable {atEnd : Bool}

/-! ## Every file -/

/-- **C71.** Detection never fails an assertion, whatever the file and however scores compare, and a
byte order mark is reported only if the file starts with the mark of the encoding reported. -/
theorem C71_detect_total (cmp : Scoring) (data : List Byte) :
    ∃ f, autodetect cmp data = some f ∧
      (f.bom = true → f.encoding ≠ .bytes ∧ ∃ rest, data = bomBytes f.encoding ++ rest) := by
  unfold autodetect
  cases hb : bomOf data with
  | none =>
    obtain ⟨f, h1, h2⟩ := guess_total cmp data
    exact ⟨f, h1, fun h => by rw [h2] at h; cases h⟩
  | some e =>
    obtain ⟨t, m, h1, h2⟩ := scan_total e data
    obtain ⟨nl, h3⟩ := newLine_total h2
    dsimp only
    rw [h1]
    dsimp only
    rw [h3]
    exact ⟨_, rfl, fun _ => bomOf_cases hb⟩

example : (autodetect exactScoring [0xc3, 0, 0x80, 13, 10, 0xff]) = some ⟨.utf16le, .lf, false⟩ ∧
    autodetect exactScoring [0xef, 0xbb, 0xbf, 0x80] = some ⟨.utf8, .lf, true⟩ := by
  decide +kernel

theorem bytes_noStray : ∀ (fuel : Nat) (T : List Byte), TConv.Spec.NoStray bytesE.dec fuel T := by
  intro fuel
  induction fuel with
  | zero => intro T; trivial
  | succ fuel ih =>
    intro T
    unfold TConv.Spec.NoStray
    refine .inr (.inr ⟨?_, ih _⟩)
    intro h4
    cases T with
    | nil => simp at h4
    | cons a t => intro h; cases h

theorem length_le_flatten : ∀ l : List (List Byte), [] ∉ l → l.length ≤ l.flatten.length := by
  intro l
  induction l with
  | nil => intro _; simp
  | cons x l ih =>
    intro h
    simp only [List.mem_cons, not_or] at h
    have := ih h.2
    have : x.length ≠ 0 := fun h0 => h.1 (List.length_eq_zero_iff.mp h0).symm
    simp only [List.length_cons, List.flatten_cons, List.length_append]
    omega

theorem leftover_bytes : ∀ (data : List Byte) fuel, data.length ≤ fuel →
    leftover decodeBytes fuel data = [] := by
  intro data
  induction data with
  | nil => intro fuel _; cases fuel <;> simp [leftover]
  | cons b data ih =>
    intro fuel h
    cases fuel with
    | zero => simp at h
    | succ fuel =>
      unfold leftover
      rw [if_neg]
      · exact ih fuel (by simpa using h)
      · rintro (h | h)
        · cases h
        · simp only [decodeBytes] at h; omega

theorem leftover_utf16 (be : Bool) : ∀ fuel (data : List Byte), data.length ≤ fuel →
    (leftover (decodeUTF16 be) fuel data ≠ [] ↔ data.length % 2 = 1) := by
  intro fuel
  induction fuel with
  | zero =>
    intro data h
    have : data = [] := List.length_eq_zero_iff.mp (by omega)
    subst this
    simp [leftover]
  | succ fuel ih =>
    intro data h
    unfold leftover
    match data with
    | [] => simp
    | [a] => simp [decodeUTF16, DecodeResult.none]
    | a :: b :: t =>
      have hp : 0 ≤ (decodeUTF16 be (a :: b :: t)).point ∧
          ((decodeUTF16 be (a :: b :: t)).numBytes = 2 ∨
            ((decodeUTF16 be (a :: b :: t)).numBytes = 4 ∧ 2 ≤ t.length)) := by
        unfold decodeUTF16
        dsimp only
        split
        · split
          · split
            · refine ⟨by dsimp only; omega, .inr ⟨rfl, by simp⟩⟩
            · exact ⟨by dsimp only; omega, .inl rfl⟩
          · exact ⟨by dsimp only; omega, .inl rfl⟩
        · split
          · exact ⟨by dsimp only; omega, .inl rfl⟩
          · exact ⟨by dsimp only; omega, .inl rfl⟩
      rw [if_neg (by simp; omega), ih]
      · simp only [List.length_drop, List.length_cons]
        rcases hp.2 with h2 | ⟨h2, h3⟩ <;> rw [h2] <;> omega
      · simp only [List.length_drop, List.length_cons] at h ⊢
        rcases hp.2 with h2 | ⟨h2, h3⟩ <;> rw [h2] <;> omega

/-- **C71.** What `convertIn` says of reading a whole text is what reading it block by block does,
however the underlying stream delivers it and whatever the sizes of the blocks asked for, if enough
are asked for. -/
theorem C71_import_pipe (e : Enc) (he : e ≠ .utf8) (data : List Byte)
    (av : Nat → List Byte → Nat × Bool) (hav : TConv.Spec.GoodAvail av) (fuel : Nat) (caps : List Nat)
    (hpos : ∀ c ∈ caps, 0 < c)
    (hlen : (TConv.Spec.converted utf8E (encodingFromEnum e) data).length < caps.length) :
    ∃ atEnd, (reads utf8E (encodingFromEnum e) av (fuel + 1) caps 0 .init data).map List.flatten =
      convertIn atEnd (encodingFromEnum e) data := by
  have hmem : encodingFromEnum e ∈ TConv.Spec.encodings := by
    cases e <;> simp [encodingFromEnum, TConv.Spec.encodings]
  have hns : TConv.Spec.NoStray (encodingFromEnum e).dec data.length data := by
    cases e with
    | bytes => exact bytes_noStray _ _
    | utf8 => exact absurd rfl he
    | utf16be => exact utf16_noStray true _ _
    | utf16le => exact utf16_noStray false _ _
  have hleft : ∀ V, Later (encodingFromEnum e).dec data V → V ≠ [] →
      ((encodingFromEnum e).dec V).point < 0 →
      leftover (encodingFromEnum e).dec data.length data ≠ [] := by
    intro V h1 h2 h3
    have hodd : ¬ (encodingFromEnum e = bytesE ∨ encodingFromEnum e = utf8E ∨ data.length % 2 = 0) :=
      fun h => by have := whole_text hmem h1 h h2; omega
    cases e with
    | bytes => exact absurd (.inl rfl) hodd
    | utf8 => exact absurd rfl he
    | utf16be =>
      refine (leftover_utf16 true _ data (Nat.le_refl _)).mpr ?_
      have := fun h => hodd (.inr (.inr h)); omega
    | utf16le =>
      refine (leftover_utf16 false _ data (Nat.le_refl _)).mpr ?_
      have := fun h => hodd (.inr (.inr h)); omega
  rcases reads_spec (encodings_good hmem).1
    (encodings_good (show utf8E ∈ TConv.Spec.encodings by simp [TConv.Spec.encodings])).2 hav
    (W := TConv.Spec.converted utf8E (encodingFromEnum e) data) fuel caps 0 [] .init data hpos
    (by simp [St.init, conv]) (by simp [St.init]) (by simp [St.init])
    (by simpa [St.init, NS] using hns) with ⟨e1, V, h1, h2, h3⟩ | ⟨outs, e1, h1, h2, h3⟩
  · refine ⟨true, ?_⟩
    rw [e1]
    unfold convertIn
    rw [if_pos ⟨rfl, hleft V (by simpa [St.init] using h1) h2 h3⟩]
    rfl
  · refine ⟨false, ?_⟩
    rw [e1]
    unfold convertIn
    rw [if_neg (by simp)]
    simp only [Option.map_some, Option.some.injEq]
    have hex : [] ∈ outs := by
      refine Classical.byContradiction fun hno => ?_
      have hle : outs.length ≤ outs.flatten.length := length_le_flatten outs hno
      have := h2.length_le
      simp only [List.nil_append] at this
      omega
    simpa using h3 hex

/-- The same odd file read from streams that deliver five and four bytes at a time. -/
example : (reads utf8E (utf16E false) fiveAtATime 1 [9, 9, 9] 0 .init
      [0x61, 0, 0x62, 0, 0x63]).map List.flatten = convertIn false (utf16E false)
      [0x61, 0, 0x62, 0, 0x63] ∧
    (reads utf8E (utf16E false) fourAtATime 1 [9, 9, 9] 0 .init
      [0x61, 0, 0x62, 0, 0x63]).map List.flatten = convertIn true (utf16E false)
      [0x61, 0, 0x62, 0, 0x63] := by decide +kernel

/-- **C71.** Loading a file of unknown format fails an assertion exactly if the file is taken for
UTF-16, has an odd number of bytes, and the last of them is found together with the end of the file. -/
theorem C71_load_fails_iff (cmp : Scoring) (data : List Byte) :
    loadTextAutodetect cmp atEnd data = none ↔
      atEnd = true ∧ ∃ f, autodetect cmp data = some f ∧
        (f.encoding = .utf16le ∨ f.encoding = .utf16be) ∧ data.length % 2 = 1 := by
  obtain ⟨f, hf, hbom⟩ := C71_detect_total cmp data
  obtain ⟨rest, hskip, hpar⟩ : ∃ rest, skipBom f data = some rest ∧
      (f.encoding = .utf16le ∨ f.encoding = .utf16be → (rest.length % 2 = data.length % 2)) := by
    unfold skipBom
    cases hb : f.bom with
    | false => exact ⟨data, by simp, fun _ => rfl⟩
    | true =>
      obtain ⟨he, rest, hr⟩ := hbom hb
      rw [if_neg (by simp), if_neg he, if_pos]
      · refine ⟨_, rfl, ?_⟩
        intro h
        rw [hr, List.drop_left]
        rcases h with h | h <;> rw [h] <;> simp [bomBytes] <;> omega
      · rw [hr]; exact List.isPrefixOf_iff_prefix.mpr (List.prefix_append _ _)
  have hsome : ∀ r : Option (List Byte), importText atEnd f data = r →
      (loadTextAutodetect cmp atEnd data = none ↔ r = none) := by
    intro r hr
    unfold loadTextAutodetect
    rw [hf]
    dsimp only
    rw [hr]
    cases r <;> simp
  have hex : (∃ g, autodetect cmp data = some g ∧
      (g.encoding = .utf16le ∨ g.encoding = .utf16be) ∧ data.length % 2 = 1) ↔
      (f.encoding = .utf16le ∨ f.encoding = .utf16be) ∧ data.length % 2 = 1 := by
    rw [hf]
    constructor
    · rintro ⟨g, hg, h⟩; cases hg; exact h
    · intro h; exact ⟨f, rfl, h⟩
  rw [hex]
  rw [hsome _ rfl]
  unfold importText
  rw [hskip]
  dsimp only
  have h16 : ∀ be, f.encoding = e16 be →
      ((convertIn atEnd (encodingFromEnum f.encoding) rest) = none ↔ atEnd = true ∧ data.length % 2 = 1) := by
    intro be h
    have hE : encodingFromEnum f.encoding = utf16E be := by rw [h]; cases be <;> rfl
    have := leftover_utf16 be rest.length rest (Nat.le_refl _)
    rw [hpar (by rw [h]; cases be <;> simp [e16])] at this
    unfold convertIn
    rw [hE]
    rw [← this]
    show (if atEnd = true ∧ leftover (decodeUTF16 be) rest.length rest ≠ [] then _ else _) = none ↔ _
    by_cases hh : atEnd = true ∧ leftover (decodeUTF16 be) rest.length rest ≠ []
    · simp [hh]
    · rw [if_neg hh]; simp only [reduceCtorEq, false_iff]; exact hh
  cases henc : f.encoding with
  | bytes =>
    rw [if_neg (by simp)]
    simp only [reduceCtorEq, or_self, false_and, iff_false]
    unfold convertIn
    have : leftover (encodingFromEnum .bytes).dec rest.length rest = [] :=
      leftover_bytes rest _ (Nat.le_refl _)
    rw [this]
    simp
  | utf8 => simp
  | utf16be =>
    have := h16 true henc
    rw [henc] at this
    rw [if_neg (by simp)]
    simp only [reduceCtorEq, or_true, true_or, true_and, ← this]
    cases convertIn _ _ rest <;> simp
  | utf16le =>
    have := h16 false henc
    rw [henc] at this
    rw [if_neg (by simp)]
    simp only [reduceCtorEq, or_true, true_or, true_and, ← this]
    cases convertIn _ _ rest <;> simp

example : loadTextAutodetect exactScoring true [0xff, 0xfe, 0x61] = none ∧
    loadTextAutodetect exactScoring true [0xff, 0xfe, 0x61, 0] = some ([0x61], ⟨.utf16le, .lf, true⟩) := by
  decide +kernel

/-! ## Loading saved files -/

/-- The files that are recognised: with byte order mark; UTF-8 without control characters and not
starting with U+FEFF; and non-empty plain ASCII text in UTF-16, given comparisons of scores that are
right up to rounding. -/
def Recognised (cmp : Scoring) (f : Format) (cs : List Char) : Prop :=
  (f.bom = true ∧ f.encoding ≠ .bytes) ∨
  (f.bom = false ∧ f.encoding = .utf8 ∧ (∀ c ∈ cs, ¬ Control c) ∧ (unix cs).head? ≠ some mark) ∨
  (f.bom = false ∧ (f.encoding = .utf16le ∨ f.encoding = .utf16be) ∧ Faithful cmp ∧
    (∀ c ∈ cs, PlainText c) ∧ unix cs ≠ [])

theorem Recognised.enc {cmp : Scoring} {f : Format} {cs : List Char} (h : Recognised cmp f cs) :
    f.encoding ≠ .bytes := by
  rcases h with h | h | h
  · exact h.2
  · rw [h.2.1]; decide
  · rcases h.2.1 with h | h <;> rw [h] <;> decide

theorem detect_recognised {cmp : Scoring} {f : Format} {cs : List Char} (h : Recognised cmp f cs) :
    ∃ nl, autodetect cmp (exportText f (utf8 cs)) = some ⟨f.encoding, nl, f.bom⟩ ∧
      (nl = .crlf ↔ f.newLine = .crlf ∧ EarlyLine f cs) := by
  have he := h.enc
  rcases h with h | h | h
  · rw [h.1]; exact C71_detect_bom cmp f h.2 h.1 cs
  · obtain ⟨hb, h8, hc, hh⟩ := h
    have hc' : ∀ p ∈ filePoints f cs, ctlN p = false := by
      intro p hp
      unfold filePoints at hp
      rw [hb] at hp
      simp only [Bool.false_eq_true, if_false, List.nil_append] at hp
      rcases nlP_mem hp with h | rfl | rfl
      · simp only [List.mem_map] at h
        obtain ⟨c, h, rfl⟩ := h
        exact ctl_char (hc c h)
      · decide
      · decide
    have hh' : (filePoints f cs).head? ≠ some 0xFEFF := by
      unfold filePoints
      rw [hb]
      simp only [Bool.false_eq_true, if_false, List.nil_append]
      intro hx
      have hu := unix_map cs
      rw [← nlP_nlP (decide (f.newLine = .crlf))] at hu
      obtain ⟨l, hl⟩ : ∃ l, nlP (decide (f.newLine = .crlf)) (cs.map Char.toNat) = 0xFEFF :: l := by
        cases hq : nlP (decide (f.newLine = .crlf)) (cs.map Char.toNat) with
        | nil => rw [hq] at hx; simp at hx
        | cons a l => rw [hq] at hx; simp at hx; exact ⟨l, by rw [hx]⟩
      rw [hl, nlP_cons] at hu
      simp only [show (65279 : Nat) ≠ 13 by decide, if_false, show (65279 : Nat) ≠ 10 by decide,
        false_and, List.cons_append, List.nil_append] at hu
      obtain ⟨c, r, hc1, hc2, _⟩ := List.map_eq_cons_iff.mp hu
      refine hh ?_
      rw [hc1]
      simp only [List.head?_cons, Option.some.injEq]
      exact toNat_inj hc2
    obtain ⟨t, ht, hd⟩ := guess_utf8 cmp _ (filePoints_scalar f cs) hc' hh'
    obtain ⟨nl, h1, h2⟩ := newLine_export he cs (by rw [h8]; exact ht)
    refine ⟨nl, ?_, h2⟩
    rw [export_eq he, h8, hb]
    exact hd nl h1
  · obtain ⟨hb, h16, hf, hp, hne⟩ := h
    rw [hb]
    exact C71_detect_ascii16 cmp hf f h16 hb cs hp hne

/-- **C71.** A text saved in a recognised format loads, without telling the format, as the same text
without carriage returns; encoding and byte order mark are found out, and CRLF line ends exactly if a
line ends within the first 4000 bytes. -/
theorem C71_load_saved (cmp : Scoring) (f : Format) (cs : List Char) (h : Recognised cmp f cs) :
    ∃ nl, loadTextAutodetect cmp atEnd (exportText f (utf8 cs)) =
        some (utf8 (unix cs), ⟨f.encoding, nl, f.bom⟩) ∧
      (nl = .crlf ↔ f.newLine = .crlf ∧ EarlyLine f cs) := by
  obtain ⟨nl, h1, h2⟩ := detect_recognised h
  refine ⟨nl, ?_, h2⟩
  unfold loadTextAutodetect
  rw [h1]
  dsimp only
  have : importText atEnd ⟨f.encoding, nl, f.bom⟩ (exportText f (utf8 cs)) =
      importText atEnd f (exportText f (utf8 cs)) := rfl
  rw [this, C71_roundtrip f h.enc]

example : Recognised exactScoring ⟨.utf8, .crlf, false⟩ ['é', '\n'] ∧
    exportText ⟨.utf8, .crlf, false⟩ (utf8 ['é', '\n']) = [0xc3, 0xa9, 13, 10] ∧
    loadTextAutodetect exactScoring true [0xc3, 0xa9, 13, 10] =
      some ([0xc3, 0xa9, 10], ⟨.utf8, .crlf, false⟩) := by
  refine ⟨.inr (.inl ⟨rfl, rfl, ?_, by decide⟩), by decide +kernel, by decide +kernel⟩
  unfold Control; decide

theorem nlP_filter (crlf : Bool) (ps : List Nat) : nlP crlf (nlP false ps) = nlP crlf ps := by
  rw [nlP_false]
  unfold nlP
  rw [List.filter_filter]
  simp

theorem nlP_length (E : Nat → List Byte) (ps : List Nat) : ((nlP true ps).flatMap E).length =
    ((nlP false ps).flatMap E).length + ps.countP (· = 10) * (E 13).length := by
  induction ps with
  | nil => simp [nlP]
  | cons p ps ih =>
    rw [nlP_cons, nlP_cons]
    by_cases h13 : p = 13
    · simp [h13, ih]
    · by_cases h10 : p = 10
      · simp [h10, ih, Nat.add_mul]; omega
      · simp [h10, h13, ih]; omega

/-- **C71.** Loading a recognised file and saving the text in the format found reproduces the file
byte for byte, exactly if the file has LF line ends, or has no lines, or a line ends within its first
4000 bytes.  (Otherwise all its CRLF line ends become LF.) -/
theorem C71_resave (cmp : Scoring) (f : Format) (cs : List Char) (h : Recognised cmp f cs) :
    ∃ text f', loadTextAutodetect cmp atEnd (exportText f (utf8 cs)) = some (text, f') ∧
      (exportText f' text = exportText f (utf8 cs) ↔
        f.newLine = .lf ∨ '\n' ∉ cs ∨ EarlyLine f cs) := by
  obtain ⟨nl, h1, h2⟩ := C71_load_saved cmp f cs h
  refine ⟨_, _, h1, ?_⟩
  have he := h.enc
  have hx : exportText ⟨f.encoding, nl, f.bom⟩ (utf8 (unix cs)) =
      exportText ⟨f.encoding, nl, f.bom⟩ (utf8 cs) := by
    rw [export_eq (f := ⟨f.encoding, nl, f.bom⟩) he, export_eq (f := ⟨f.encoding, nl, f.bom⟩) he]
    unfold filePoints
    rw [unix_map, nlP_filter]
  rw [hx]
  have hsame : nl = f.newLine → exportText ⟨f.encoding, nl, f.bom⟩ (utf8 cs) =
      exportText f (utf8 cs) := by intro h; rw [h]
  cases hn : f.newLine with
  | lf =>
    have : nl = .lf := by
      cases nl with
      | lf => rfl
      | crlf => have := (h2.mp rfl).1; rw [hn] at this; cases this
    simp [hsame (by rw [this, hn])]
  | crlf =>
    by_cases hE : EarlyLine f cs
    · have : nl = .crlf := h2.mpr ⟨hn, hE⟩
      simp [hsame (by rw [this, hn]), hE]
    · have : nl = .lf := by
        cases nl with
        | lf => rfl
        | crlf => exact absurd (h2.mp rfl).2 hE
      simp only [reduceCtorEq, hE, or_false, false_or]
      rw [this, export_eq (f := ⟨f.encoding, .lf, f.bom⟩) he, export_eq he]
      unfold filePoints
      rw [hn]
      simp only [List.flatMap_append, List.append_cancel_left_eq, decide_true]
      rw [show decide (NewLine.lf = NewLine.crlf) = false from rfl]
      have hlen := nlP_length (encF f.encoding) (cs.map Char.toNat)
      constructor
      · intro heq hmem
        rw [heq] at hlen
        have hpos : 0 < (cs.map Char.toNat).countP (· = 10) := by
          rw [List.countP_pos_iff]
          exact ⟨10, List.mem_map.mpr ⟨'\n', hmem, rfl⟩, by simp⟩
        have h13 := (dec_enc he (p := 13) (by decide) []).2
        have := Nat.mul_pos hpos h13
        omega
      · intro hno
        have : ∀ ps : List Nat, 10 ∉ ps → nlP true ps = nlP false ps := by
          intro ps hps
          induction ps with
          | nil => rfl
          | cons p ps ih =>
            rw [nlP_cons, nlP_cons, ih (fun h => hps (by simp [h]))]
            have : p ≠ 10 := fun h => hps (by simp [h])
            simp [this]
        rw [this]
        intro h10
        simp only [List.mem_map] at h10
        obtain ⟨c, hc, h10⟩ := h10
        exact hno (toNat_inj (b := '\n') h10 ▸ hc)

example : ∃ text f', loadTextAutodetect exactScoring true (exportText ⟨.utf16be, .crlf, true⟩ (utf8
      ['a', '\n', 'b', '\n'])) = some (text, f') ∧
    exportText f' text = exportText ⟨.utf16be, .crlf, true⟩ (utf8 ['a', '\n', 'b', '\n']) := by
  obtain ⟨text, f', h1, h2⟩ := C71_resave exactScoring ⟨.utf16be, .crlf, true⟩ ['a', '\n', 'b', '\n']
    (.inl ⟨rfl, by decide⟩)
  exact ⟨text, f', h1, h2.mpr (.inr (.inr ⟨['a'], ['b', '\n'], rfl, by decide +kernel⟩))⟩

/-! ## Disagreements -/

/-- **C71**, disagreement.  A CRLF file whose first line is longer than 4000 bytes is taken for a file
with LF line ends: loading and saving it changes it. -/
theorem C71_late_newline (cmp : Scoring) (n : Nat) (hn : 4000 ≤ n) :
    ∃ text f', loadTextAutodetect cmp atEnd
        (exportText ⟨.utf8, .crlf, false⟩ (utf8 (List.replicate n 'a' ++ ['\n']))) = some (text, f') ∧
      exportText f' text ≠ exportText ⟨.utf8, .crlf, false⟩ (utf8 (List.replicate n 'a' ++ ['\n'])) := by
  have hrec : Recognised cmp ⟨.utf8, .crlf, false⟩ (List.replicate n 'a' ++ ['\n']) := by
    refine .inr (.inl ⟨rfl, rfl, ?_, ?_⟩)
    · intro c hc
      simp only [List.mem_append, List.mem_replicate, List.mem_cons, List.not_mem_nil,
        or_false] at hc
      rcases hc with ⟨_, rfl⟩ | rfl <;> unfold Control <;> decide
    · obtain ⟨m, rfl⟩ : ∃ m, n = m + 1 := ⟨n - 1, by omega⟩
      rw [List.replicate_succ]
      show ¬ _ = _
      have : ∀ l, unix ('a' :: l) = 'a' :: unix l := by intro l; rfl
      rw [List.cons_append, this]
      simp only [List.head?_cons, Option.some.injEq]
      decide
  obtain ⟨text, f', h1, h2⟩ := C71_resave cmp _ _ hrec
  refine ⟨text, f', h1, ?_⟩
  rw [Ne, h2]
  rintro (h | h | ⟨pre, post, e, hl⟩)
  · cases h
  · exact h (by simp)
  · have hle : n ≤ pre.length := by
      refine Classical.byContradiction fun hlt => ?_
      have hg : (List.replicate n 'a' ++ ['\n'])[pre.length]? = some '\n' := by rw [e]; simp
      rw [List.getElem?_append_left (by simp; omega)] at hg
      rw [List.getElem?_replicate] at hg
      rw [if_pos (by omega)] at hg
      exact absurd hg (by decide)
    have hp : ∀ c ∈ pre.take n, c = 'a' := by
      have : pre.take n = List.replicate n 'a' := by
        have := congrArg (List.take n) e
        rw [List.take_left' (by simp), List.take_append_of_le_length hle] at this
        exact this.symm
      rw [this]
      intro c hc
      exact (List.mem_replicate.mp hc).2
    rw [export_eq (by decide)] at hl
    change (((filePoints ⟨.utf8, .crlf, false⟩ (pre ++ ['\n'])).flatMap (encF .utf8)).length ≤ _) at hl
    have hsub : n + 1 ≤ ((filePoints ⟨.utf8, .crlf, false⟩ (pre ++ ['\n'])).flatMap
        (encF .utf8)).length := by
      have hall : ∀ l : List Nat, (∀ p ∈ l, IsScalar p) → l.length ≤ (l.flatMap (encF .utf8)).length := by
        intro l hs
        induction l with
        | nil => simp
        | cons p l ih =>
          have := ih (fun q h => hs q (by simp [h]))
          have := (dec_enc (e := .utf8) (by decide) (hs p (by simp)) []).2
          simp only [List.flatMap_cons, List.length_append, List.length_cons]; omega
      refine Nat.le_trans ?_ (hall _ (filePoints_scalar _ _))
      have hdec : pre = List.replicate n 'a' ++ pre.drop n := by
        conv => lhs; rw [← List.take_append_drop n pre]
        congr 1
        exact List.eq_replicate_iff.mpr ⟨by simp; omega, hp⟩
      have hrep : ∀ m, nlP true ((List.replicate m 'a').map Char.toNat) = List.replicate m 97 := by
        intro m
        induction m with
        | zero => rfl
        | succ m ih =>
          rw [List.replicate_succ, List.map_cons, nlP_cons, ih]
          rfl
      show n + 1 ≤ (nlP true ((pre ++ ['\n']).map Char.toNat)).length
      rw [hdec]
      simp only [List.map_append, nlP_append, List.length_append, hrep, List.length_replicate]
      have : (nlP true (List.map Char.toNat ['\n'])).length = 2 := rfl
      omega
    omega

/-- **C71**, disagreement.  The `Bytes` format is not converted when writing but is converted when
reading: text beyond ASCII does not survive. -/
theorem C71_bytes_not_converted :
    importText atEnd ⟨.bytes, .lf, false⟩ (exportText ⟨.bytes, .lf, false⟩ (utf8 ['é'])) =
      some (utf8 ['Ã', '©']) := by cases atEnd <;> decide +kernel

/-- **C71**, disagreement.  Importing in the `Bytes` format with a byte order mark always fails an
assertion. -/
theorem C71_bytes_mark (nl : NewLine) (data : List Byte) :
    importText atEnd ⟨.bytes, nl, true⟩ data = none := by
  cases data <;> rfl

example : importText true ⟨.bytes, .lf, false⟩ [0x61, 0xe9] = some (utf8 ['a', 'é']) := by decide +kernel

/-- **C71**, disagreement.  A UTF-8 text that begins with U+FEFF, saved without a byte order mark,
loses that character when it is loaded without telling the format. -/
theorem C71_mark_lost (cmp : Scoring) (newLine : NewLine) (cs : List Char) :
    ∃ nl, loadTextAutodetect cmp atEnd (exportText ⟨.utf8, newLine, false⟩ (utf8 (mark :: cs))) =
      some (utf8 (unix cs), ⟨.utf8, nl, true⟩) := by
  have : exportText ⟨.utf8, newLine, false⟩ (utf8 (mark :: cs)) =
      exportText ⟨.utf8, newLine, true⟩ (utf8 cs) := by
    rw [export_eq (f := ⟨.utf8, newLine, false⟩) Enc.noConfusion,
      export_eq (f := ⟨.utf8, newLine, true⟩) Enc.noConfusion]
    unfold filePoints
    dsimp only
    rw [List.map_cons, nlP_cons]
    rfl
  rw [this]
  obtain ⟨nl, h, _⟩ := C71_load_saved cmp ⟨.utf8, newLine, true⟩ cs
    (.inl ⟨rfl, Enc.noConfusion⟩)
  exact ⟨nl, h⟩

example : loadTextAutodetect exactScoring true (utf8 [mark, 'a']) = some (utf8 ['a'], ⟨.utf8, .lf, true⟩) := by
  decide +kernel

/-- **C71**, disagreement.  Scanning stops at the first byte that cannot start a UTF-8 character: a
file that begins with such a byte (and not with a byte order mark) counts as empty, and so as UTF-8
with LF line ends, whatever else is in it. -/
theorem C71_stray_hides (cmp : Scoring) (a : Byte) (h : announced a = none) (rest : List Byte)
    (hb : bomOf (a :: rest) = none) :
    autodetect cmp (a :: rest) = some ⟨.utf8, .lf, false⟩ := by
  unfold autodetect
  rw [hb]
  dsimp only
  unfold guessFileEncoding scanTextFile
  rw [scanLoop.eq_def]
  dsimp only
  have ht : (utf8E.dec (a :: rest)).status = .truncated := C02_stray_reports_truncated a h rest
  rw [if_neg (by decide), if_pos ht]
  rfl

example : announced 0xa9 = none ∧ bomOf [0xa9, 0x32, 13, 10, 0x33, 13, 10] = none ∧
    autodetect exactScoring [0xa9, 0x32, 13, 10, 0x33, 13, 10] = some ⟨.utf8, .lf, false⟩ := by
  decide +kernel

/-- **C71**, disagreement.  A short ASCII text with an escape character is taken for UTF-16, and two
other characters are loaded in place of its four. -/
theorem C71_escape_misread (cmp : Scoring) (hf : Faithful cmp) :
    loadTextAutodetect cmp atEnd [0x1b, 0x5b, 0x30, 0x6d] =
      some (utf8 [Char.ofNat 0x5b1b, Char.ofNat 0x6d30], ⟨.utf16le, .lf, false⟩) := by
  have e8 : scanTextFile utf8E [0x1b, 0x5b, 0x30, 0x6d] =
      some ({ numPoints := 4, numValidPoints := 4, numControl := 1, numPlainAscii := 3, denom := 4 }, 4) := by
    decide +kernel
  have e1 : scanTextFile (utf16E false) [0x1b, 0x5b, 0x30, 0x6d] =
      some ({ numPoints := 2, numValidPoints := 2, denom := 2 }, 4) := by decide +kernel
  have e2 : scanTextFile (utf16E true) [0x1b, 0x5b, 0x30, 0x6d] =
      some ({ numPoints := 2, numValidPoints := 2, denom := 2 }, 4) := by decide +kernel
  have hd : autodetect cmp [0x1b, 0x5b, 0x30, 0x6d] = some ⟨.utf16le, .lf, false⟩ := by
    unfold autodetect
    rw [show bomOf [0x1b, 0x5b, 0x30, 0x6d] = none from by decide]
    dsimp only
    unfold guessFileEncoding
    rw [e8]
    dsimp only
    rw [if_neg (by decide), if_neg (by decide)]
    unfold guess16
    rw [e1, e2]
    dsimp only
    have : ∀ u : Stats, u.denom = 4 → sum2 u = -94 →
        cmp.ge u { numPoints := 2, numValidPoints := 2, denom := 2 } = false := by
      intro u h1 h2
      refine (hf.ge _ _ ⟨by decide, by omega, ?_⟩).2
      rw [h1, h2]
      decide
    unfold choose
    rw [hf.irrefl]
    cases cmp.tooMany _ _
    · simp only [Bool.false_eq_true, if_false]
      rw [this _ rfl (by decide)]; rfl
    · simp only [Bool.false_eq_true, if_false, if_true]
      rw [this _ rfl (by decide)]; rfl
  unfold loadTextAutodetect
  rw [hd]
  cases atEnd <;> decide +kernel

example : loadTextAutodetect exactScoring true [0x1b, 0x5b, 0x30, 0x6d] =
    some (utf8 ['嬛', '洰'], ⟨.utf16le, .lf, false⟩) := by decide +kernel

end Verif.TFmt
