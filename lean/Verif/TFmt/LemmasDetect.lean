import Verif.TFmt.Lemmas
/-!
# Text formats — helper lemmas about detection
-/
namespace Verif.TFmt
open Verif Verif.Enc Verif.TConv TFmt.Spec

theorem seen_prefix (E : Nat → List Byte) (m : Nat) : ∀ (ps : List Nat) (n : Nat),
    seen E m n ps <+: ps := by
  intro ps
  induction ps with
  | nil => intro n; exact List.prefix_refl _
  | cons p ps ih =>
    intro n
    unfold seen
    split
    · exact List.nil_prefix
    · exact (List.cons_prefix_cons).mpr ⟨rfl, ih _⟩

theorem mem_seen (E : Nat → List Byte) (m q : Nat) : ∀ (ps : List Nat) (n : Nat),
    (q ∈ seen E m n ps ↔ ∃ a b, ps = a ++ q :: b ∧ n + (a.flatMap E).length < m) := by
  intro ps
  induction ps with
  | nil =>
    intro n
    simp [seen]
  | cons p ps ih =>
    intro n
    unfold seen
    constructor
    · intro h
      split at h
      · simp at h
      · rename_i hm
        simp only [List.mem_cons] at h
        rcases h with h | h
        · exact ⟨[], ps, by simp [h], by simp; omega⟩
        · obtain ⟨a, b, e, hl⟩ := (ih _).mp h
          refine ⟨p :: a, b, by simp [e], ?_⟩
          simp only [List.flatMap_cons, List.length_append]; omega
    · rintro ⟨a, b, e, hl⟩
      have hm : ¬ m ≤ n := by omega
      rw [if_neg hm]
      cases a with
      | nil =>
        simp only [List.nil_append, List.cons.injEq] at e
        simp [e.1]
      | cons x a =>
        simp only [List.cons_append, List.cons.injEq] at e
        simp only [List.flatMap_cons, List.length_append] at hl
        rw [← e.1] at hl
        exact List.mem_cons_of_mem _ ((ih _).mpr ⟨a, b, e.2, by omega⟩)

theorem pairs_crlf : ∀ (ps pre : List Nat) (cr : Bool), pre <+: nlP true ps →
    pairsN cr pre = pre.countP (· = 10) := by
  intro ps
  induction ps with
  | nil =>
    intro pre cr h
    simp only [nlP, List.filter_nil, List.flatMap_nil, List.prefix_nil] at h
    subst h; rfl
  | cons p ps ih =>
    intro pre cr h
    rw [nlP_cons] at h
    by_cases h13 : p = 13
    · rw [if_pos h13, List.nil_append] at h
      exact ih pre cr h
    · rw [if_neg h13] at h
      by_cases h10 : p = 10
      · rw [if_pos ⟨h10, rfl⟩] at h
        cases pre with
        | nil => rfl
        | cons x pre =>
          simp only [List.cons_append, List.nil_append, List.cons_prefix_cons] at h
          obtain ⟨rfl, h⟩ := h
          cases pre with
          | nil => rfl
          | cons y pre =>
            simp only [List.cons_prefix_cons] at h
            obtain ⟨rfl, h⟩ := h
            have := ih pre false h
            simp [pairsN, this]
            omega
      · rw [if_neg (by simp [h10])] at h
        cases pre with
        | nil => rfl
        | cons x pre =>
          simp only [List.cons_append, List.nil_append, List.cons_prefix_cons] at h
          obtain ⟨rfl, h⟩ := h
          have := ih pre (decide (x = 13)) h
          simp [pairsN, this, h10]

theorem pairs_lf : ∀ (pre : List Nat) (cr : Bool), (∀ p ∈ pre, p ≠ 13) → cr = false →
    pairsN cr pre = 0 := by
  intro pre
  induction pre with
  | nil => intro _ _ _; rfl
  | cons p pre ih =>
    intro cr h hcr
    unfold pairsN
    rw [ih _ (fun q hq => h q (by simp [hq])) (by simp [h p (by simp)]), hcr]
    simp

theorem nlP_true_split : ∀ (ps a b : List Nat), nlP true ps = a ++ 10 :: b →
    ∃ pre post, ps = pre ++ 10 :: post ∧ a = nlP true pre ++ [13] := by
  intro ps
  induction ps with
  | nil => intro a b h; simp [nlP] at h
  | cons p ps ih =>
    intro a b h
    rw [nlP_cons] at h
    by_cases h13 : p = 13
    · rw [if_pos h13, List.nil_append] at h
      obtain ⟨pre, post, e, ea⟩ := ih a b h
      exact ⟨p :: pre, post, by simp [e], by rw [nlP_cons, if_pos h13]; simpa using ea⟩
    · rw [if_neg h13] at h
      by_cases h10 : p = 10
      · rw [if_pos ⟨h10, rfl⟩] at h
        cases a with
        | nil => simp at h
        | cons x a =>
          simp only [List.cons_append, List.nil_append, List.cons.injEq] at h
          obtain ⟨rfl, h⟩ := h
          cases a with
          | nil => exact ⟨[], ps, by simp [h10], by simp [nlP]⟩
          | cons y a =>
            simp only [List.cons_append, List.cons.injEq] at h
            obtain ⟨rfl, h⟩ := h
            obtain ⟨pre, post, e, ea⟩ := ih a b h
            refine ⟨p :: pre, post, by simp [e], ?_⟩
            rw [nlP_cons, if_neg h13, if_pos ⟨h10, rfl⟩, ea]
            rfl
      · rw [if_neg (by simp [h10])] at h
        cases a with
        | nil =>
          simp only [List.cons_append, List.nil_append, List.cons.injEq] at h
          exact absurd h.1 h10
        | cons x a =>
          simp only [List.cons_append, List.nil_append, List.cons.injEq] at h
          obtain ⟨rfl, h⟩ := h
          obtain ⟨pre, post, e, ea⟩ := ih a b h
          refine ⟨p :: pre, post, by simp [e], ?_⟩
          rw [nlP_cons, if_neg h13, if_neg (by simp [h10]), ea]
          rfl

theorem nlP_append (crlf : Bool) (a b : List Nat) : nlP crlf (a ++ b) = nlP crlf a ++ nlP crlf b := by
  simp [nlP]

theorem even_len16 (be : Bool) (p : Nat) : ((encodeUTF16 be 4 p).getD []).length % 2 = 0 := by
  unfold encodeUTF16
  split
  · rw [if_pos (by omega)]; simp [putUnit_length]
  · rw [if_pos (by omega)]; simp [putUnit_length]

theorem len_10 {e : Enc} (he : e ≠ .bytes) :
    (e = .utf8 ∧ (encF e 10).length = 1) ∨
    ((encF e 10).length = 2 ∧ ∀ ps : List Nat, (ps.flatMap (encF e)).length % 2 = 0) := by
  have key : ∀ e, (∀ p, (encF e p).length % 2 = 0) →
      ∀ ps : List Nat, (ps.flatMap (encF e)).length % 2 = 0 := by
    intro e h ps
    induction ps with
    | nil => rfl
    | cons p ps ih =>
      have := h p
      simp only [List.flatMap_cons, List.length_append]; omega
  cases e with
  | bytes => exact absurd rfl he
  | utf8 => exact .inl ⟨rfl, by decide +kernel⟩
  | utf16be => exact .inr ⟨by decide +kernel, key _ (fun p => even_len16 true p)⟩
  | utf16le => exact .inr ⟨by decide +kernel, key _ (fun p => even_len16 false p)⟩

/-- A line feed is seen in an exported CRLF file exactly if a line ends early. -/
theorem seen_newline {f : Format} (he : f.encoding ≠ .bytes) (hc : f.newLine = .crlf)
    (cs : List Char) :
    10 ∈ seen (encF f.encoding) 4000 0 (filePoints f cs) ↔ EarlyLine f cs := by
  have hfp : ∀ cs, filePoints f cs =
      (if f.bom then [0xFEFF] else []) ++ nlP true (cs.map Char.toNat) := by
    intro cs; simp [filePoints, hc]
  have hexp : ∀ pre : List Char, (exportText f (utf8 (pre ++ ['\n']))).length =
      (((if f.bom then [0xFEFF] else []) ++ (nlP true (pre.map Char.toNat) ++ [13])).flatMap
        (encF f.encoding)).length + (encF f.encoding 10).length := by
    intro pre
    rw [export_eq he, hfp, List.map_append, nlP_append,
      show nlP true (List.map Char.toNat ['\n']) = [13] ++ [10] from rfl]
    simp only [List.flatMap_append, List.length_append, List.flatMap_cons, List.flatMap_nil,
      List.append_nil]
    omega
  have harith : ∀ l : List Nat, 0 + (l.flatMap (encF f.encoding)).length < 4000 ↔
      (l.flatMap (encF f.encoding)).length + (encF f.encoding 10).length ≤ 4000 := by
    intro l
    rcases len_10 he with ⟨_, h⟩ | ⟨h, h2⟩
    · rw [h]; omega
    · rw [h]; have := h2 l; omega
  rw [mem_seen]
  constructor
  · rintro ⟨a, b, e, hl⟩
    rw [hfp] at e
    obtain ⟨a', ha, hb⟩ : ∃ a', a = (if f.bom then [0xFEFF] else []) ++ a' ∧
        nlP true (cs.map Char.toNat) = a' ++ 10 :: b := by
      cases hbom : f.bom with
      | false => simp only [hbom] at e ⊢; exact ⟨a, by simp, by simpa using e⟩
      | true =>
        simp only [hbom, if_true, List.cons_append, List.nil_append] at e
        cases a with
        | nil =>
          simp only [List.nil_append, List.cons.injEq] at e
          exact absurd e.1 (by decide)
        | cons x a =>
          simp only [List.cons_append, List.cons.injEq] at e
          exact ⟨a, by simp [e.1], e.2⟩
    obtain ⟨pre, post, e1, e2⟩ := nlP_true_split _ _ _ hb
    obtain ⟨pre', r, ecs, e3, e4⟩ := List.map_eq_append_iff.mp e1
    obtain ⟨c, post', er, e5, _⟩ := List.map_eq_cons_iff.mp e4
    have hcn : c = '\n' := toNat_inj e5
    refine ⟨pre', post', by rw [ecs, er, hcn], ?_⟩
    rw [hexp, ← harith, e3, ← e2, ← ha]
    exact hl
  · rintro ⟨pre, post, e, hl⟩
    rw [hexp, ← harith] at hl
    refine ⟨_, nlP true (post.map Char.toNat), ?_, hl⟩
    rw [hfp, e, List.map_append, nlP_append, List.map_cons, nlP_cons]
    simp

theorem newLine_iff {s : Stats} (h : s.numCRLF ≤ s.numLines) :
    ∃ nl, s.getNewLineType = some nl ∧ (nl = .crlf ↔ 0 < s.numCRLF ∧ s.numLines ≤ 2 * s.numCRLF) := by
  unfold Stats.getNewLineType
  rw [if_neg (by omega)]
  by_cases h0 : s.numCRLF = 0 ∨ s.numCRLF * 2 < s.numLines
  · rw [if_pos h0]; exact ⟨_, rfl, by simp; omega⟩
  · rw [if_neg h0]; exact ⟨_, rfl, by simp; omega⟩

theorem Tallied.crlf_le {t : Stats} {cr : Bool} {ps : List Nat} (h : Tallied {} t cr ps) :
    t.numCRLF ≤ t.numLines := by
  rw [h.crlf, h.lines]
  have := pairsN_le ps cr
  simpa using this

/-- The newline type found by scanning an exported file. -/
theorem newLine_export {f : Format} (he : f.encoding ≠ .bytes) (cs : List Char) {t : Stats}
    (ht : Tallied {} t false (seen (encF f.encoding) 4000 0 (filePoints f cs))) :
    ∃ nl, t.getNewLineType = some nl ∧ (nl = .crlf ↔ f.newLine = .crlf ∧ EarlyLine f cs) := by
  obtain ⟨nl, h1, h2⟩ := newLine_iff ht.crlf_le
  refine ⟨nl, h1, ?_⟩
  rw [h2, ht.crlf, ht.lines]
  have hpre := seen_prefix (encF f.encoding) 4000 (filePoints f cs) 0
  cases hn : f.newLine with
  | lf =>
    rw [pairs_lf _ _ _ rfl]
    · simp
    · intro p hp
      have := hpre.subset hp
      unfold filePoints at this
      rw [List.mem_append] at this
      rcases this with h | h
      · split at h
        · simp at h; omega
        · simp at h
      · simp only [hn] at h
        rw [show decide (NewLine.lf = NewLine.crlf) = false from rfl, nlP_false] at h
        simp only [List.mem_filter] at h
        simpa using h.2
  | crlf =>
    have heq : pairsN false (seen (encF f.encoding) 4000 0 (filePoints f cs)) =
        (seen (encF f.encoding) 4000 0 (filePoints f cs)).countP (· = 10) := by
      generalize seen (encF f.encoding) 4000 0 (filePoints f cs) = l at hpre
      unfold filePoints at hpre
      rw [hn] at hpre
      simp only [decide_true] at hpre
      cases hb : f.bom with
      | false =>
        simp only [hb] at hpre
        exact pairs_crlf _ _ _ (by simpa using hpre)
      | true =>
        simp only [hb, if_true, List.cons_append, List.nil_append] at hpre
        cases l with
        | nil => rfl
        | cons x l =>
          simp only [List.cons_prefix_cons] at hpre
          obtain ⟨rfl, hpre⟩ := hpre
          have := pairs_crlf _ _ (decide (65279 = 13)) hpre
          simp only [pairsN, List.countP_cons]
          rw [this]
          simp
    rw [heq, ← seen_newline he hn]
    have : (10 ∈ seen (encF f.encoding) 4000 0 (filePoints f cs)) ↔
        0 < (seen (encF f.encoding) 4000 0 (filePoints f cs)).countP (· = 10) := by
      rw [List.countP_pos_iff]
      simp
    rw [this]
    show 0 < 0 + _ ∧ _ ↔ _
    simp
    omega

/-! ## Byte order marks -/

theorem bomOf_bom {e : Enc} (he : e ≠ .bytes) (rest : List Byte) :
    bomOf (encF e 0xFEFF ++ rest) = some e := by
  rw [← bomBytes_eq he]
  cases e with
  | bytes => exact absurd rfl he
  | utf8 => rfl
  | utf16be => rfl
  | utf16le => rfl

theorem bomOf_cases {data : List Byte} {e : Enc} (h : bomOf data = some e) :
    e ≠ .bytes ∧ ∃ t, data = bomBytes e ++ t := by
  have e0 : ∀ (x : Byte) (l : List Byte), x ≠ 0 → readByteAt l 0 = x → ∃ t, l = x :: t := by
    intro x l hx hl
    cases l with
    | nil => simp [readByteAt] at hl; exact absurd hl.symm hx
    | cons a t => simp [readByteAt] at hl; exact ⟨t, by rw [hl]⟩
  have e1 : ∀ (l : List Byte) (a : Byte) (i : Nat), readByteAt (a :: l) (i + 1) = readByteAt l i := by
    intro l a i; simp [readByteAt]
  unfold bomOf at h
  dsimp only at h
  split at h
  · rename_i hh
    split at h
    · rename_i h2
      cases h
      refine ⟨by decide, ?_⟩
      obtain ⟨t, rfl⟩ := e0 _ _ (by decide) hh.1
      rw [e1] at hh h2
      obtain ⟨t, rfl⟩ := e0 _ _ (by decide) hh.2
      rw [e1] at h2
      obtain ⟨t, rfl⟩ := e0 _ _ (by decide) h2
      exact ⟨t, rfl⟩
    · cases h
  · split at h
    · rename_i hh
      cases h
      refine ⟨by decide, ?_⟩
      obtain ⟨t, rfl⟩ := e0 _ _ (by decide) hh.1
      rw [e1] at hh
      obtain ⟨t, rfl⟩ := e0 _ _ (by decide) hh.2
      exact ⟨t, rfl⟩
    · split at h
      · rename_i hh
        cases h
        refine ⟨by decide, ?_⟩
        obtain ⟨t, rfl⟩ := e0 _ _ (by decide) hh.1
        rw [e1] at hh
        obtain ⟨t, rfl⟩ := e0 _ _ (by decide) hh.2
        exact ⟨t, rfl⟩
      · cases h

/-- UTF-8 text that does not start with U+FEFF has no byte order mark. -/
theorem bomOf_utf8 (ps : List Nat) (hps : ∀ p ∈ ps, IsScalar p) (hh : ps.head? ≠ some 0xFEFF) :
    bomOf (ps.flatMap (encF .utf8)) = none := by
  cases hb : bomOf (ps.flatMap (encF .utf8)) with
  | none => rfl
  | some e =>
    exfalso
    obtain ⟨he, t, ht⟩ := bomOf_cases hb
    cases ps with
    | nil =>
      cases e <;> simp [bomBytes] at ht
      exact he rfl
    | cons p ps =>
      have hd := (dec_enc (e := .utf8) (by decide) (hps p (by simp)) (ps.flatMap (encF .utf8))).1
      rw [← List.flatMap_cons, ht] at hd
      cases e with
      | bytes => exact he rfl
      | utf8 =>
        rw [bomBytes_eq he] at hd
        rw [(dec_enc (e := .utf8) (by decide) (by decide) t).1] at hd
        have : (0xFEFF : Int) = p := (DecodeResult.mk.inj hd).1
        exact hh (by simp; omega)
      | utf16be =>
        have : ((encodingFromEnum .utf8).dec (bomBytes .utf16be ++ t)).status = .truncated := rfl
        rw [hd] at this
        cases this
      | utf16le =>
        have : ((encodingFromEnum .utf8).dec (bomBytes .utf16le ++ t)).status = .truncated := rfl
        rw [hd] at this
        cases this

/-! ## Every file -/

theorem tally_inv (s : Stats) (d : DecodeResult) (cr : Bool) (h : s.numCRLF ≤ s.numLines) :
    (tally s d cr).numCRLF ≤ (tally s d cr).numLines := by
  unfold tally
  dsimp only
  split
  · have := tallyValid_spec s d.point.toNat cr
    rw [this.crlf, this.lines]
    have := pairsN_le [d.point.toNat] cr
    omega
  · exact h

theorem scanLoop_total {dec : List Byte → DecodeResult} (hg : TConv.Spec.GoodDec dec)
    (maxBytes : Nat) : ∀ fuel n cr s (data : List Byte), data.length ≤ fuel →
      s.numCRLF ≤ s.numLines →
      ∃ t m, scanLoop dec maxBytes fuel n cr s data = some (t, m) ∧ t.numCRLF ≤ t.numLines := by
  intro fuel
  induction fuel with
  | zero =>
    intro n cr s data hl hs
    have : data = [] := List.length_eq_zero_iff.mp (by omega)
    subst this
    rw [scanLoop.eq_def]
    dsimp only
    split
    · exact ⟨_, _, rfl, hs⟩
    · rw [if_pos (hg.nopoint [] hg.nil).2]
      exact ⟨_, _, rfl, hs⟩
  | succ fuel ih =>
    intro n cr s data hl hs
    rw [scanLoop.eq_def]
    dsimp only
    split
    · exact ⟨_, _, rfl, hs⟩
    · split
      · exact ⟨_, _, rfl, hs⟩
      · rename_i ht
        have hp : 0 ≤ (dec data).point := by
          refine Classical.byContradiction fun hn => ht ?_
          exact (hg.nopoint data (by omega)).2
        have hsz := hg.size data hp
        rw [if_neg (by omega)]
        exact ih _ _ _ _ (by simp; omega) (tally_inv _ _ _ hs)

theorem scan_total (e : Enc) (data : List Byte) :
    ∃ t m, scanTextFile (encodingFromEnum e) data = some (t, m) ∧ t.numCRLF ≤ t.numLines := by
  obtain ⟨t, m, h, hi⟩ := scanLoop_total (good_of e) numBytesForAutodetect data.length 0 false {} data
    (Nat.le_refl _) (Nat.le_refl _)
  unfold scanTextFile
  rw [h]
  exact ⟨_, _, rfl, hi⟩

theorem newLine_total {s : Stats} (h : s.numCRLF ≤ s.numLines) : ∃ nl, s.getNewLineType = some nl :=
  let ⟨nl, h1, _⟩ := newLine_iff h
  ⟨nl, h1⟩

theorem choose_total (cmp : Scoring) (e8 : Enc) (s8 le be : Stats) (h8 : s8.numCRLF ≤ s8.numLines)
    (hl : le.numCRLF ≤ le.numLines) (hb : be.numCRLF ≤ be.numLines) :
    ∃ f, choose cmp e8 s8 le be = some f ∧ f.bom = false := by
  obtain ⟨n1, h1⟩ := newLine_total h8
  obtain ⟨n2, h2⟩ := newLine_total hl
  obtain ⟨n3, h3⟩ := newLine_total hb
  unfold choose
  cases cmp.gt be le <;> dsimp only
  · cases hh : cmp.ge s8 le
    · exact ⟨⟨.utf16le, n2, false⟩, by simp [hh, h2], rfl⟩
    · exact ⟨⟨e8, n1, false⟩, by simp [hh, h1], rfl⟩
  · cases hh : cmp.ge s8 be
    · exact ⟨⟨.utf16be, n3, false⟩, by simp [hh, h3], rfl⟩
    · exact ⟨⟨e8, n1, false⟩, by simp [hh, h1], rfl⟩

theorem guess_total (cmp : Scoring) (data : List Byte) :
    ∃ f, guessFileEncoding cmp data = some f ∧ f.bom = false := by
  obtain ⟨t, m, h, hi⟩ := scan_total .utf8 data
  obtain ⟨t1, m1, h1, hi1⟩ := scan_total .utf16le data
  obtain ⟨t2, m2, h2, hi2⟩ := scan_total .utf16be data
  have h : scanTextFile utf8E data = some (t, m) := h
  have h1 : scanTextFile (utf16E false) data = some (t1, m1) := h1
  have h2 : scanTextFile (utf16E true) data = some (t2, m2) := h2
  unfold guessFileEncoding
  rw [h]
  dsimp only
  split
  · exact ⟨_, rfl, rfl⟩
  · split
    · obtain ⟨nl, hn⟩ := newLine_total hi
      rw [hn]
      exact ⟨_, rfl, rfl⟩
    · unfold guess16
      rw [h1, h2]
      dsimp only
      apply choose_total
      · split
        · exact hi
        · exact hi
      · exact hi1
      · exact hi2

end Verif.TFmt
