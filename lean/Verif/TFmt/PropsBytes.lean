import Verif.TFmt.PropsLoad
/-!
# C71: texts that are not UTF-8
-/
namespace Verif.TFmt
open Verif Verif.Enc Verif.TConv TFmt.Spec

/-- A plain byte of text: printable ASCII, tab, line feed or carriage return. -/
def PlainByte (b : Byte) : Prop := (32 ≤ b.toNat ∧ b.toNat < 127) ∨ b = 9 ∨ b = 10 ∨ b = 13

/-- A text with one byte per character, as in Latin-1, where every byte that is not plain is one of 0xC0 to
0xF7 (most of the letters with accents) and followed by an ASCII byte and at least two bytes more. -/
inductive Latin : List Byte → Prop where
  | nil : Latin []
  | plain {b : Byte} {l : List Byte} : PlainByte b → Latin l → Latin (b :: l)
  | letter {b a c d : Byte} {l : List Byte} : 0xC0 ≤ b.toNat → b.toNat < 0xF8 → a.toNat < 128 →
      Latin (a :: c :: d :: l) → Latin (b :: a :: c :: d :: l)

theorem decode_plain {b : Byte} (h : PlainByte b) (l : List Byte) :
    decodeUTF8 (b :: l) = ⟨b.toNat, .valid, 1⟩ := by
  unfold decodeUTF8
  dsimp only
  rw [if_pos]
  rcases h with h | rfl | rfl | rfl
  · omega
  · decide
  · decide
  · decide

theorem decode_letter {b a c d : Byte} {l : List Byte} (h1 : 0xC0 ≤ b.toNat) (h2 : b.toNat < 0xF8)
    (ha : a.toNat < 128) : decodeUTF8 (b :: a :: c :: d :: l) = ⟨b.toNat, .invalid, 1⟩ := by
  have hsel : ∀ b : Byte, 0xC0 ≤ b.toNat → b.toNat < 0xF8 →
      ((b.toNat >>> 3) &&& 0xf = 8 ∨ (b.toNat >>> 3) &&& 0xf = 9 ∨ (b.toNat >>> 3) &&& 0xf = 10 ∨
        (b.toNat >>> 3) &&& 0xf = 11) ∨
      ((b.toNat >>> 3) &&& 0xf = 12 ∨ (b.toNat >>> 3) &&& 0xf = 13) ∨ (b.toNat >>> 3) &&& 0xf = 14 := by
    apply forall_byte; decide +kernel
  have hc : ∀ a : Byte, a.toNat < 128 → isCont a = false := by apply forall_byte; decide +kernel
  have hb : bad b .invalid = ⟨b.toNat, .invalid, 1⟩ := rfl
  unfold decodeUTF8
  dsimp only
  rw [if_neg (by omega)]
  unfold decodeUTF8Slow
  dsimp only
  rw [hc a ha]
  simp only [Bool.false_and, Bool.false_eq_true, if_false]
  rw [hb]
  rcases hsel b h1 h2 with h | h | h
  · rw [if_pos h]
  · rw [if_neg (by omega), if_pos h]
  · rw [if_neg (by omega), if_neg (by omega), if_pos h]

/-- What scanning such a text counts. -/
theorem scan_latin : ∀ (fuel n : Nat) (cr : Bool) (s : Stats) (data : List Byte), Latin data →
    data.length ≤ fuel → s.numControl = 0 → s.numPoints = s.numValidPoints + s.numInvalidPoints →
    n = s.numPlainAscii + s.numInvalidPoints →
    ∃ t m, scanLoop decodeUTF8 4000 fuel n cr s data = some (t, m) ∧ t.numControl = 0 ∧
      t.numPoints = t.numValidPoints + t.numInvalidPoints ∧
      m = t.numPlainAscii + t.numInvalidPoints ∧
      t.numInvalidPoints = s.numInvalidPoints +
        ((data.take (4000 - n)).countP fun b => decide (0xC0 ≤ b.toNat)) := by
  intro fuel
  induction fuel with
  | zero =>
    intro n cr s data _ hf hc hp hn
    have : data = [] := List.length_eq_zero_iff.mp (by omega)
    subst this
    refine ⟨s, n, ?_, hc, hp, hn, by simp⟩
    unfold scanLoop
    split
    · rfl
    · rfl
  | succ fuel ih =>
    intro n cr s data hl hf hc hp hn
    unfold scanLoop
    by_cases hmax : 4000 ≤ n
    · rw [if_pos hmax]
      exact ⟨s, n, rfl, hc, hp, hn, by rw [Nat.sub_eq_zero_of_le hmax]; simp⟩
    rw [if_neg hmax]
    have htake : 4000 - n = (4000 - (n + 1)) + 1 := by omega
    unfold Stats.numInvalidPoints at hp hn ih ⊢
    cases hl with
    | nil => exact ⟨s, n, rfl, hc, hp, hn, by simp⟩
    | @plain b l hb hl =>
      simp only [List.length_cons] at hf
      dsimp only
      rw [decode_plain hb l]
      dsimp only
      rw [if_neg (by decide), if_neg (by omega)]
      have hd : ∀ b : Byte, PlainByte b → b.toNat < 127 ∧
          (b.toNat < 32 → b.toNat = 10 ∨ b.toNat = 9 ∨ b.toNat = 13) := by
        intro b hb
        rcases hb with h | rfl | rfl | rfl
        · exact ⟨h.2, fun h' => by omega⟩
        · exact ⟨by decide, fun _ => by decide⟩
        · exact ⟨by decide, fun _ => by decide⟩
        · exact ⟨by decide, fun _ => by decide⟩
      obtain ⟨hd1, hd2⟩ := hd b hb
      have ht : ∀ cr, (tally s ⟨b.toNat, .valid, 1⟩ cr).numControl = s.numControl ∧
          (tally s ⟨b.toNat, .valid, 1⟩ cr).numPoints = s.numPoints + 1 ∧
          (tally s ⟨b.toNat, .valid, 1⟩ cr).numValidPoints = s.numValidPoints + 1 ∧
          (tally s ⟨b.toNat, .valid, 1⟩ cr).numPlainAscii = s.numPlainAscii + 1 := by
        intro cr
        unfold tally tallyValid
        simp only [if_true, Int.toNat_natCast]
        by_cases h32 : b.toNat < 32
        · rw [if_pos h32]
          rcases hd2 h32 with h | h | h
          · rw [if_pos h]; exact ⟨rfl, rfl, rfl, rfl⟩
          · rw [if_neg (by omega), if_pos h]; exact ⟨rfl, rfl, rfl, rfl⟩
          · rw [if_neg (by omega), if_neg (by omega), if_pos h]; exact ⟨rfl, rfl, rfl, rfl⟩
        · rw [if_neg h32, if_pos hd1]; exact ⟨rfl, rfl, rfl, rfl⟩
      obtain ⟨t1, t2, t3, t4⟩ := ht cr
      obtain ⟨t, m, h1, h2, h3, h4, h5⟩ := ih (n + 1) (decide ((b.toNat : Int) = 13))
        (tally s ⟨b.toNat, .valid, 1⟩ cr) l hl (by omega) (by rw [t1, hc]) (by rw [t2, t3]; omega)
        (by rw [t2, t3, t4]; omega)
      refine ⟨t, m, h1, h2, h3, h4, ?_⟩
      rw [h5, htake, List.take_succ_cons, List.countP_cons, if_neg (by simp; omega), t2, t3]
      omega
    | @letter b a c d l hb1 hb2 ha hl =>
      simp only [List.length_cons] at hf
      dsimp only
      rw [decode_letter hb1 hb2 ha]
      dsimp only
      rw [if_neg (by decide), if_neg (by omega)]
      have t1 : tally s ⟨b.toNat, .invalid, 1⟩ cr = { s with numPoints := s.numPoints + 1 } := rfl
      rw [t1]
      obtain ⟨t, m, h1, h2, h3, h4, h5⟩ := ih (n + 1) (decide ((b.toNat : Int) = 13))
        { s with numPoints := s.numPoints + 1 } (a :: c :: d :: l) hl
        (by simp only [List.length_cons]; omega) hc (by dsimp only; omega) (by dsimp only; omega)
      refine ⟨t, m, h1, h2, h3, h4, ?_⟩
      rw [h5, htake, List.take_succ_cons, List.countP_cons, if_pos (by simp; omega)]
      dsimp only
      omega

theorem choose_bytes {cmp : Scoring} {s8 le be : Stats} {f : Format}
    (h : choose cmp .bytes s8 le be = some f) : f.encoding ≠ .utf8 := by
  have key : ∀ (s : Stats) (e : Enc), e ≠ .utf8 →
      (match s.getNewLineType with
        | none => none
        | some nl => some (⟨e, nl, false⟩ : Format)) = some f → f.encoding ≠ .utf8 := by
    intro s e he h
    cases hn : s.getNewLineType with
    | none => rw [hn] at h; cases h
    | some nl => rw [hn] at h; cases h; exact he
  unfold choose at h
  cases hg : cmp.gt be le <;> rw [hg] at h <;> dsimp only at h
  · simp only [Bool.false_eq_true, if_false] at h
    cases hh : cmp.ge s8 le <;> rw [hh] at h
    · exact key le .utf16le (by decide) h
    · exact key s8 .bytes (by decide) h
  · simp only [if_true] at h
    cases hh : cmp.ge s8 be <;> rw [hh] at h
    · exact key be .utf16be (by decide) h
    · exact key s8 .bytes (by decide) h

/-- **C71.** A text with one byte per character, that is plain ASCII but for letters with accents, none
of which are next to each other, and has such a letter among its first 4000 bytes, is never taken for UTF-8,
however scores compare; all that is needed is that `n` is at least a fifth of `n`. -/
theorem C71_detect_latin (cmp : Scoring) (hcmp : ∀ n, cmp.tooMany n n = true) (data : List Byte)
    (hl : Latin data) (hb : ∃ b ∈ data.take 4000, 0xC0 ≤ b.toNat) :
    ∃ f, autodetect cmp data = some f ∧ (f.encoding = .utf8 → f.bom = true) := by
  unfold autodetect
  cases hbom : bomOf data with
  | some e =>
    obtain ⟨t, m, h1, h2⟩ := scan_total e data
    obtain ⟨nl, h3⟩ := newLine_total h2
    dsimp only
    rw [h1]
    dsimp only
    rw [h3]
    exact ⟨_, rfl, fun _ => rfl⟩
  | none =>
    obtain ⟨f, hf, _⟩ := guess_total cmp data
    refine ⟨f, hf, ?_⟩
    intro he
    exfalso
    obtain ⟨t, m, h1, h2, h3, h4, h5⟩ := scan_latin data.length 0 false {} data hl (Nat.le_refl _) rfl rfl rfl
    have hpos : 0 < t.numInvalidPoints := by
      rw [h5]
      have : 0 < (data.take (4000 - 0)).countP (fun b => decide (0xC0 ≤ b.toNat)) := by
        rw [List.countP_pos_iff]
        obtain ⟨b, hb1, hb2⟩ := hb
        exact ⟨b, hb1, by simpa using hb2⟩
      omega
    unfold Stats.numInvalidPoints at h3 h4 hpos
    have hscan : scanTextFile utf8E data = some ({ t with denom := t.numPoints }, m) := by
      unfold scanTextFile
      rw [show utf8E.dec = decodeUTF8 from rfl, show numBytesForAutodetect = 4000 from rfl, h1]
    unfold guessFileEncoding at hf
    rw [hscan] at hf
    dsimp only at hf
    rw [if_neg (by omega), if_neg (by unfold Stats.numInvalidPoints; dsimp only; omega)] at hf
    unfold guess16 at hf
    dsimp only [Stats.numInvalidPoints] at hf
    rw [show m - t.numPlainAscii - t.numControl = t.numPoints - t.numValidPoints by omega, hcmp] at hf
    simp only [if_true] at hf
    cases hle : scanTextFile (utf16E false) data with
    | none => rw [hle] at hf; cases hf
    | some le =>
      cases hbe : scanTextFile (utf16E true) data with
      | none => rw [hle, hbe] at hf; cases hf
      | some be =>
        obtain ⟨le, _⟩ := le
        obtain ⟨be, _⟩ := be
        rw [hle, hbe] at hf
        dsimp only at hf
        exact choose_bytes hf he

example : Latin [0x63, 0x61, 0x66, 0xe9, 0x20, 0x61, 0x75, 10] ∧
    autodetect exactScoring [0x63, 0x61, 0x66, 0xe9, 0x20, 0x61, 0x75, 10] = some ⟨.bytes, .lf, false⟩ := by
  refine ⟨?_, by decide +kernel⟩
  refine .plain (by unfold PlainByte; decide) (.plain (by unfold PlainByte; decide)
    (.plain (by unfold PlainByte; decide) (.letter (by decide) (by decide) (by decide)
    (.plain (by unfold PlainByte; decide) (.plain (by unfold PlainByte; decide)
    (.plain (by unfold PlainByte; decide) (.plain (by unfold PlainByte; decide) .nil)))))))

/-- What scanning gives when a byte that cannot start a sequence follows plain text. -/
theorem scan_stops {b : Byte} (hb : (0x80 ≤ b.toNat ∧ b.toNat < 0xC0) ∨ 0xF8 ≤ b.toNat)
    (rest : List Byte) : ∀ (text : List Byte) (fuel n : Nat) (cr : Bool) (s : Stats),
    (∀ x ∈ text, PlainByte x) → text.length ≤ fuel → s.numControl = 0 →
    s.numPoints = s.numValidPoints → s.numCRLF ≤ s.numLines →
    ∃ t m, scanLoop decodeUTF8 4000 fuel n cr s (text ++ b :: rest) = some (t, m) ∧ t.numControl = 0 ∧
      t.numPoints = t.numValidPoints ∧ t.numCRLF ≤ t.numLines := by
  have hstop : (decodeUTF8 (b :: rest)).status = .truncated := by
    have hsel : ∀ b : Byte, (0x80 ≤ b.toNat ∧ b.toNat < 0xC0) ∨ 0xF8 ≤ b.toNat →
        (b.toNat >>> 3) &&& 0xf < 8 ∨ (b.toNat >>> 3) &&& 0xf = 15 := by
      apply forall_byte; decide +kernel
    have := hsel b hb
    unfold decodeUTF8
    dsimp only
    rw [if_neg (by omega)]
    unfold decodeUTF8Slow
    dsimp only
    rw [if_neg (by omega), if_neg (by omega), if_neg (by omega)]
    rfl
  intro text
  induction text with
  | nil =>
    intro fuel n cr s _ _ hc hp hn
    refine ⟨s, n, ?_, hc, hp, hn⟩
    unfold scanLoop
    split
    · rfl
    · dsimp only
      rw [List.nil_append, if_pos hstop]
  | cons x text ih =>
    intro fuel n cr s hx hf hc hp hn
    simp only [List.length_cons] at hf
    have hpx := hx x List.mem_cons_self
    unfold scanLoop
    split
    · exact ⟨s, n, rfl, hc, hp, hn⟩
    · dsimp only
      rw [List.cons_append, decode_plain hpx]
      dsimp only
      rw [if_neg (by decide), if_neg (by omega)]
      cases fuel with
      | zero => omega
      | succ fuel =>
        dsimp only
        have ht : (tally s ⟨x.toNat, .valid, 1⟩ cr).numControl = 0 ∧
            (tally s ⟨x.toNat, .valid, 1⟩ cr).numPoints =
              (tally s ⟨x.toNat, .valid, 1⟩ cr).numValidPoints := by
          unfold tally tallyValid
          simp only [if_true, Int.toNat_natCast]
          have : x.toNat < 127 ∧ (x.toNat < 32 → x.toNat = 10 ∨ x.toNat = 9 ∨ x.toNat = 13) := by
            rcases hpx with h | rfl | rfl | rfl
            · exact ⟨h.2, fun h' => by omega⟩
            · exact ⟨by decide, fun _ => by decide⟩
            · exact ⟨by decide, fun _ => by decide⟩
            · exact ⟨by decide, fun _ => by decide⟩
          by_cases h32 : x.toNat < 32
          · rw [if_pos h32]
            rcases this.2 h32 with h | h | h
            · rw [if_pos h]; exact ⟨hc, by simp only [hp]⟩
            · rw [if_neg (by omega), if_pos h]; exact ⟨hc, by simp only [hp]⟩
            · rw [if_neg (by omega), if_neg (by omega), if_pos h]; exact ⟨hc, by simp only [hp]⟩
          · rw [if_neg h32, if_pos this.1]; exact ⟨hc, by simp only [hp]⟩
        exact ih fuel _ _ _ (fun y hy => hx y (List.mem_cons_of_mem _ hy)) (by omega) ht.1 ht.2
          (tally_inv _ _ _ hn)

/-- **C71, a disagreement.** Plain ASCII text followed by a byte that no character of UTF-8 starts with
(0x80 to 0xBF, or 0xF8 and up) is taken for UTF-8 whatever follows, since the scan stops there as at the end
of the file: neither the encoding errors nor the zeros in the rest of the file are seen. -/
theorem C71_detect_blind (cmp : Scoring) (text : List Byte) (b : Byte) (rest : List Byte)
    (ht : ∀ x ∈ text, PlainByte x) (hb : (0x80 ≤ b.toNat ∧ b.toNat < 0xC0) ∨ 0xF8 ≤ b.toNat)
    (hno : bomOf (text ++ b :: rest) = none) :
    ∃ nl, autodetect cmp (text ++ b :: rest) = some ⟨.utf8, nl, false⟩ := by
  obtain ⟨t, m, h1, h2, h3, h4⟩ := scan_stops hb rest text (text ++ b :: rest).length 0 false {} ht
    (by simp) rfl rfl (Nat.le_refl _)
  have hscan : scanTextFile utf8E (text ++ b :: rest) = some ({ t with denom := t.numPoints }, m) := by
    unfold scanTextFile
    rw [show utf8E.dec = decodeUTF8 from rfl, show numBytesForAutodetect = 4000 from rfl, h1]
  unfold autodetect
  rw [hno]
  dsimp only
  unfold guessFileEncoding
  rw [hscan]
  dsimp only
  split
  · exact ⟨_, rfl⟩
  · rw [if_pos ⟨by unfold Stats.numInvalidPoints; dsimp only; omega, h2⟩]
    obtain ⟨nl, hn⟩ := newLine_total (s := { t with denom := t.numPoints }) h4
    rw [hn]
    exact ⟨nl, rfl⟩

example : autodetect exactScoring [0x61, 0x80, 0, 0, 0xff, 0xfe, 0xc3, 0x28] = some ⟨.utf8, .lf, false⟩ := by
  decide +kernel

end Verif.TFmt
