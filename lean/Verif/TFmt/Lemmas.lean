import Verif.TFmt.Spec
import Verif.TConv.Props
import Verif.Enc.Props
/-!
# Text formats — helper lemmas
-/
namespace Verif.TFmt
open Verif Verif.Enc Verif.TConv TFmt.Spec

variable {atEnd : Bool}

/-- The bytes of one point in an encoding. -/
def encF (e : Enc) (p : Nat) : List Byte := ((encodingFromEnum e).enc 4 p).getD []

theorem numBytesUTF8_le (p : Nat) : numBytesUTF8 p ≤ 4 := by
  unfold numBytesUTF8; split <;> (try split) <;> (try split) <;> omega

theorem encF_utf8 {p : Nat} (hp : p < 0x110000) : encF .utf8 p = enc8 p := by
  show (encodeUTF8 4 p).getD [] = _
  rw [encodeUTF8_eq p 4 (by omega) (numBytesUTF8_le p)]
  rfl

theorem dec_enc {e : Enc} (he : e ≠ .bytes) {p : Nat} (hp : IsScalar p) (rest : List Byte) :
    (encodingFromEnum e).dec (encF e p ++ rest) = ⟨p, .valid, (encF e p).length⟩ ∧
      0 < (encF e p).length := by
  have h16 : ∀ be, decodeUTF16 be ((encodeUTF16 be 4 p).getD [] ++ rest) =
      ⟨p, .valid, ((encodeUTF16 be 4 p).getD []).length⟩ ∧
      0 < ((encodeUTF16 be 4 p).getD []).length := by
    intro be
    obtain ⟨s, a, b, c⟩ := C03_utf16_roundtrip be p 4 hp (by split <;> omega) rest
    rw [a]
    refine ⟨c, ?_⟩
    show 0 < s.length
    rw [b]; split <;> omega
  cases e with
  | bytes => exact absurd rfl he
  | utf8 =>
    have hp' : p < 0x110000 := hp.1
    rw [encF_utf8 hp']
    refine ⟨decode_of_sequence (enc8_sequence p (by omega)) rest, ?_⟩
    exact (enc8_sequence p (by omega)).length_pos
  | utf16be => exact h16 true
  | utf16le => exact h16 false

theorem good_of (e : Enc) : Spec.GoodDec (encodingFromEnum e).dec := by
  cases e
  · exact good_bytes
  · exact good_utf8
  · exact good_utf16 _
  · exact good_utf16 _

theorem converted_enc (d : Enc) {e : Enc} (he : e ≠ .bytes) (ps : List Nat)
    (hps : ∀ p ∈ ps, IsScalar p) :
    TConv.Spec.converted (encodingFromEnum d) (encodingFromEnum e) (ps.flatMap (encF e)) =
      ps.flatMap (encF d) := by
  have := points_of_encoded (good_of e) (encF e) IsScalar
    (fun p hp rest => (dec_enc he hp rest).1) ps hps
  unfold pts at this
  unfold TConv.Spec.converted
  rw [this]
  rfl

theorem leftover_enc {e : Enc} (he : e ≠ .bytes) (ps : List Nat) (hps : ∀ p ∈ ps, IsScalar p) :
    ∀ fuel, (ps.flatMap (encF e)).length ≤ fuel →
      leftover (encodingFromEnum e).dec fuel (ps.flatMap (encF e)) = [] := by
  induction ps with
  | nil => intro fuel _; cases fuel <;> simp [leftover]
  | cons p ps ih =>
    intro fuel hf
    rw [List.flatMap_cons] at hf ⊢
    have hd := dec_enc he (hps p (by simp)) (ps.flatMap (encF e))
    simp only [List.length_append] at hf
    cases fuel with
    | zero => omega
    | succ fuel =>
      unfold leftover
      rw [hd.1, if_neg]
      · rw [List.drop_left]
        exact ih (fun q h => hps q (by simp [h])) fuel (by omega)
      · rintro (h | h)
        · have := congrArg List.length h
          simp only [List.length_append, List.length_nil] at this
          omega
        · dsimp only at h; omega

/-! ## Newlines on points -/

/-- The newline filter on points. -/
def nlP (crlf : Bool) (ps : List Nat) : List Nat :=
  (ps.filter (· ≠ 13)).flatMap (fun p => if p = 10 ∧ crlf = true then [13, 10] else [p])

theorem nlP_cons (crlf : Bool) (p : Nat) (ps : List Nat) : nlP crlf (p :: ps) =
    (if p = 13 then [] else if p = 10 ∧ crlf = true then [13, 10] else [p]) ++ nlP crlf ps := by
  unfold nlP
  by_cases h : p = 13
  · simp [h]
  · simp [h]

theorem newlines_append (crlf : Bool) (a b : List Byte) :
    Stream.Spec.newlines crlf (a ++ b) = Stream.Spec.newlines crlf a ++ Stream.Spec.newlines crlf b := by
  simp [Stream.Spec.newlines]

theorem newlines_plain (crlf : Bool) (a : List Byte) (h : ∀ c ∈ a, c ≠ 13 ∧ c ≠ 10) :
    Stream.Spec.newlines crlf a = a := by
  induction a with
  | nil => rfl
  | cons c a ih =>
    have hc := h c (by simp)
    rw [show c :: a = [c] ++ a from rfl, newlines_append, ih (fun x hx => h x (by simp [hx]))]
    simp [Stream.Spec.newlines, hc.1, hc.2]

theorem enc8_plain (p : Nat) (hp : p < 0x110000) (h13 : p ≠ 13) (h10 : p ≠ 10) :
    ∀ c ∈ enc8 p, c ≠ 13 ∧ c ≠ 10 := by
  have key : ∀ (x : Nat) , x < 256 → x ≠ 13 → x ≠ 10 → UInt8.ofNat x ≠ 13 ∧ UInt8.ofNat x ≠ 10 := by
    intro x hx h1 h2
    constructor
    · intro h
      have := congrArg UInt8.toNat h
      rw [toNat_ofNat_byte hx] at this
      exact h1 this
    · intro h
      have := congrArg UInt8.toNat h
      rw [toNat_ofNat_byte hx] at this
      exact h2 this
  intro c hc
  unfold enc8 at hc
  split at hc
  · simp only [List.mem_cons, List.not_mem_nil, or_false] at hc
    subst hc
    exact key p (by omega) h13 h10
  · split at hc
    · simp only [List.mem_cons, List.not_mem_nil, or_false] at hc
      rcases hc with rfl | rfl <;> exact key _ (by omega) (by omega) (by omega)
    · split at hc
      · simp only [List.mem_cons, List.not_mem_nil, or_false] at hc
        rcases hc with rfl | rfl | rfl <;> exact key _ (by omega) (by omega) (by omega)
      · simp only [List.mem_cons, List.not_mem_nil, or_false] at hc
        rcases hc with rfl | rfl | rfl | rfl <;> exact key _ (by omega) (by omega) (by omega)

theorem newlines_enc8 (crlf : Bool) (ps : List Nat) (hps : ∀ p ∈ ps, IsScalar p) :
    Stream.Spec.newlines crlf (ps.flatMap (encF .utf8)) = (nlP crlf ps).flatMap (encF .utf8) := by
  induction ps with
  | nil => rfl
  | cons p ps ih =>
    have hp : p < 0x110000 := (hps p (by simp)).1
    rw [List.flatMap_cons, newlines_append, ih (fun q h => hps q (by simp [h])), nlP_cons,
      List.flatMap_append]
    congr 1
    by_cases h13 : p = 13
    · subst h13; cases crlf <;> decide +kernel
    · by_cases h10 : p = 10
      · subst h10; cases crlf <;> decide +kernel
      · rw [if_neg h13, if_neg (by simp [h10])]
        simp only [List.flatMap_cons, List.flatMap_nil, List.append_nil]
        rw [encF_utf8 hp]
        exact newlines_plain crlf _ (enc8_plain p hp h13 h10)

theorem nlP_mem {crlf : Bool} {ps : List Nat} {q : Nat} (h : q ∈ nlP crlf ps) :
    q ∈ ps ∨ q = 13 ∨ q = 10 := by
  unfold nlP at h
  simp only [List.mem_flatMap, List.mem_filter] at h
  obtain ⟨p, ⟨hp, _⟩, hq⟩ := h
  split at hq
  · simp at hq; omega
  · simp at hq; exact .inl (hq ▸ hp)

theorem nlP_scalar {crlf : Bool} {ps : List Nat} (hps : ∀ p ∈ ps, IsScalar p) :
    ∀ p ∈ nlP crlf ps, IsScalar p := by
  intro p hp
  rcases nlP_mem hp with h | rfl | rfl
  · exact hps p h
  · decide
  · decide

theorem nlP_false (ps : List Nat) : nlP false ps = ps.filter (· ≠ 13) := by
  induction ps with
  | nil => rfl
  | cons p ps ih =>
    rw [nlP_cons, ih]
    by_cases h : p = 13 <;> simp [h]

theorem nlP_nlP (crlf : Bool) (ps : List Nat) : nlP false (nlP crlf ps) = nlP false ps := by
  induction ps with
  | nil => rfl
  | cons p ps ih =>
    have happ : ∀ a b, nlP false (a ++ b) = nlP false a ++ nlP false b := by
      intro a b; simp [nlP]
    rw [nlP_cons crlf, nlP_cons false, happ, ih]
    congr 1
    by_cases h13 : p = 13
    · subst h13; rfl
    · by_cases h10 : p = 10
      · subst h10; cases crlf <;> decide
      · simp [h13, h10, nlP]

/-! ## Characters -/

theorem char_scalar (c : Char) : IsScalar c.toNat := by
  have := c.valid
  unfold IsScalar Char.toNat
  rcases this with h | h
  · have : c.val.toNat < 0xd800 := h
    omega
  · have h1 : 0xdfff < c.val.toNat := h.1
    have h2 : c.val.toNat < 0x110000 := h.2
    omega

theorem utf8_eq (cs : List Char) : utf8 cs = (cs.map Char.toNat).flatMap (encF .utf8) := by
  unfold utf8
  rw [List.flatMap_map]
  congr 1
  funext c
  show _ = (encodeUTF8 4 c.toNat).getD []
  rw [C01_utf8_standard c 4 (numBytesUTF8_le _)]
  rfl

theorem map_scalar (cs : List Char) : ∀ p ∈ cs.map Char.toNat, IsScalar p := by
  intro p hp
  simp only [List.mem_map] at hp
  obtain ⟨c, _, rfl⟩ := hp
  exact char_scalar c

theorem toNat_inj {a b : Char} (h : a.toNat = b.toNat) : a = b :=
  Char.ext (UInt32.toNat_inj.mp h)

theorem unix_map (cs : List Char) : (unix cs).map Char.toNat = nlP false (cs.map Char.toNat) := by
  rw [nlP_false, unix, List.filter_map]
  congr 1
  apply List.filter_congr
  intro c _
  simp only [Function.comp, decide_not, Bool.not_eq_eq_eq_not, Bool.not_not]
  by_cases h : c = '\r'
  · subst h; rfl
  · simp only [h, decide_false]
    symm
    simp only [decide_eq_false_iff_not]
    exact fun h' => h (toNat_inj h')

/-! ## Exporting and importing -/

/-- The points of an exported file. -/
def filePoints (f : Format) (cs : List Char) : List Nat :=
  (if f.bom then [0xFEFF] else []) ++ nlP (decide (f.newLine = .crlf)) (cs.map Char.toNat)

theorem filePoints_scalar (f : Format) (cs : List Char) : ∀ p ∈ filePoints f cs, IsScalar p := by
  intro p hp
  unfold filePoints at hp
  rw [List.mem_append] at hp
  rcases hp with hp | hp
  · split at hp
    · simp at hp; subst hp; decide
    · simp at hp
  · exact nlP_scalar (map_scalar cs) p hp

theorem bomBytes_eq {e : Enc} (he : e ≠ .bytes) : bomBytes e = encF e 0xFEFF := by
  cases e
  · exact absurd rfl he
  · decide +kernel
  · decide +kernel
  · decide +kernel

theorem export_eq {f : Format} (he : f.encoding ≠ .bytes) (cs : List Char) :
    exportText f (utf8 cs) = (filePoints f cs).flatMap (encF f.encoding) := by
  obtain ⟨e, nl, bom⟩ := f
  have h1 : (if bom then bomBytes e else []) =
      (if bom then [0xFEFF] else []).flatMap (encF e) := by
    cases bom
    · rfl
    · simp [bomBytes_eq he]
  have hsc := nlP_scalar (crlf := decide (nl = .crlf)) (map_scalar cs)
  have key := newlines_enc8 (decide (nl = .crlf)) _ (map_scalar cs)
  rw [← utf8_eq] at key
  unfold exportText filePoints
  dsimp only at he ⊢
  rw [h1, List.flatMap_append, key]
  congr 1
  cases e with
  | bytes => exact absurd rfl he
  | utf8 => rfl
  | utf16be => exact converted_enc .utf16be (e := .utf8) (by decide) _ hsc
  | utf16le => exact converted_enc .utf16le (e := .utf8) (by decide) _ hsc

theorem skipBom_export {f : Format} (he : f.encoding ≠ .bytes) (cs : List Char) :
    skipBom f (exportText f (utf8 cs)) =
      some ((nlP (decide (f.newLine = .crlf)) (cs.map Char.toNat)).flatMap (encF f.encoding)) := by
  rw [export_eq he]
  obtain ⟨e, nl, bom⟩ := f
  unfold skipBom filePoints
  dsimp only at he ⊢
  cases bom with
  | false => simp
  | true =>
    rw [if_neg (by simp), if_neg he]
    simp only [if_true, List.cons_append, List.nil_append, List.flatMap_cons, bomBytes_eq he]
    rw [if_pos, List.drop_left]
    exact List.isPrefixOf_iff_prefix.mpr (List.prefix_append _ _)

theorem import_points {f : Format} (he : f.encoding ≠ .bytes) {data : List Byte} {ps : List Nat}
    (hps : ∀ p ∈ ps, IsScalar p) (hskip : skipBom f data = some (ps.flatMap (encF f.encoding))) :
    importText atEnd f data = some ((nlP false ps).flatMap (encF .utf8)) := by
  unfold importText
  rw [hskip]
  dsimp only
  by_cases h8 : f.encoding = .utf8
  · rw [if_pos h8, h8, newlines_enc8 _ _ hps]
  · rw [if_neg h8]
    unfold convertIn
    rw [if_neg (by rw [leftover_enc he ps hps _ (Nat.le_refl _)]; simp)]
    dsimp only
    rw [show utf8E = encodingFromEnum .utf8 from rfl, converted_enc .utf8 he ps hps,
      newlines_enc8 _ _ hps]

/-! ## Scanning -/

/-- The points that start before the limit. -/
def seen (E : Nat → List Byte) (maxBytes : Nat) : Nat → List Nat → List Nat
  | _, [] => []
  | n, p :: ps => if maxBytes ≤ n then [] else p :: seen E maxBytes (n + (E p).length) ps

/-- Counting the points of a list. -/
def tallyAll : Stats → Bool → List Nat → Stats
  | s, _, [] => s
  | s, cr, p :: ps =>
    tallyAll (tallyValid { s with numPoints := s.numPoints + 1 } p cr) (decide (p = 13)) ps

theorem scanLoop_enc {dec : List Byte → DecodeResult} {E : Nat → List Byte} (maxBytes : Nat)
    (hnil : (dec []).status = .truncated) : ∀ (ps : List Nat),
    (∀ p ∈ ps, ∀ rest, dec (E p ++ rest) = ⟨p, .valid, (E p).length⟩ ∧ 0 < (E p).length) →
    ∀ fuel n cr s, ps.length ≤ fuel →
      scanLoop dec maxBytes fuel n cr s (ps.flatMap E) =
        some (tallyAll s cr (seen E maxBytes n ps),
          n + ((seen E maxBytes n ps).flatMap E).length) := by
  intro ps
  induction ps with
  | nil =>
    intro _ fuel n cr s _
    rw [scanLoop.eq_def]
    simp [hnil, seen, tallyAll]
  | cons p ps ih =>
    intro h fuel n cr s hf
    rw [scanLoop.eq_def]
    dsimp only
    by_cases hm : maxBytes ≤ n
    · simp [hm, seen, tallyAll]
    · rw [if_neg hm]
      rw [List.flatMap_cons]
      obtain ⟨hd, hl⟩ := h p (by simp) (ps.flatMap E)
      rw [hd]
      dsimp only
      rw [if_neg (by simp), if_neg (by omega)]
      cases fuel with
      | zero => simp at hf
      | succ fuel =>
        dsimp only
        rw [List.drop_left, ih (fun q hq => h q (by simp [hq])) fuel _ _ _
          (by simp at hf; omega)]
        have hpe : decide ((p : Int) = 13) = decide (p = 13) := by
          by_cases h13 : p = 13
          · subst h13; rfl
          · simp only [h13, decide_false, decide_eq_false_iff_not]
            omega
        simp only [seen, if_neg hm, tallyAll, tally, hpe, List.flatMap_cons, List.length_append,
          if_pos, Int.toNat_natCast]
        congr 2
        omega

/-- Line feeds right behind a carriage return. -/
def pairsN : Bool → List Nat → Nat
  | _, [] => 0
  | cr, p :: ps => (if p = 10 ∧ cr = true then 1 else 0) + pairsN (decide (p = 13)) ps

/-- A control character. -/
def ctlN (p : Nat) : Bool := decide (p < 32 ∧ p ≠ 10 ∧ p ≠ 9 ∧ p ≠ 13)
/-- Plain ASCII. -/
def plainN (p : Nat) : Bool := decide (p = 10 ∨ p = 9 ∨ p = 13 ∨ (32 ≤ p ∧ p < 127))
/-- White space. -/
def whiteN (p : Nat) : Bool := decide (p = 10 ∨ p = 9 ∨ p = 32)
/-- Outside the basic plane. -/
def extN (p : Nat) : Bool := decide (65536 ≤ p)

structure Tallied (s t : Stats) (cr : Bool) (ps : List Nat) : Prop where
  points : t.numPoints = s.numPoints + ps.length
  valid : t.numValidPoints = s.numValidPoints + ps.length
  lines : t.numLines = s.numLines + ps.countP (· = 10)
  crlf : t.numCRLF = s.numCRLF + pairsN cr ps
  control : t.numControl = s.numControl + ps.countP ctlN
  plain : t.numPlainAscii = s.numPlainAscii + ps.countP plainN
  white : t.numWhitespace = s.numWhitespace + ps.countP whiteN
  ext : t.numExtended = s.numExtended + ps.countP extN

theorem tallyValid_spec (s : Stats) (p : Nat) (cr : Bool) :
    Tallied s (tallyValid { s with numPoints := s.numPoints + 1 } p cr) cr [p] := by
  unfold tallyValid
  dsimp only
  by_cases h32 : p < 32
  · rw [if_pos h32]
    by_cases h10 : p = 10
    · subst h10
      cases cr <;> constructor <;> simp [pairsN, ctlN, plainN, whiteN, extN]
    · rw [if_neg h10]
      by_cases h9 : p = 9
      · subst h9
        constructor <;> simp [pairsN, ctlN, plainN, whiteN, extN]
      · rw [if_neg h9]
        by_cases h13 : p = 13
        · subst h13
          constructor <;> simp [pairsN, ctlN, plainN, whiteN, extN]
        · rw [if_neg h13]
          constructor <;> simp [pairsN, ctlN, plainN, whiteN, extN, h10, h9, h13, h32] <;> omega
  · rw [if_neg h32]
    by_cases h127 : p < 127
    · rw [if_pos h127]
      by_cases hs : p = 32
      · subst hs
        constructor <;> simp [pairsN, ctlN, plainN, whiteN, extN]
      · constructor <;> simp [pairsN, ctlN, plainN, whiteN, extN, hs] <;> omega
    · rw [if_neg h127]
      by_cases he : 65536 ≤ p
      · rw [if_pos he]
        constructor <;> simp [pairsN, ctlN, plainN, whiteN, extN] <;> omega
      · rw [if_neg he]
        constructor <;> simp [pairsN, ctlN, plainN, whiteN, extN] <;> omega

theorem tallyAll_spec : ∀ (ps : List Nat) (s : Stats) (cr : Bool),
    Tallied s (tallyAll s cr ps) cr ps := by
  intro ps
  induction ps with
  | nil => intro s cr; constructor <;> simp [tallyAll, pairsN]
  | cons p ps ih =>
    intro s cr
    have h1 := tallyValid_spec s p cr
    have h2 := ih (tallyValid { s with numPoints := s.numPoints + 1 } p cr) (decide (p = 13))
    unfold tallyAll
    have hc : ∀ (P : Nat → Bool), (p :: ps).countP P = [p].countP P + ps.countP P := by
      intro P; rw [← List.countP_append]; rfl
    constructor
    · rw [h2.points, h1.points]; simp; omega
    · rw [h2.valid, h1.valid]; simp; omega
    · rw [h2.lines, h1.lines, hc]; omega
    · rw [h2.crlf, h1.crlf]; simp [pairsN]; omega
    · rw [h2.control, h1.control, hc]; omega
    · rw [h2.plain, h1.plain, hc]; omega
    · rw [h2.white, h1.white, hc]; omega
    · rw [h2.ext, h1.ext, hc]; omega

theorem pairsN_le : ∀ (ps : List Nat) (cr : Bool), pairsN cr ps ≤ ps.countP (· = 10) := by
  intro ps
  induction ps with
  | nil => intro _; simp [pairsN]
  | cons p ps ih =>
    intro cr
    have := ih (decide (p = 13))
    unfold pairsN
    rw [List.countP_cons]
    by_cases h : p = 10
    · simp only [h, true_and, decide_true, if_true] at this ⊢
      split <;> omega
    · simp only [h, false_and, decide_false, if_false] at this ⊢
      simp
      omega

theorem dec_nil (e : Enc) : ((encodingFromEnum e).dec []).status = .truncated := by
  cases e <;> rfl

theorem scan_enc {e : Enc} (he : e ≠ .bytes) (ps : List Nat) (hps : ∀ p ∈ ps, IsScalar p) :
    ∃ t, scanTextFile (encodingFromEnum e) (ps.flatMap (encF e)) =
        some (t, ((seen (encF e) 4000 0 ps).flatMap (encF e)).length) ∧
      Tallied {} t false (seen (encF e) 4000 0 ps) ∧ t.denom = t.numPoints := by
  have hlen : ps.length ≤ (ps.flatMap (encF e)).length := by
    induction ps with
    | nil => simp
    | cons p ps ih =>
      have := ih (fun q h => hps q (by simp [h]))
      have hl := (dec_enc he (hps p (by simp)) []).2
      simp only [List.flatMap_cons, List.length_append, List.length_cons]
      omega
  have h := scanLoop_enc (dec := (encodingFromEnum e).dec) (E := encF e) 4000 (dec_nil e) ps
    (fun p hp rest => dec_enc he (hps p hp) rest) _ 0 false {} hlen
  unfold scanTextFile numBytesForAutodetect
  rw [h]
  have ht := tallyAll_spec (seen (encF e) 4000 0 ps) {} false
  refine ⟨_, by dsimp only; rw [Nat.zero_add], ?_, rfl⟩
  exact ⟨ht.points, ht.valid, ht.lines, ht.crlf, ht.control, ht.plain, ht.white, ht.ext⟩

end Verif.TFmt
