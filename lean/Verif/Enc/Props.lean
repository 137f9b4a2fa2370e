import Verif.Enc.Lemmas
/-!
# C01, C02, C03, C49: text encodings
-/
namespace Verif.Enc
open Verif

/-! ## C01 -/

/-- **C01.** Every code point (indeed every 21-bit number) encodes into any buffer that is large
enough, and decoding the bytes written followed by arbitrary bytes gives the point back, status
Valid, consuming exactly the bytes written. -/
theorem C01_utf8_roundtrip (p cap : Nat) (hp : p < 0x110000) (hc : numBytesUTF8 p ≤ cap)
    (rest : List Byte) :
    ∃ s, encodeUTF8 cap p = some s ∧ s.length = numBytesUTF8 p ∧
      decodeUTF8 (s ++ rest) = ⟨p, .valid, s.length⟩ :=
  ⟨enc8 p, encodeUTF8_eq p cap (by omega) hc, enc8_length p,
    decode_of_sequence (enc8_sequence p (by omega)) rest⟩

example : (0x1F600 : Nat) < 0x110000 ∧ numBytesUTF8 0x1F600 ≤ 4 ∧
    encodeUTF8 4 0x1F600 = some [0xF0, 0x9F, 0x98, 0x80] := by decide

/-- **C01.** For Unicode scalar values the bytes are those of the UTF-8 standard, here the
definition in the Lean core library. -/
theorem C01_utf8_standard (c : Char) (cap : Nat) (hc : numBytesUTF8 c.toNat ≤ cap) :
    encodeUTF8 cap c.toNat = some (String.utf8EncodeChar c) := by
  have hv : c.toNat < 0x110000 := by
    have := c.valid
    unfold Char.toNat
    rcases this with h | h
    · exact Nat.lt_trans h (by decide)
    · exact h.2
  rw [encodeUTF8_eq _ _ (by omega) hc]
  unfold enc8 String.utf8EncodeChar
  simp only [Char.toNat] at hv ⊢
  generalize c.val.toNat = v at hv
  by_cases h1 : v < 0x80
  · have : v ≤ 127 := by omega
    simp [h1, this]
  · have h1' : ¬ v ≤ 127 := by omega
    by_cases h2 : v < 0x800
    · have h2' : v ≤ 2047 := by omega
      simp only [h1, h1', h2, h2', ↓reduceIte]
      have e1 : 0xc0 + v / 64 = v / 64 % 32 + 0xc0 := by omega
      have e2 : 0x80 + v % 64 = v % 64 + 0x80 := by omega
      rw [e1, e2]
    · have h2' : ¬ v ≤ 2047 := by omega
      by_cases h3 : v < 0x10000
      · have h3' : v ≤ 65535 := by omega
        simp only [h1, h1', h2, h2', h3, h3', ↓reduceIte]
        have e1 : 0xe0 + v / 4096 = v / 4096 % 16 + 0xe0 := by omega
        have e2 : 0x80 + v / 64 % 64 = v / 64 % 64 + 0x80 := by omega
        have e3 : 0x80 + v % 64 = v % 64 + 0x80 := by omega
        rw [e1, e2, e3]
      · have h3' : ¬ v ≤ 65535 := by omega
        simp only [h1, h1', h2, h2', h3, h3', ↓reduceIte]
        have e1 : 0xf0 + v / 262144 = v / 262144 % 8 + 0xf0 := by omega
        have e2 : 0x80 + v / 64 % 64 = v / 64 % 64 + 0x80 := by omega
        have e3 : 0x80 + v % 64 = v % 64 + 0x80 := by omega
        have e4 : 0x80 + v / 4096 % 64 = v / 4096 % 64 + 0x80 := by omega
        rw [e1, e2, e3, e4]

example : encodeUTF8 3 'é'.toNat = some [0xC3, 0xA9] := by decide

/-- **C01.** A whole text: decoding the concatenated encodings of any list of code points gives
exactly those points, each Valid. -/
theorem C01_utf8_text_roundtrip (ps : List Nat) (h : ∀ p ∈ ps, p < 0x110000) (enc : Nat → List Byte)
    (henc : ∀ p, p < 0x110000 → encodeUTF8 4 p = some (enc p)) :
    ∃ rs, decodeAll (ps.flatMap enc).length (ps.flatMap enc) = some rs ∧
      rs.map (·.point) = ps.map Int.ofNat ∧ ∀ r ∈ rs, r.status = .valid := by
  suffices H : ∀ fuel, (ps.flatMap enc).length ≤ fuel →
      ∃ rs, decodeAll fuel (ps.flatMap enc) = some rs ∧
      rs.map (·.point) = ps.map Int.ofNat ∧ ∀ r ∈ rs, r.status = .valid from
    H _ (Nat.le_refl _)
  induction ps with
  | nil => intro fuel _; exact ⟨[], by cases fuel <;> rfl, rfl, by simp⟩
  | cons p ps ih =>
    intro fuel hf
    have hp := h p (by simp)
    have he : enc p = enc8 p := by
      have h1 := henc p hp
      rw [encodeUTF8_eq p 4 (by omega) (by unfold numBytesUTF8; split <;> (try split) <;> (try split) <;> omega)] at h1
      exact (Option.some.inj h1).symm
    have hseq := enc8_sequence p (by omega)
    have hpos := hseq.length_pos
    rw [List.flatMap_cons, he] at hf ⊢
    rw [List.length_append] at hf
    cases fuel with
    | zero => omega
    | succ fuel =>
      obtain ⟨rs, h1, h2, h3⟩ := ih (fun q hq => h q (by simp [hq])) fuel (by omega)
      have hd := decode_of_sequence hseq (ps.flatMap enc)
      refine ⟨⟨p, .valid, (enc8 p).length⟩ :: rs, ?_, by simp [h2], by
        intro r hr
        rcases List.mem_cons.mp hr with rfl | hr
        · rfl
        · exact h3 r hr⟩
      cases hx : enc8 p ++ ps.flatMap enc with
      | nil => simp at hx; rw [hx.1] at hpos; simp at hpos
      | cons b bs =>
        unfold decodeAll
        rw [← hx]
        simp only [hd]
        rw [if_pos ⟨hpos, by simp⟩, List.drop_left, h1]
        rfl

example : decodeAll 6 [0x61, 0xC3, 0xA9, 0xE2, 0x82, 0xAC] =
    some [⟨0x61, .valid, 1⟩, ⟨0xE9, .valid, 2⟩, ⟨0x20AC, .valid, 3⟩] := by decide

/-! ## C02 -/

/-- **C02.** Progress and bounds on arbitrary bytes. -/
theorem C02_progress (view : List Byte) :
    (view = [] → (decodeUTF8 view).numBytes = 0 ∧ (decodeUTF8 view).status = .truncated ∧
      (decodeUTF8 view).point = -1) ∧
    (view ≠ [] → 1 ≤ (decodeUTF8 view).numBytes ∧ (decodeUTF8 view).numBytes ≤ view.length ∧
      0 ≤ (decodeUTF8 view).point) := by
  constructor
  · rintro rfl; exact ⟨rfl, rfl, rfl⟩
  · intro hne
    cases view with
    | nil => exact absurd rfl hne
    | cons a rest =>
      rcases decode_cases a rest with ⟨s, p, hs, hp, he⟩ | ⟨_, he⟩ | ⟨_, he⟩
      · rw [he]
        refine ⟨hs.length_pos, hp.length_le, ?_⟩
        simp
      · rw [he]; simp
      · rw [he]; simp

example : decodeUTF8 [0xE2, 0x82] = ⟨0xE2, .truncated, 1⟩ := by decide

/-- **C02.** Hence a decoding loop terminates on every input, within as many steps as there are
bytes, and the pieces it steps over tile the input. -/
theorem C02_loop_terminates (view : List Byte) :
    ∃ rs, decodeAll view.length view = some rs ∧ rs.length ≤ view.length ∧
      (rs.map (·.numBytes)).sum = view.length := by
  suffices H : ∀ fuel (view : List Byte), view.length ≤ fuel → ∃ rs, decodeAll fuel view = some rs ∧
      rs.length ≤ view.length ∧ (rs.map (·.numBytes)).sum = view.length from H _ _ (Nat.le_refl _)
  intro fuel
  induction fuel with
  | zero =>
    intro view h
    have : view = [] := List.length_eq_zero_iff.mp (by omega)
    subst this
    exact ⟨[], rfl, by simp, rfl⟩
  | succ fuel ih =>
    intro view h
    cases view with
    | nil => exact ⟨[], rfl, by simp, rfl⟩
    | cons b bs =>
      obtain ⟨h1, h2, _⟩ := (C02_progress (b :: bs)).2 (by simp)
      obtain ⟨rs, e, hl, hsum⟩ := ih ((b :: bs).drop (decodeUTF8 (b :: bs)).numBytes)
        (by rw [List.length_drop]; omega)
      rw [List.length_drop] at hsum hl
      refine ⟨decodeUTF8 (b :: bs) :: rs, ?_, ?_, ?_⟩
      · unfold decodeAll
        simp only []
        rw [if_pos ⟨h1, h2⟩, e]
        rfl
      · rw [List.length_cons]; omega
      · rw [List.map_cons, List.sum_cons, hsum]; omega

example : decodeAll 5 [0xFF, 0x80, 0xC3, 0x41, 0xE2] =
    some [⟨0xFF, .truncated, 1⟩, ⟨0x80, .truncated, 1⟩, ⟨0xC3, .invalid, 1⟩, ⟨0x41, .valid, 1⟩,
      ⟨0xE2, .truncated, 1⟩] := by decide

/-- **C02.** The status is Valid exactly if the view starts with a structurally complete UTF-8
sequence; then the point is the number spelled by its payload bits and the whole sequence is
consumed. -/
theorem C02_valid_iff (view : List Byte) (p n : Nat) :
    decodeUTF8 view = ⟨p, .valid, n⟩ ↔ ∃ s, Sequence s p ∧ s <+: view ∧ s.length = n := by
  constructor
  · intro h
    cases view with
    | nil => rw [show decodeUTF8 [] = ⟨-1, .truncated, 0⟩ from rfl] at h; simp at h
    | cons a rest =>
      rcases decode_cases a rest with ⟨s, q, hs, hp, he⟩ | ⟨_, he⟩ | ⟨_, he⟩
      · rw [he] at h
        simp only [DecodeResult.mk.injEq, true_and] at h
        have : q = p := by exact_mod_cast h.1
        exact ⟨s, this ▸ hs, hp, h.2⟩
      · rw [he] at h; simp at h
      · rw [he] at h; simp at h
  · rintro ⟨s, hs, ⟨t, rfl⟩, rfl⟩
    exact decode_of_sequence hs t

example : Sequence [0xC3, 0xA9] 0xE9 ∧ decodeUTF8 [0xC3, 0xA9, 0x20] = ⟨0xE9, .valid, 2⟩ :=
  ⟨Sequence.two 0xC3 0xA9 (by decide) (by decide) (by decide), by decide⟩

/-- **C02.** Status Invalid: enough bytes are there, but no sequence starts here. -/
theorem C02_invalid_iff (a : Byte) (rest : List Byte) :
    (decodeUTF8 (a :: rest)).status = .invalid ↔
      ∃ n, announced a = some n ∧ n ≤ (a :: rest).length ∧
        ¬ ∃ s p, Sequence s p ∧ s <+: (a :: rest) := by
  rcases decode_cases a rest with ⟨s, q, hs, hp, he⟩ | ⟨hh, he⟩ | ⟨hh, he⟩
  · rw [he]
    constructor
    · intro h; simp at h
    · rintro ⟨n, _, _, hno⟩; exact absurd ⟨s, q, hs, hp⟩ hno
  · rw [he]; simp only [true_iff]; exact hh
  · rw [he]
    constructor
    · intro h; simp at h
    · rintro ⟨n, h1, h2, _⟩
      rcases hh with h | ⟨m, h, h3⟩
      · rw [h] at h1; simp at h1
      · rw [h] at h1; simp only [Option.some.injEq] at h1; omega

example : (decodeUTF8 [0xC3, 0x41]).status = .invalid ∧ announced 0xC3 = some 2 := by decide

/-- **C02.** A result other than Truncated does not change when more bytes arrive. -/
theorem C02_stable (view more : List Byte) (h : (decodeUTF8 view).status ≠ .truncated) :
    decodeUTF8 (view ++ more) = decodeUTF8 view := by
  cases view with
  | nil => exact absurd rfl h
  | cons a rest =>
    rcases decode_cases a rest with ⟨s, q, hs, ⟨t, ht⟩, he⟩ | ⟨⟨n, h1, h2, hno⟩, he⟩ | ⟨hh, he⟩
    · rw [he, ← ht, List.append_assoc]
      exact decode_of_sequence hs _
    · rw [he, List.cons_append]
      rcases decode_cases a (rest ++ more) with ⟨s, q, hs, hp, he'⟩ | ⟨hh, he'⟩ | ⟨hh, he'⟩
      · exfalso
        obtain ⟨a', t, hst, han⟩ := hs.announced
        have ha : a' = a := by
          obtain ⟨u, hu⟩ := hp
          rw [hst] at hu
          simp only [List.cons_append, List.cons.injEq] at hu
          exact hu.1
        rw [ha, h1] at han
        simp only [Option.some.injEq] at han
        apply hno
        refine ⟨s, q, hs, ?_⟩
        rw [← List.cons_append] at hp
        exact List.prefix_of_prefix_length_le hp (List.prefix_append _ _) (by omega)
      · exact he'
      · exfalso
        rcases hh with h | ⟨m, h, h3⟩
        · rw [h] at h1; simp at h1
        · rw [h] at h1; simp only [Option.some.injEq] at h1
          simp only [List.length_cons, List.length_append] at h2 h3
          omega
    · rw [he] at h; exact absurd rfl h

example : (decodeUTF8 [0xC3, 0xA9]).status ≠ .truncated := by decide

/-- **C02.** Resumption: every proper prefix of the encoding of a code point reports Truncated, and
once the missing bytes arrive the point is decoded. -/
theorem C02_resume (p : Nat) (hp : p < 0x110000) (s : List Byte) (he : encodeUTF8 4 p = some s)
    (k : Nat) (hk : k < s.length) (rest : List Byte) :
    (decodeUTF8 (s.take k)).status = .truncated ∧
    decodeUTF8 (s.take k ++ (s.drop k ++ rest)) = ⟨p, .valid, s.length⟩ := by
  have hs : s = enc8 p := by
    rw [encodeUTF8_eq p 4 (by omega)
      (by unfold numBytesUTF8; split <;> (try split) <;> (try split) <;> omega)] at he
    exact (Option.some.inj he).symm
  have hseq : Sequence s p := hs ▸ enc8_sequence p (by omega)
  constructor
  · obtain ⟨a, t, hst, han⟩ := hseq.announced
    cases k with
    | zero => rfl
    | succ k =>
      rw [hst, List.take_succ_cons]
      rcases decode_cases a (t.take k) with ⟨s', q, hs', hp', he'⟩ | ⟨⟨n, h1, h2, _⟩, _⟩ | ⟨_, he'⟩
      · exfalso
        obtain ⟨a', t', hst', han'⟩ := hs'.announced
        have ha : a' = a := by
          obtain ⟨u, hu⟩ := hp'
          rw [hst'] at hu
          simp only [List.cons_append, List.cons.injEq] at hu
          exact hu.1
        rw [ha, han] at han'
        simp only [Option.some.injEq] at han'
        have := hp'.length_le
        simp only [List.length_cons, List.length_take] at this
        omega
      · exfalso
        rw [han] at h1
        simp only [Option.some.injEq] at h1
        simp only [List.length_cons, List.length_take] at h2
        omega
      · rw [he']
  · rw [← List.append_assoc, List.take_append_drop]
    exact decode_of_sequence hseq rest

example : encodeUTF8 4 0x20AC = some [0xE2, 0x82, 0xAC] ∧
    (decodeUTF8 ([0xE2, 0x82, 0xAC].take 2)).status = .truncated := by decide

/-- **C02**, oddity of the code: a stray continuation byte or 0xF8..0xFF is reported as Truncated
(not Invalid) no matter how many bytes follow. -/
theorem C02_stray_reports_truncated (a : Byte) (h : announced a = none) (rest : List Byte) :
    (decodeUTF8 (a :: rest)).status = .truncated := by
  rcases decode_cases a rest with ⟨s, q, hs, hp, he⟩ | ⟨⟨n, h1, _, _⟩, _⟩ | ⟨_, he⟩
  · exfalso
    obtain ⟨a', t', hst', han'⟩ := hs.announced
    have ha : a' = a := by
      obtain ⟨u, hu⟩ := hp
      rw [hst'] at hu
      simp only [List.cons_append, List.cons.injEq] at hu
      exact hu.1
    rw [ha, h] at han'
    simp at han'
  · rw [h] at h1; simp at h1
  · rw [he]

example : announced 0x80 = none ∧ announced 0xFF = none := by decide

/-- **C02.** With four bytes available, Truncated is reported only for bytes that cannot start a
sequence. -/
theorem C02_truncated_only_at_end (a : Byte) (rest : List Byte) (h3 : 3 ≤ rest.length) :
    (decodeUTF8 (a :: rest)).status = .truncated ↔ announced a = none := by
  constructor
  · intro ht
    rcases decode_cases a rest with ⟨s, q, hs, hp, he⟩ | ⟨_, he⟩ | ⟨hh, he⟩
    · rw [he] at ht; simp at ht
    · rw [he] at ht; simp at ht
    · rcases hh with h | ⟨n, h, hn⟩
      · exact h
      · exfalso
        have : n ≤ 4 := by
          unfold announced at h
          dsimp only at h
          split at h
          · simp at h; omega
          · split at h
            · simp at h
            · split at h
              · simp at h; omega
              · split at h
                · simp at h; omega
                · split at h
                  · simp at h; omega
                  · simp at h
        simp only [List.length_cons] at hn
        omega
  · intro h; exact C02_stray_reports_truncated a h rest

example : 3 ≤ [(0x41 : Byte), 0x42, 0x43].length := by decide

/-! ## C03 -/

/-- **C03.** UTF-16 round trip for every Unicode scalar value in both byte orders. -/
theorem C03_utf16_roundtrip (be : Bool) (p cap : Nat) (hp : IsScalar p)
    (hc : (if p < 0x10000 then 2 else 4) ≤ cap) (rest : List Byte) :
    ∃ s, encodeUTF16 be cap p = some s ∧ s.length = (if p < 0x10000 then 2 else 4) ∧
      decodeUTF16 be (s ++ rest) = ⟨p, .valid, s.length⟩ := by
  obtain ⟨hp1, hp2⟩ := hp
  unfold encodeUTF16
  by_cases h1 : p < 0x10000
  · simp only [h1, ↓reduceIte] at hc ⊢
    rw [if_pos hc]
    obtain ⟨b0, b1, e1, e2⟩ := getUnit_putUnit be (p % 2 ^ 16) (Nat.mod_lt _ (by decide))
    refine ⟨_, rfl, by rw [e1]; rfl, ?_⟩
    rw [e1, List.cons_append, List.cons_append, List.nil_append]
    have hm : p % 2 ^ 16 = p := Nat.mod_eq_of_lt (by omega)
    rw [hm] at e2
    unfold decodeUTF16
    simp only [e2]
    rw [if_neg (by omega), if_pos (by omega)]
    rfl
  · simp only [h1, ↓reduceIte] at hc ⊢
    rw [if_pos hc]
    have hhi : (0xd800 + ((p - 0x10000) >>> 10 &&& 0x3ff)) % 2 ^ 16 = 0xd800 + (p - 0x10000) / 1024 := by
      rw [and_1023, Nat.shiftRight_eq_div_pow]
      omega
    have hlo : (0xdc00 + ((p - 0x10000) &&& 0x3ff)) % 2 ^ 16 = 0xdc00 + (p - 0x10000) % 1024 := by
      rw [and_1023]
      omega
    rw [hhi, hlo]
    obtain ⟨b0, b1, e1, e2⟩ := getUnit_putUnit be (0xd800 + (p - 0x10000) / 1024) (by omega)
    obtain ⟨b2, b3, e3, e4⟩ := getUnit_putUnit be (0xdc00 + (p - 0x10000) % 1024) (by omega)
    refine ⟨_, rfl, by rw [e1, e3]; rfl, ?_⟩
    rw [e1, e3]
    simp only [List.cons_append, List.nil_append]
    unfold decodeUTF16
    simp only [e2, e4]
    rw [if_pos (by omega), if_pos (by omega)]
    have : 0x10000 + ((0xd800 + (p - 0x10000) / 1024 - 0xd800) <<< 10) +
        (0xdc00 + (p - 0x10000) % 1024 - 0xdc00) = p := by
      rw [Nat.shiftLeft_eq]
      omega
    rw [this]
    rfl

example : IsScalar 0x1F600 ∧ encodeUTF16 true 4 0x1F600 = some [0xD8, 0x3D, 0xDE, 0x00] ∧
    encodeUTF16 false 4 0x1F600 = some [0x3D, 0xD8, 0x00, 0xDE] := by decide

/-- **C03.** The units written are those of the UTF-16 standard: one unit equal to the point, or
the pair (0xD800 + high ten bits, 0xDC00 + low ten bits) of the point minus 0x10000; big endian
writes the high byte first. -/
theorem C03_utf16_standard (p : Nat) (hp : IsScalar p) :
    encodeUTF16 true 4 p = some
      (if p < 0x10000 then [UInt8.ofNat (p / 256), UInt8.ofNat (p % 256)]
       else
        let hi := 0xd800 + (p - 0x10000) / 1024
        let lo := 0xdc00 + (p - 0x10000) % 1024
        [UInt8.ofNat (hi / 256), UInt8.ofNat (hi % 256),
          UInt8.ofNat (lo / 256), UInt8.ofNat (lo % 256)]) ∧
    (∀ be s, encodeUTF16 be 4 p = some s → ∀ t, encodeUTF16 (!be) 4 p = some t →
      (t.length = 2 ∧ t = s.reverse) ∨
      (t.length = 4 ∧ t = (s.take 2).reverse ++ (s.drop 2).reverse)) := by
  have hmod : ∀ x : Nat, UInt8.ofNat x = UInt8.ofNat (x % 256) := by
    intro x; apply byte_ext; simp
  obtain ⟨hp1, hp2⟩ := hp
  constructor
  · unfold encodeUTF16 putUnit
    by_cases h1 : p < 0x10000
    · simp only [h1, ↓reduceIte, ge_iff_le, (by decide : 2 ≤ 4)]
      have hm : p % 2 ^ 16 = p := Nat.mod_eq_of_lt (by omega)
      rw [hm, Nat.shiftRight_eq_div_pow, hmod p]
    · simp only [h1, ↓reduceIte, ge_iff_le, (by decide : 4 ≤ 4)]
      have hhi : (0xd800 + ((p - 0x10000) >>> 10 &&& 0x3ff)) % 2 ^ 16 = 0xd800 + (p - 0x10000) / 1024 := by
        rw [and_1023, Nat.shiftRight_eq_div_pow]
        omega
      have hlo : (0xdc00 + ((p - 0x10000) &&& 0x3ff)) % 2 ^ 16 = 0xdc00 + (p - 0x10000) % 1024 := by
        rw [and_1023]
        omega
      rw [hhi, hlo, Nat.shiftRight_eq_div_pow, Nat.shiftRight_eq_div_pow,
        hmod (0xd800 + (p - 0x10000) / 1024), hmod (0xdc00 + (p - 0x10000) % 1024)]
      rfl
  · intro be s hs t ht
    unfold encodeUTF16 putUnit at hs ht
    by_cases h1 : p < 0x10000
    · simp only [h1, ↓reduceIte, ge_iff_le, (by decide : 2 ≤ 4), Option.some.injEq] at hs ht
      left
      subst hs; subst ht
      cases be <;> simp
    · simp only [h1, ↓reduceIte, ge_iff_le, (by decide : 4 ≤ 4), Option.some.injEq] at hs ht
      right
      subst hs; subst ht
      cases be <;> simp

example : IsScalar 0x20AC := by decide

/-- **C03.** Bounds on arbitrary bytes: never more bytes consumed than available; progress unless
fewer than two bytes remain. -/
theorem C03_utf16_progress (be : Bool) (view : List Byte) :
    (view.length < 2 → (decodeUTF16 be view).numBytes = 0 ∧
      (decodeUTF16 be view).status = .truncated) ∧
    (2 ≤ view.length → 2 ≤ (decodeUTF16 be view).numBytes ∧
      (decodeUTF16 be view).numBytes ≤ view.length) := by
  match view with
  | [] => simp [decodeUTF16, DecodeResult.none]
  | [_] => simp [decodeUTF16, DecodeResult.none]
  | b0 :: b1 :: more =>
    refine ⟨fun h => absurd h (by simp), fun _ => ?_⟩
    unfold decodeUTF16
    dsimp only
    split
    · match more with
      | [] | [_] => simp
      | b2 :: b3 :: t =>
        dsimp only
        split <;> simp
    · split <;> simp

example : 2 ≤ [(0xD8 : Byte), 0x3D].length ∧
    (decodeUTF16 true [0xD8, 0x3D]).status = .truncated := by decide

/-- The number spelled by two bytes. -/
def unit (be : Bool) (b0 b1 : Byte) : Nat :=
  if be then b0.toNat * 256 + b1.toNat else b1.toNat * 256 + b0.toNat

theorem getUnit_unit (be : Bool) (b0 b1 : Byte) : getUnit be b0 b1 = unit be b0 b1 := by
  have e : ∀ x y : Nat, y < 256 → (x <<< 8) ||| y = x * 256 + y := by
    intro x y hy
    rw [Nat.shiftLeft_eq, ← Nat.shiftLeft_eq, ← Nat.shiftLeft_add_eq_or_of_lt (by simpa using hy),
      Nat.shiftLeft_eq]
  unfold getUnit unit
  cases be
  · simp only [Bool.false_eq_true, ↓reduceIte]
    rw [Nat.or_comm]
    exact e _ _ b0.toNat_lt
  · simp only [↓reduceIte]
    exact e _ _ b1.toNat_lt

/-- **C03.** Decoding arbitrary bytes, exactly: a character below 0x10000 that is not a surrogate is itself;
a high surrogate followed by a low one is the character they stand for; a high surrogate followed by
anything else, or a low one by itself, is reported as invalid and passed over; a high surrogate with less
than two bytes behind it is reported as cut off. -/
theorem C03_utf16_decode_exact (be : Bool) (b0 b1 : Byte) (more : List Byte) :
    (unit be b0 b1 < 0xd800 ∨ 0xe000 ≤ unit be b0 b1 →
      decodeUTF16 be (b0 :: b1 :: more) = ⟨unit be b0 b1, .valid, 2⟩) ∧
    (0xdc00 ≤ unit be b0 b1 → unit be b0 b1 < 0xe000 →
      decodeUTF16 be (b0 :: b1 :: more) = ⟨unit be b0 b1, .invalid, 2⟩) ∧
    (0xd800 ≤ unit be b0 b1 → unit be b0 b1 < 0xdc00 →
      (more.length < 2 → decodeUTF16 be (b0 :: b1 :: more) = ⟨unit be b0 b1, .truncated, 2⟩) ∧
      ∀ b2 b3 rest, more = b2 :: b3 :: rest →
        (0xdc00 ≤ unit be b2 b3 ∧ unit be b2 b3 < 0xe000 → decodeUTF16 be (b0 :: b1 :: more) =
          ⟨((0x10000 + (unit be b0 b1 - 0xd800) * 1024 + (unit be b2 b3 - 0xdc00) : Nat) : Int), .valid, 4⟩) ∧
        (¬(0xdc00 ≤ unit be b2 b3 ∧ unit be b2 b3 < 0xe000) →
          decodeUTF16 be (b0 :: b1 :: more) = ⟨unit be b0 b1, .invalid, 2⟩)) := by
  unfold decodeUTF16
  dsimp only
  simp only [getUnit_unit]
  refine ⟨fun h => ?_, fun h1 h2 => ?_, fun h1 h2 => ⟨fun h => ?_, ?_⟩⟩
  · rw [if_neg (by omega), if_pos (by omega)]
  · rw [if_neg (by omega), if_neg (by omega)]
  · rw [if_pos (by omega)]
    match more, h with
    | [], _ => rfl
    | [_], _ => rfl
  · rintro b2 b3 rest rfl
    rw [if_pos (by omega)]
    dsimp only
    refine ⟨fun h => ?_, fun h => by rw [if_neg h]⟩
    rw [if_pos h, Nat.shiftLeft_eq]

example : decodeUTF16 false [0x3d, 0xd8, 0x00, 0xde] = ⟨0x1f600, .valid, 4⟩ ∧
    decodeUTF16 false [0x3d, 0xd8, 0x00, 0xe0] = ⟨0xd83d, .invalid, 2⟩ := by decide

/-! ## C59 -/

/-- **C59.** One byte per character: every byte is decoded as the character of the same number and encoded
back as itself; characters above 255 become the byte 0x95; decoding stops only at the end. -/
theorem C59_bytes (cap : Nat) (hcap : 0 < cap) :
    (∀ b rest, decodeBytes (b :: rest) = ⟨b.toNat, .valid, 1⟩ ∧ encodeBytes cap b.toNat = some [b]) ∧
    (∀ p, 256 ≤ p → encodeBytes cap p = some [0x95]) ∧ decodeBytes [] = .none ∧ encodeBytes 0 = fun _ => none := by
  refine ⟨fun b rest => ⟨rfl, ?_⟩, fun p hp => ?_, rfl, rfl⟩
  · rw [encodeBytes, if_pos hcap, if_pos b.toNat_lt]
    simp
  · rw [encodeBytes, if_pos hcap, if_neg (by omega)]

example : encodeBytes 1 0x20ac = some [0x95] := by decide

/-! ## C49 -/

/-- **C49.** Stepping backwards from arbitrary bytes, exactly: if the text ends with a well-formed sequence
then over that, otherwise over one byte. -/
theorem C49_utf8_back_exact (view : List Byte) (hne : view ≠ []) :
    (∃ s p, Sequence s p ∧ s <:+ view ∧ backUTF8 view = s.length) ∨
    ((∀ s p, Sequence s p → ¬ s <:+ view) ∧ backUTF8 view = 1) := by
  by_cases h : ∃ s p, Sequence s p ∧ s <:+ view
  · obtain ⟨s, p, hs, pre, rfl⟩ := h
    exact .inl ⟨s, p, hs, ⟨pre, rfl⟩, backUTF8_sequence pre hs⟩
  · refine .inr ⟨fun s p h1 h2 => h ⟨s, p, h1, h2⟩, ?_⟩
    have h2 : ∀ s p, Sequence s p → ¬ s.reverse <+: view.reverse :=
      fun s p h1 h2 => h ⟨s, p, h1, List.reverse_prefix.mp h2⟩
    have hne : view.reverse ≠ [] := by simpa using hne
    unfold backUTF8
    generalize view.reverse = r at h2 hne
    have two : ∀ t1 t2 rest, r = t1 :: t2 :: rest → isCont t1 = true → ¬ t2.toNat &&& 0xe0 = 0xc0 := by
      rintro t1 t2 rest rfl hc e
      obtain ⟨a1, a2⟩ := (lead_of_masks t2).1 e
      exact h2 _ _ (.two t2 t1 a1 a2 ((isCont_iff t1).mp hc)) ⟨rest, rfl⟩
    have three : ∀ t1 t2 t3 rest, r = t1 :: t2 :: t3 :: rest → isCont t1 = true → isCont t2 = true →
        ¬ t3.toNat &&& 0xf0 = 0xe0 := by
      rintro t1 t2 t3 rest rfl hc hd e
      obtain ⟨a1, a2⟩ := (lead_of_masks t3).2.1 e
      exact h2 _ _ (.three t3 t2 t1 a1 a2 ((isCont_iff t2).mp hd) ((isCont_iff t1).mp hc)) ⟨rest, rfl⟩
    have four : ∀ t1 t2 t3 t4 rest, r = t1 :: t2 :: t3 :: t4 :: rest → isCont t1 = true → isCont t2 = true →
        isCont t3 = true → ¬ t4.toNat &&& 0xf8 = 0xf0 := by
      rintro t1 t2 t3 t4 rest rfl hc hd he e
      obtain ⟨a1, a2⟩ := (lead_of_masks t4).2.2 e
      exact h2 _ _ (.four t4 t3 t2 t1 a1 a2 ((isCont_iff t3).mp he) ((isCont_iff t2).mp hd)
        ((isCont_iff t1).mp hc)) ⟨rest, rfl⟩
    match r, hne with
    | [t1], _ => dsimp only; split <;> rfl
    | [t1, t2], _ =>
      dsimp only
      split
      · rfl
      · rw [backUTF8Slow]
        split
        · rename_i hc; rw [if_neg (two t1 t2 [] rfl hc)]
        · rfl
    | [t1, t2, t3], _ =>
      dsimp only
      split
      · rfl
      · rw [backUTF8Slow]
        split
        · rename_i hc
          split
          · rename_i hd; rw [if_neg (three t1 t2 t3 [] rfl hc hd)]
          · rw [if_neg (two t1 t2 _ rfl hc)]
        · rfl
    | t1 :: t2 :: t3 :: t4 :: rest, _ =>
      dsimp only
      split
      · rfl
      · rw [backUTF8Slow]
        split
        · rename_i hc
          split
          · rename_i hd
            split
            · rename_i he; rw [if_neg (four t1 t2 t3 t4 rest rfl hc hd he)]
            · rw [if_neg (three t1 t2 t3 _ rfl hc hd)]
          · rw [if_neg (two t1 t2 _ rfl hc)]
        · rfl

example : backUTF8 [0x41, 0x82, 0xAC] = 1 ∧ backUTF8 [0x41, 0xC2, 0xAC] = 2 := by decide

/-- **C49.** Stepping backwards: after any bytes, the last encoded code point is found to have
exactly the number of bytes it was encoded with (UTF-8). -/
theorem C49_utf8_back (pre : List Byte) (p : Nat) (hp : p < 0x110000) (s : List Byte)
    (he : encodeUTF8 4 p = some s) : backUTF8 (pre ++ s) = s.length := by
  have hs : s = enc8 p := by
    rw [encodeUTF8_eq p 4 (by omega)
      (by unfold numBytesUTF8; split <;> (try split) <;> (try split) <;> omega)] at he
    exact (Option.some.inj he).symm
  have hseq : Sequence s p := hs ▸ enc8_sequence p (by omega)
  exact backUTF8_sequence pre hseq

example : encodeUTF8 4 0x20AC = some [0xE2, 0x82, 0xAC] ∧
    backUTF8 [0x41, 0xE2, 0x82, 0xAC] = 3 := by decide

/-- **C49.** The same for UTF-16. -/
theorem C49_utf16_back (be : Bool) (pre : List Byte) (p : Nat) (hp : IsScalar p) (s : List Byte)
    (he : encodeUTF16 be 4 p = some s) : backUTF16 be (pre ++ s) = s.length := by
  obtain ⟨hp1, hp2⟩ := hp
  unfold encodeUTF16 at he
  by_cases h1 : p < 0x10000
  · simp only [h1, ↓reduceIte, ge_iff_le, (by decide : 2 ≤ 4), Option.some.injEq] at he
    obtain ⟨b0, b1, e1, e2⟩ := getUnit_putUnit be (p % 2 ^ 16) (Nat.mod_lt _ (by decide))
    have hm : p % 2 ^ 16 = p := Nat.mod_eq_of_lt (by omega)
    rw [hm] at e2
    rw [← he, e1]
    unfold backUTF16
    rw [List.reverse_append]
    simp only [List.reverse_cons, List.reverse_nil, List.nil_append, List.cons_append]
    match pre.reverse with
    | [] => rfl
    | [_] => rfl
    | t3 :: t4 :: t =>
      dsimp only
      rw [if_neg (by rw [e2]; omega)]
      rfl
  · simp only [h1, ↓reduceIte, ge_iff_le, (by decide : 4 ≤ 4), Option.some.injEq] at he
    have hhi : (0xd800 + ((p - 0x10000) >>> 10 &&& 0x3ff)) % 2 ^ 16 = 0xd800 + (p - 0x10000) / 1024 := by
      rw [and_1023, Nat.shiftRight_eq_div_pow]
      omega
    have hlo : (0xdc00 + ((p - 0x10000) &&& 0x3ff)) % 2 ^ 16 = 0xdc00 + (p - 0x10000) % 1024 := by
      rw [and_1023]
      omega
    rw [hhi, hlo] at he
    obtain ⟨b0, b1, e1, e2⟩ := getUnit_putUnit be (0xd800 + (p - 0x10000) / 1024) (by omega)
    obtain ⟨b2, b3, e3, e4⟩ := getUnit_putUnit be (0xdc00 + (p - 0x10000) % 1024) (by omega)
    rw [← he, e1, e3]
    unfold backUTF16
    rw [List.reverse_append]
    simp only [List.reverse_cons, List.reverse_nil, List.nil_append, List.cons_append]
    rw [if_pos (by rw [e2, e4]; omega)]
    rfl

example : IsScalar 0x1F600 ∧ backUTF16 true [0x00, 0x41, 0xD8, 0x3D, 0xDE, 0x00] = 4 := by decide

/-- **C49.** Reversing any byte string terminates without reading or writing out of range and
permutes the bytes. -/
theorem C49_reversed_total (view : List Byte) :
    ∃ r, reversedUTF8 view = some r ∧ r.Perm view := by
  suffices H : ∀ fuel (view : List Byte), view.length ≤ fuel →
      ∃ r, reversedLoop fuel view = some r ∧ r.Perm view from H _ _ (Nat.le_refl _)
  intro fuel
  induction fuel with
  | zero =>
    intro view h
    have : view = [] := List.length_eq_zero_iff.mp (by omega)
    subst this
    exact ⟨[], rfl, .refl _⟩
  | succ fuel ih =>
    intro view h
    cases view with
    | nil => exact ⟨[], rfl, .refl _⟩
    | cons b bs =>
      have hk := backUTF8_bounds (b :: bs) (by simp)
      obtain ⟨r, e, hperm⟩ := ih ((b :: bs).take ((b :: bs).length - backUTF8 (b :: bs)))
        (by rw [List.length_take]; omega)
      refine ⟨(b :: bs).drop ((b :: bs).length - backUTF8 (b :: bs)) ++ r, ?_, ?_⟩
      · unfold reversedLoop
        simp only []
        rw [if_pos hk, e]
        rfl
      · refine (hperm.append_left _).trans (List.perm_append_comm.trans ?_)
        rw [List.take_append_drop]

example : reversedUTF8 [0xFF, 0xC3, 0x41] = some [0x41, 0xC3, 0xFF] := by decide

/-- **C49.** Reversing encoded text reverses the sequence of code points. -/
theorem C49_reversed_text (ps : List Nat) (h : ∀ p ∈ ps, p < 0x110000) (enc : Nat → List Byte)
    (henc : ∀ p, p < 0x110000 → encodeUTF8 4 p = some (enc p)) :
    reversedUTF8 (ps.flatMap enc) = some (ps.reverse.flatMap enc) := by
  suffices H : ∀ (qs : List Nat), (∀ p ∈ qs, p < 0x110000) → ∀ fuel,
      (qs.reverse.flatMap enc).length ≤ fuel →
      reversedLoop fuel (qs.reverse.flatMap enc) = some (qs.flatMap enc) by
    have := H ps.reverse (by simpa using h) (ps.flatMap enc).length (by simp)
    rwa [List.reverse_reverse] at this
  intro qs
  induction qs with
  | nil => intro _ fuel _; cases fuel <;> rfl
  | cons p qs ih =>
    intro hq fuel hf
    have hp := hq p (by simp)
    have hb := C49_utf8_back (qs.reverse.flatMap enc) p hp _ (henc p hp)
    have hl : 0 < (enc p).length := by
      have h1 := henc p hp
      rw [encodeUTF8_eq p 4 (by omega) (by unfold numBytesUTF8; split <;> (try split) <;> (try split) <;> omega)] at h1
      rw [← Option.some.inj h1]
      exact (enc8_sequence p (by omega)).length_pos
    have he : (p :: qs).reverse.flatMap enc = qs.reverse.flatMap enc ++ enc p := by
      simp [List.flatMap_append]
    rw [he] at hf ⊢
    rw [List.length_append] at hf
    cases fuel with
    | zero => omega
    | succ fuel =>
      cases hx : qs.reverse.flatMap enc ++ enc p with
      | nil => simp at hx; rw [hx.2] at hl; simp at hl
      | cons b bs =>
        unfold reversedLoop
        rw [← hx]
        simp only [hb]
        rw [if_pos ⟨hl, by simp⟩]
        have e1 : (qs.reverse.flatMap enc ++ enc p).length - (enc p).length =
            (qs.reverse.flatMap enc).length := by simp
        rw [e1, List.take_left, List.drop_left, ih (fun q hh => hq q (by simp [hh])) fuel (by omega)]
        simp

example : reversedUTF8 [0x41, 0xC3, 0xA9, 0xE2, 0x82, 0xAC] =
    some [0xE2, 0x82, 0xAC, 0xC3, 0xA9, 0x41] := by decide

end Verif.Enc
