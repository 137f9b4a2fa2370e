import Verif.Enc.Model
import Verif.Enc.Spec
namespace Verif.Enc
open Verif

theorem isCont_iff (b : Byte) : isCont b = true ↔ Cont b := by
  revert b
  apply forall_byte
  decide +kernel

theorem sel_eq (b : Byte) : (b.toNat >>> 3) &&& 0xf = b.toNat / 8 % 16 := by
  rw [and_15, Nat.shiftRight_eq_div_pow]

theorem consume_eq (v : Nat) (b : Byte) (h : Cont b) : consume v b = v * 64 + (b.toNat - 0x80) := by
  unfold consume
  have h1 : b.toNat &&& 0x3f = b.toNat % 64 := and_63 _
  have h2 := h.1
  have h3 := h.2
  rw [h1, shl_or v _ 6 (Nat.mod_lt _ (by decide))]
  have : b.toNat % 64 = b.toNat - 0x80 := by omega
  rw [this]

theorem or_c0 (n : Nat) (h : n < 32) : 0xc0 ||| n = 0xc0 + n := by
  revert n; decide
theorem or_e0 (n : Nat) (h : n < 16) : 0xe0 ||| n = 0xe0 + n := by
  revert n; decide
theorem or_f0 (n : Nat) (h : n < 8) : 0xf0 ||| n = 0xf0 + n := by
  revert n; decide
theorem or_80 (n : Nat) (h : n < 64) : 0x80 ||| n = 0x80 + n := by
  revert n; decide +kernel

/-- The bytes the encoder stores, in plain arithmetic. -/
def enc8 (p : Nat) : List Byte :=
  if p < 0x80 then [UInt8.ofNat p]
  else if p < 0x800 then [UInt8.ofNat (0xc0 + p / 64), UInt8.ofNat (0x80 + p % 64)]
  else if p < 0x10000 then
    [UInt8.ofNat (0xe0 + p / 4096), UInt8.ofNat (0x80 + p / 64 % 64), UInt8.ofNat (0x80 + p % 64)]
  else [UInt8.ofNat (0xf0 + p / 262144), UInt8.ofNat (0x80 + p / 4096 % 64),
    UInt8.ofNat (0x80 + p / 64 % 64), UInt8.ofNat (0x80 + p % 64)]

theorem encodeUTF8_eq (p cap : Nat) (hp : p < 0x200000) (hc : numBytesUTF8 p ≤ cap) :
    encodeUTF8 cap p = some (enc8 p) := by
  unfold encodeUTF8 enc8
  unfold numBytesUTF8 at hc
  by_cases h1 : p < 0x80
  · simp only [h1, ↓reduceIte] at hc ⊢
    rw [if_pos hc]
  · by_cases h2 : p < 0x800
    · simp only [h1, h2, ↓reduceIte] at hc ⊢
      rw [if_pos hc, and_63, Nat.shiftRight_eq_div_pow, or_c0 _ (by omega), or_80 _ (by omega)]
    · by_cases h3 : p < 0x10000
      · simp only [h1, h2, h3, ↓reduceIte] at hc ⊢
        rw [if_pos hc, and_63, and_63, Nat.shiftRight_eq_div_pow, Nat.shiftRight_eq_div_pow,
          or_e0 _ (by omega), or_80 _ (by omega), or_80 _ (by omega)]
      · simp only [h1, h2, h3, ↓reduceIte] at hc ⊢
        rw [if_pos hc, and_63, and_63, and_63, Nat.shiftRight_eq_div_pow, Nat.shiftRight_eq_div_pow,
          Nat.shiftRight_eq_div_pow, or_f0 _ (by omega), or_80 _ (by omega), or_80 _ (by omega),
          or_80 _ (by omega)]

theorem enc8_length (p : Nat) : (enc8 p).length = numBytesUTF8 p := by
  unfold enc8 numBytesUTF8
  split
  · rfl
  · split
    · rfl
    · split <;> rfl

theorem enc8_sequence (p : Nat) (hp : p < 0x200000) : Sequence (enc8 p) p := by
  have cont : ∀ x, x < 64 → Cont (UInt8.ofNat (0x80 + x)) := by
    intro x hx
    unfold Cont
    rw [toNat_ofNat_byte (by omega)]
    omega
  unfold enc8
  by_cases h1 : p < 0x80
  · simp only [h1, ↓reduceIte]
    have := Sequence.one (UInt8.ofNat p) (by rw [toNat_ofNat_byte (by omega)]; exact h1)
    rwa [toNat_ofNat_byte (by omega)] at this
  · by_cases h2 : p < 0x800
    · simp only [h1, h2, ↓reduceIte]
      have := Sequence.two (UInt8.ofNat (0xc0 + p / 64)) (UInt8.ofNat (0x80 + p % 64))
        (by rw [toNat_ofNat_byte (by omega)]; omega) (by rw [toNat_ofNat_byte (by omega)]; omega)
        (cont _ (by omega))
      rw [toNat_ofNat_byte (by omega), toNat_ofNat_byte (by omega)] at this
      have e : (0xc0 + p / 64 - 0xc0) * 64 + (0x80 + p % 64 - 0x80) = p := by omega
      rwa [e] at this
    · by_cases h3 : p < 0x10000
      · simp only [h1, h2, h3, ↓reduceIte]
        have := Sequence.three (UInt8.ofNat (0xe0 + p / 4096)) (UInt8.ofNat (0x80 + p / 64 % 64))
          (UInt8.ofNat (0x80 + p % 64))
          (by rw [toNat_ofNat_byte (by omega)]; omega) (by rw [toNat_ofNat_byte (by omega)]; omega)
          (cont _ (by omega)) (cont _ (by omega))
        rw [toNat_ofNat_byte (by omega), toNat_ofNat_byte (by omega),
          toNat_ofNat_byte (by omega)] at this
        have e : ((0xe0 + p / 4096 - 0xe0) * 64 + (0x80 + p / 64 % 64 - 0x80)) * 64 +
            (0x80 + p % 64 - 0x80) = p := by omega
        rwa [e] at this
      · simp only [h1, h2, h3, ↓reduceIte]
        have := Sequence.four (UInt8.ofNat (0xf0 + p / 262144)) (UInt8.ofNat (0x80 + p / 4096 % 64))
          (UInt8.ofNat (0x80 + p / 64 % 64)) (UInt8.ofNat (0x80 + p % 64))
          (by rw [toNat_ofNat_byte (by omega)]; omega) (by rw [toNat_ofNat_byte (by omega)]; omega)
          (cont _ (by omega)) (cont _ (by omega)) (cont _ (by omega))
        rw [toNat_ofNat_byte (by omega), toNat_ofNat_byte (by omega),
          toNat_ofNat_byte (by omega), toNat_ofNat_byte (by omega)] at this
        have e : (((0xf0 + p / 262144 - 0xf0) * 64 + (0x80 + p / 4096 % 64 - 0x80)) * 64 +
            (0x80 + p / 64 % 64 - 0x80)) * 64 + (0x80 + p % 64 - 0x80) = p := by omega
        rwa [e] at this

theorem decodeUTF8_slow (a : Byte) (rest : List Byte) (h : ¬ a.toNat < 0x80) :
    decodeUTF8 (a :: rest) = decodeUTF8Slow (a :: rest) := by
  unfold decodeUTF8
  exact if_neg h

/-- A structurally complete sequence at the start of the view decodes as Valid. -/
theorem decode_of_sequence {s : List Byte} {p : Nat} (h : Sequence s p) (rest : List Byte) :
    decodeUTF8 (s ++ rest) = ⟨p, .valid, s.length⟩ := by
  cases h with
  | one a ha => simp [decodeUTF8, ha]
  | two a b h1 h2 hb =>
    have e := sel_eq a
    have hs : a.toNat / 8 % 16 = 8 ∨ a.toNat / 8 % 16 = 9 ∨ a.toNat / 8 % 16 = 10 ∨
      a.toNat / 8 % 16 = 11 := by omega
    have hm : a.toNat &&& 0x1f = a.toNat - 0xc0 := by rw [and_31]; omega
    have hc := (isCont_iff b).mpr hb
    have hlt : ¬ a.toNat < 0x80 := by omega
    simp only [List.cons_append, List.nil_append, decodeUTF8, hlt, ↓reduceIte, decodeUTF8Slow, e, hs,
      hc, hm, consume_eq _ b hb, List.length_cons, List.length_nil]
  | three a b c h1 h2 hb hc' =>
    have e := sel_eq a
    have hs1 : ¬ (a.toNat / 8 % 16 = 8 ∨ a.toNat / 8 % 16 = 9 ∨ a.toNat / 8 % 16 = 10 ∨
      a.toNat / 8 % 16 = 11) := by omega
    have hs : a.toNat / 8 % 16 = 12 ∨ a.toNat / 8 % 16 = 13 := by omega
    have hm : a.toNat &&& 0xf = a.toNat - 0xe0 := by rw [and_15]; omega
    have hc1 := (isCont_iff b).mpr hb
    have hc2 := (isCont_iff c).mpr hc'
    have hlt : ¬ a.toNat < 0x80 := by omega
    simp only [List.cons_append, List.nil_append, decodeUTF8, hlt, ↓reduceIte, decodeUTF8Slow, e, hs,
      hs1, hc1, hc2, hm, consume_eq _ b hb, consume_eq _ c hc', Bool.and_self,
      List.length_cons, List.length_nil]
  | four a b c d h1 h2 hb hc' hd =>
    have e := sel_eq a
    have hs1 : ¬ (a.toNat / 8 % 16 = 8 ∨ a.toNat / 8 % 16 = 9 ∨ a.toNat / 8 % 16 = 10 ∨
      a.toNat / 8 % 16 = 11) := by omega
    have hs2 : ¬ (a.toNat / 8 % 16 = 12 ∨ a.toNat / 8 % 16 = 13) := by omega
    have hs : a.toNat / 8 % 16 = 14 := by omega
    have hm : a.toNat &&& 0x7 = a.toNat - 0xf0 := by rw [and_7]; omega
    have hc1 := (isCont_iff b).mpr hb
    have hc2 := (isCont_iff c).mpr hc'
    have hc3 := (isCont_iff d).mpr hd
    have hlt : ¬ a.toNat < 0x80 := by omega
    rw [List.cons_append, List.cons_append, List.cons_append, List.cons_append, List.nil_append]
    rw [decodeUTF8_slow _ _ hlt]
    unfold decodeUTF8Slow
    simp only [e, hs1, hs2, ↓reduceIte]
    rw [if_pos hs]
    simp only [hc1, hc2, hc3, hm, consume_eq _ b hb, consume_eq _ c hc', consume_eq _ d hd,
      Bool.and_self, ↓reduceIte, List.length_cons, List.length_nil]

/-- Complete case description of the decoder on a non-empty view. -/
theorem decode_cases (a : Byte) (rest : List Byte) :
    (∃ s p, Sequence s p ∧ s <+: (a :: rest) ∧ decodeUTF8 (a :: rest) = ⟨p, .valid, s.length⟩) ∨
    ((∃ n, announced a = some n ∧ n ≤ (a :: rest).length ∧
        ¬ (∃ s p, Sequence s p ∧ s <+: (a :: rest))) ∧
      decodeUTF8 (a :: rest) = ⟨a.toNat, .invalid, 1⟩) ∨
    ((announced a = none ∨ ∃ n, announced a = some n ∧ (a :: rest).length < n) ∧
      decodeUTF8 (a :: rest) = ⟨a.toNat, .truncated, 1⟩) := by
  by_cases h0 : a.toNat < 0x80
  · left
    exact ⟨[a], a.toNat, .one a h0, by simp, decode_of_sequence (.one a h0) rest⟩
  have hlt := byte_lt a
  have e := sel_eq a
  -- no sequence can start with `a` unless it has the announced shape
  have shape : ∀ s p, Sequence s p → s <+: (a :: rest) →
      (0xc0 ≤ a.toNat ∧ a.toNat < 0xe0 ∧ ∃ b t, rest = b :: t ∧ Cont b) ∨
      (0xe0 ≤ a.toNat ∧ a.toNat < 0xf0 ∧ ∃ b c t, rest = b :: c :: t ∧ Cont b ∧ Cont c) ∨
      (0xf0 ≤ a.toNat ∧ a.toNat < 0xf8 ∧ ∃ b c d t, rest = b :: c :: d :: t ∧ Cont b ∧ Cont c ∧
        Cont d) := by
    intro s p hs hp
    obtain ⟨t, ht⟩ := hp
    cases hs with
    | one a' h =>
      simp only [List.cons_append, List.nil_append, List.cons.injEq] at ht
      rw [ht.1] at h; omega
    | two a' b h1 h2 hb =>
      simp only [List.cons_append, List.nil_append, List.cons.injEq] at ht
      obtain ⟨rfl, ht⟩ := ht
      exact Or.inl ⟨h1, h2, b, t, ht.symm, hb⟩
    | three a' b c h1 h2 hb hc =>
      simp only [List.cons_append, List.nil_append, List.cons.injEq] at ht
      obtain ⟨rfl, ht⟩ := ht
      exact Or.inr (Or.inl ⟨h1, h2, b, c, t, ht.symm, hb, hc⟩)
    | four a' b c d h1 h2 hb hc hd =>
      simp only [List.cons_append, List.nil_append, List.cons.injEq] at ht
      obtain ⟨rfl, ht⟩ := ht
      exact Or.inr (Or.inr ⟨h1, h2, b, c, d, t, ht.symm, hb, hc, hd⟩)
  by_cases h1 : a.toNat < 0xc0
  · right; right
    refine ⟨Or.inl (by simp [announced, h0, h1]), ?_⟩
    have hs1 : ¬ (a.toNat / 8 % 16 = 8 ∨ a.toNat / 8 % 16 = 9 ∨ a.toNat / 8 % 16 = 10 ∨
      a.toNat / 8 % 16 = 11) := by omega
    have hs2 : ¬ (a.toNat / 8 % 16 = 12 ∨ a.toNat / 8 % 16 = 13) := by omega
    have hs3 : ¬ (a.toNat / 8 % 16 = 14) := by omega
    rw [decodeUTF8_slow _ _ h0]
    unfold decodeUTF8Slow
    simp only [e]
    rw [if_neg hs1, if_neg hs2, if_neg hs3]
    rfl
  by_cases h2 : a.toNat < 0xe0
  · have hs1 : (a.toNat / 8 % 16 = 8 ∨ a.toNat / 8 % 16 = 9 ∨ a.toNat / 8 % 16 = 10 ∨
      a.toNat / 8 % 16 = 11) := by omega
    have han : announced a = some 2 := by simp [announced, h0, h1, h2]
    cases rest with
    | nil =>
      right; right
      refine ⟨Or.inr ⟨2, han, by simp⟩, ?_⟩
      rw [decodeUTF8_slow _ _ h0]
      unfold decodeUTF8Slow
      simp only [e]
      rw [if_pos hs1]
      rfl
    | cons b t =>
      by_cases hb : Cont b
      · left
        have hseq := Sequence.two a b (by omega) h2 hb
        exact ⟨_, _, hseq, ⟨t, by simp⟩, decode_of_sequence hseq t⟩
      · right; left
        refine ⟨⟨2, han, by simp, ?_⟩, ?_⟩
        · rintro ⟨s, p, hs, hp⟩
          rcases shape s p hs hp with ⟨_, _, b', t', ht, hc⟩ | ⟨_, _, _⟩ | ⟨_, _, _⟩
          · simp only [List.cons.injEq] at ht
            exact hb (ht.1 ▸ hc)
          · omega
          · omega
        · have hnc : isCont b = false := by
            rw [Bool.eq_false_iff]; exact fun h => hb ((isCont_iff b).mp h)
          rw [decodeUTF8_slow _ _ h0]
          unfold decodeUTF8Slow
          simp only [e]
          rw [if_pos hs1, hnc]
          rfl
  by_cases h3 : a.toNat < 0xf0
  · have hs1 : ¬ (a.toNat / 8 % 16 = 8 ∨ a.toNat / 8 % 16 = 9 ∨ a.toNat / 8 % 16 = 10 ∨
      a.toNat / 8 % 16 = 11) := by omega
    have hs2 : (a.toNat / 8 % 16 = 12 ∨ a.toNat / 8 % 16 = 13) := by omega
    have han : announced a = some 3 := by simp [announced, h0, h1, h2, h3]
    match rest with
    | [] =>
      right; right
      refine ⟨Or.inr ⟨3, han, by simp⟩, ?_⟩
      rw [decodeUTF8_slow _ _ h0]
      unfold decodeUTF8Slow
      simp only [e]
      rw [if_neg hs1, if_pos hs2]
      rfl
    | [b] =>
      right; right
      refine ⟨Or.inr ⟨3, han, by simp⟩, ?_⟩
      rw [decodeUTF8_slow _ _ h0]
      unfold decodeUTF8Slow
      simp only [e]
      rw [if_neg hs1, if_pos hs2]
      rfl
    | b :: c :: t =>
      by_cases hbc : Cont b ∧ Cont c
      · left
        have hseq := Sequence.three a b c (by omega) h3 hbc.1 hbc.2
        exact ⟨_, _, hseq, ⟨t, by simp⟩, decode_of_sequence hseq t⟩
      · right; left
        refine ⟨⟨3, han, by simp, ?_⟩, ?_⟩
        · rintro ⟨s, p, hs, hp⟩
          rcases shape s p hs hp with ⟨_, _, _⟩ | ⟨_, _, b', c', t', ht, hb', hc'⟩ | ⟨_, _, _⟩
          · omega
          · simp only [List.cons.injEq] at ht
            exact hbc ⟨ht.1 ▸ hb', ht.2.1 ▸ hc'⟩
          · omega
        · have hnc : (isCont b && isCont c) = false := by
            rw [Bool.eq_false_iff]
            intro h
            rw [Bool.and_eq_true] at h
            exact hbc ⟨(isCont_iff b).mp h.1, (isCont_iff c).mp h.2⟩
          rw [decodeUTF8_slow _ _ h0]
          unfold decodeUTF8Slow
          simp only [e]
          rw [if_neg hs1, if_pos hs2, hnc]
          rfl
  by_cases h4 : a.toNat < 0xf8
  · have hs1 : ¬ (a.toNat / 8 % 16 = 8 ∨ a.toNat / 8 % 16 = 9 ∨ a.toNat / 8 % 16 = 10 ∨
      a.toNat / 8 % 16 = 11) := by omega
    have hs2 : ¬ (a.toNat / 8 % 16 = 12 ∨ a.toNat / 8 % 16 = 13) := by omega
    have hs3 : (a.toNat / 8 % 16 = 14) := by omega
    have han : announced a = some 4 := by simp [announced, h0, h1, h2, h3, h4]
    match rest with
    | [] | [b] | [b, c] =>
      right; right
      refine ⟨Or.inr ⟨4, han, by simp⟩, ?_⟩
      rw [decodeUTF8_slow _ _ h0]
      unfold decodeUTF8Slow
      simp only [e]
      rw [if_neg hs1, if_neg hs2, if_pos hs3]
      rfl
    | b :: c :: d :: t =>
      by_cases hbc : Cont b ∧ Cont c ∧ Cont d
      · left
        have hseq := Sequence.four a b c d (by omega) h4 hbc.1 hbc.2.1 hbc.2.2
        exact ⟨_, _, hseq, ⟨t, by simp⟩, decode_of_sequence hseq t⟩
      · right; left
        refine ⟨⟨4, han, by simp, ?_⟩, ?_⟩
        · rintro ⟨s, p, hs, hp⟩
          rcases shape s p hs hp with ⟨_, _, _⟩ | ⟨_, _, _⟩ | ⟨_, _, b', c', d', t', ht, hb', hc', hd'⟩
          · omega
          · omega
          · simp only [List.cons.injEq] at ht
            exact hbc ⟨ht.1 ▸ hb', ht.2.1 ▸ hc', ht.2.2.1 ▸ hd'⟩
        · have hnc : (isCont b && isCont c && isCont d) = false := by
            rw [Bool.eq_false_iff]
            intro h
            rw [Bool.and_eq_true, Bool.and_eq_true] at h
            exact hbc ⟨(isCont_iff b).mp h.1.1, (isCont_iff c).mp h.1.2, (isCont_iff d).mp h.2⟩
          rw [decodeUTF8_slow _ _ h0]
          unfold decodeUTF8Slow
          simp only [e]
          rw [if_neg hs1, if_neg hs2, if_pos hs3, hnc]
          rfl
  · right; right
    refine ⟨Or.inl (by simp [announced, h0, h1, h2, h3, h4]), ?_⟩
    have hs1 : ¬ (a.toNat / 8 % 16 = 8 ∨ a.toNat / 8 % 16 = 9 ∨ a.toNat / 8 % 16 = 10 ∨
      a.toNat / 8 % 16 = 11) := by omega
    have hs2 : ¬ (a.toNat / 8 % 16 = 12 ∨ a.toNat / 8 % 16 = 13) := by omega
    have hs3 : ¬ (a.toNat / 8 % 16 = 14) := by omega
    rw [decodeUTF8_slow _ _ h0]
    unfold decodeUTF8Slow
    simp only [e]
    rw [if_neg hs1, if_neg hs2, if_neg hs3]
    rfl

theorem Sequence.length_pos {s : List Byte} {p : Nat} (h : Sequence s p) : 0 < s.length := by
  cases h <;> simp

theorem Sequence.length_le {s : List Byte} {p : Nat} (h : Sequence s p) : s.length ≤ 4 := by
  cases h <;> simp

theorem Sequence.announced {s : List Byte} {p : Nat} (h : Sequence s p) :
    ∃ a t, s = a :: t ∧ Enc.announced a = some s.length := by
  cases h with
  | one a ha => exact ⟨a, [], rfl, by simp [Enc.announced, ha]⟩
  | two a b h1 h2 hb =>
    refine ⟨a, [b], rfl, ?_⟩
    have : ¬ a.toNat < 0x80 := by omega
    have : ¬ a.toNat < 0xc0 := by omega
    simp [Enc.announced, *]
  | three a b c h1 h2 hb hc =>
    refine ⟨a, [b, c], rfl, ?_⟩
    have : ¬ a.toNat < 0x80 := by omega
    have : ¬ a.toNat < 0xc0 := by omega
    have : ¬ a.toNat < 0xe0 := by omega
    simp [Enc.announced, *]
  | four a b c d h1 h2 hb hc hd =>
    refine ⟨a, [b, c, d], rfl, ?_⟩
    have : ¬ a.toNat < 0x80 := by omega
    have : ¬ a.toNat < 0xc0 := by omega
    have : ¬ a.toNat < 0xe0 := by omega
    have : ¬ a.toNat < 0xf0 := by omega
    simp [Enc.announced, *]

/-- UTF-16 unit round trip. -/
theorem getUnit_putUnit (be : Bool) (u : Nat) (hu : u < 2 ^ 16) :
    ∃ b0 b1, putUnit be u = [b0, b1] ∧ getUnit be b0 b1 = u := by
  have h1 : u >>> 8 = u / 256 := by rw [Nat.shiftRight_eq_div_pow]
  have e2 : (UInt8.ofNat u).toNat = u % 256 := by simp
  have e1 : (UInt8.ofNat (u / 256)).toNat = u / 256 := toNat_ofNat_byte (by omega)
  cases be with
  | true =>
    refine ⟨UInt8.ofNat (u >>> 8), UInt8.ofNat u, by simp [putUnit], ?_⟩
    simp only [getUnit, ↓reduceIte]
    rw [h1, e1, e2, shl_or _ _ 8 (Nat.mod_lt _ (by decide))]
    omega
  | false =>
    refine ⟨UInt8.ofNat u, UInt8.ofNat (u >>> 8), by simp [putUnit], ?_⟩
    simp only [getUnit, Bool.false_eq_true, ↓reduceIte]
    rw [h1, e1, e2, Nat.or_comm, shl_or _ _ 8 (Nat.mod_lt _ (by decide))]
    omega

theorem masks_of_lead (a : Byte) :
    (0xc0 ≤ a.toNat → a.toNat < 0xe0 → isCont a = false ∧ a.toNat &&& 0xe0 = 0xc0) ∧
    (0xe0 ≤ a.toNat → a.toNat < 0xf0 → isCont a = false ∧ a.toNat &&& 0xf0 = 0xe0) ∧
    (0xf0 ≤ a.toNat → a.toNat < 0xf8 → isCont a = false ∧ a.toNat &&& 0xf8 = 0xf0) := by
  revert a
  apply forall_byte
  decide +kernel

theorem lead_of_masks (a : Byte) :
    (a.toNat &&& 0xe0 = 0xc0 → 0xc0 ≤ a.toNat ∧ a.toNat < 0xe0) ∧
    (a.toNat &&& 0xf0 = 0xe0 → 0xe0 ≤ a.toNat ∧ a.toNat < 0xf0) ∧
    (a.toNat &&& 0xf8 = 0xf0 → 0xf0 ≤ a.toNat ∧ a.toNat < 0xf8) := by
  revert a
  apply forall_byte
  decide +kernel

theorem backUTF8_sequence (pre : List Byte) {s : List Byte} {p : Nat} (h : Sequence s p) :
    backUTF8 (pre ++ s) = s.length := by
  unfold backUTF8
  rw [List.reverse_append]
  cases h with
  | one a ha => simp [ha]
  | two a b h1 h2 hb =>
    have hm := (masks_of_lead a).1 h1 h2
    have hc := (isCont_iff b).mpr hb
    have hlt : ¬ b.toNat < 0x80 := by have := hb.1; omega
    simp only [List.reverse_cons, List.reverse_nil, List.nil_append, List.cons_append, hlt,
      ↓reduceIte]
    match pre.reverse with
    | [] | [_] | _ :: _ :: _ => simp [backUTF8Slow, hc, hm]
  | three a b c h1 h2 hb hc' =>
    have hm := (masks_of_lead a).2.1 h1 h2
    have hc1 := (isCont_iff b).mpr hb
    have hc2 := (isCont_iff c).mpr hc'
    have hlt : ¬ c.toNat < 0x80 := by have := hc'.1; omega
    simp only [List.reverse_cons, List.reverse_nil, List.nil_append, List.cons_append, hlt,
      ↓reduceIte]
    match pre.reverse with
    | [] | _ :: _ => simp [backUTF8Slow, hc1, hc2, hm]
  | four a b c d h1 h2 hb hc' hd =>
    have hm := (masks_of_lead a).2.2 h1 h2
    have hc1 := (isCont_iff b).mpr hb
    have hc2 := (isCont_iff c).mpr hc'
    have hc3 := (isCont_iff d).mpr hd
    have hlt : ¬ d.toNat < 0x80 := by have := hd.1; omega
    simp only [List.reverse_cons, List.reverse_nil, List.nil_append, List.cons_append, hlt,
      ↓reduceIte]
    simp [backUTF8Slow, hc1, hc2, hc3, hm]

theorem backUTF8_bounds (view : List Byte) (h : view ≠ []) :
    0 < backUTF8 view ∧ backUTF8 view ≤ view.length := by
  have hl : view.length = view.reverse.length := by simp
  have hne : view.reverse ≠ [] := by simpa using h
  unfold backUTF8
  rw [hl]
  generalize view.reverse = r at hne
  match r with
  | [] => exact absurd rfl hne
  | [a] => dsimp only; split <;> simp [backUTF8Slow]
  | [a, b] =>
    dsimp only
    split
    · simp
    · unfold backUTF8Slow
      dsimp only
      repeat' split
      all_goals simp_all
  | [a, b, c] =>
    dsimp only
    split
    · simp
    · unfold backUTF8Slow
      dsimp only
      repeat' split
      all_goals simp_all
  | a :: b :: c :: d :: t =>
    dsimp only
    split
    · simp
    · unfold backUTF8Slow
      dsimp only
      repeat' split
      all_goals simp_all

end Verif.Enc
