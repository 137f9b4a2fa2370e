import Verif.Sig.Spec
/-!
# Signatures — lemmas
-/
namespace Verif.Sig
open Verif Spec

theorem value_add (a b : U128) : value (add a b) = (value a + value b) % 2 ^ 128 := by
  obtain ⟨al, ah⟩ := a
  obtain ⟨bl, bh⟩ := b
  have h1 := al.toNat_lt
  have h2 := ah.toNat_lt
  have h3 := bl.toNat_lt
  have h4 := bh.toNat_lt
  unfold value add
  dsimp only
  by_cases h : al + bl < bl
  · rw [if_pos h]
    rw [UInt64.lt_iff_toNat_lt, UInt64.toNat_add] at h
    simp only [UInt64.toNat_add, UInt64.toNat_one]
    omega
  · rw [if_neg h]
    rw [UInt64.lt_iff_toNat_lt, UInt64.toNat_add] at h
    simp only [UInt64.toNat_add, UInt64.toNat_zero]
    omega

theorem value_lt (a : U128) : value a < 2 ^ 128 := by
  have h1 := a.lo.toNat_lt
  have h2 := a.hi.toNat_lt
  unfold value
  omega

theorem value_inj {a b : U128} (h : value a = value b) : a = b := by
  obtain ⟨al, ah⟩ := a
  obtain ⟨bl, bh⟩ := b
  have h1 := al.toNat_lt
  have h2 := ah.toNat_lt
  have h3 := bl.toNat_lt
  have h4 := bh.toNat_lt
  unfold value at h
  dsimp only at h
  have e1 : al.toNat = bl.toNat := by omega
  have e2 : ah.toNat = bh.toNat := by omega
  rw [UInt64.toNat_inj] at e1 e2
  rw [e1, e2]

theorem value_fold (hash : List Byte → U128) : ∀ (files : List File) (s : U128),
    value (files.foldl (fun sig f => add sig (hash f.bytes)) s) =
      (value s + (files.map fun f => value (hash f.bytes)).sum) % 2 ^ 128 := by
  intro files
  induction files with
  | nil =>
    intro s
    have := value_lt s
    simp only [List.foldl_nil, List.map_nil, List.sum_nil, Nat.add_zero]
    omega
  | cons f files ih =>
    intro s
    rw [List.foldl_cons, ih, value_add, List.map_cons, List.sum_cons]
    omega

theorem value_signature (hash : List Byte → U128) (files : List File) :
    value (signature hash files) = (1 + (files.map fun f => value (hash f.bytes)).sum) % 2 ^ 128 :=
  value_fold hash files _

theorem digit_zero (c : Byte) : Num.specDigit c = some 0 → c = 48 := by
  revert c
  apply forall_byte
  decide +kernel

theorem digit_hex (c : Byte) : (∃ d < 16, Num.specDigit c = some d) → ¬ (65 ≤ c ∧ c ≤ 90) → Hex c := by
  have : ∀ c : Byte, (Num.specDigit c).any (· < 16) = true → ¬ (65 ≤ c ∧ c ≤ 90) → (48 ≤ c ∧ c ≤ 57) ∨ (97 ≤ c ∧ c ≤ 102) := by
    apply forall_byte
    decide +kernel
  rintro ⟨d, hd, h⟩ hc
  exact this c (by rw [h]; simpa using hd) hc

theorem hex_digit (c : Byte) (h : Hex c) : Num.isDigit 16 c = true := by
  have : ∀ c : Byte, ((48 ≤ c ∧ c ≤ 57) ∨ (97 ≤ c ∧ c ≤ 102)) → Num.isDigit 16 c = true := by
    apply forall_byte
    decide +kernel
  exact this c h

theorem numeral_zeros (k : Nat) : Num.numeral 16 0 (List.replicate k 48) = 0 := by
  induction k with
  | zero => rfl
  | succ k ih =>
    rw [List.replicate_succ, Num.numeral]
    exact ih

theorem wordText_eq (w : UInt64) :
    ∃ t, wordText w = some t ∧ t.length = 16 ∧ (∀ c ∈ t, Hex c) ∧ number t = w.toNat := by
  obtain ⟨bs, h1, h2, h3, h4, _, h6⟩ := Num.C08_print_canonical w.toNat 16 false w.toNat_lt (by omega) (by omega)
  have hx : ∀ c ∈ bs, Hex c := fun c hc => digit_hex c (h3 c hc).1 (by simpa using (h3 c hc).2)
  have hl : bs.length ≤ 16 := by
    cases bs with
    | nil => exact absurd rfl h4
    | cons c cs =>
      by_cases h0 : c = 48
      · have := h6 (by rw [h0]; rfl)
        rw [this]; simp
      · obtain ⟨d, hd, hs⟩ := (h3 c (List.mem_cons_self ..)).1
        have hd0 : 0 < d := by
          rcases Nat.eq_zero_or_pos d with rfl | h
          · exact absurd (digit_zero c hs) h0
          · exact h
        have hn : Num.numeral 16 0 (c :: cs) = d * 16 ^ cs.length + Num.numeral 16 0 cs := by
          rw [Num.numeral, hs]
          have := Num.numeral_shift 16 cs (fun x hx' => hex_digit x (hx x (List.mem_cons_of_mem _ hx'))) d 0
          simpa using this
        have hlt := w.toNat_lt
        have : 16 ^ cs.length < 16 ^ 16 := by
          have h7 : 1 * 16 ^ cs.length ≤ d * 16 ^ cs.length := Nat.mul_le_mul_right _ hd0
          have h8 : (16 : Nat) ^ 16 = 2 ^ 64 := by decide
          rw [h8]
          omega
        have := (Nat.pow_lt_pow_iff_right (by omega : 1 < 16)).1 this
        simp only [List.length_cons]
        omega
  have e : (List.replicate 16 (48 : Byte) ++ bs).drop ((List.replicate 16 (48 : Byte) ++ bs).length - 16) =
      List.replicate (16 - bs.length) 48 ++ bs := by
    rw [List.length_append, List.length_replicate, Nat.add_sub_cancel_left, List.drop_append_of_le_length (by simpa using hl),
      List.drop_replicate]
  refine ⟨List.replicate (16 - bs.length) 48 ++ bs, ?_, ?_, ?_, ?_⟩
  · unfold wordText right
    rw [h1]
    dsimp only
    rw [if_pos (by simp), e]
  · simp; omega
  · intro c hc
    rcases List.mem_append.1 hc with hc | hc
    · rw [(List.mem_replicate.1 hc).2]
      exact .inl (by decide)
    · exact hx c hc
  · unfold number
    rw [Num.numeral_append, numeral_zeros, h2]

theorem parseWord_eq {t : List Byte} {w : UInt64} (hl : t.length = 16) (hx : ∀ c ∈ t, Hex c) (hn : number t = w.toNat) :
    parseWord t = some w := by
  have hd := (Num.digits_split 16 t [] (fun c hc => hex_digit c (hx c hc)) (by simp)).1
  rw [List.append_nil] at hd
  unfold parseWord
  unfold number at hn
  rw [Num.C09_parse_unsigned_exact 16 (by omega) (by omega), hd, if_pos]
  · simp [hn]
  · refine ⟨fun h => by rw [h] at hl; simp at hl, ?_⟩
    rw [hn]
    exact w.toNat_lt

theorem roundtrip (sig : U128) :
    ∃ t, toText sig = some t ∧ t.length = 32 ∧ (∀ c ∈ t, Hex c) ∧ number t = value sig ∧ parse t = some sig := by
  obtain ⟨a, a1, a2, a3, a4⟩ := wordText_eq sig.hi
  obtain ⟨b, b1, b2, b3, b4⟩ := wordText_eq sig.lo
  refine ⟨a ++ b, ?_, by simp [a2, b2], ?_, ?_, ?_⟩
  · unfold toText; rw [a1, b1]
  · intro c hc
    rcases List.mem_append.1 hc with hc | hc
    · exact a3 c hc
    · exact b3 c hc
  · unfold number at *
    rw [Num.numeral_append, a4]
    have := Num.numeral_shift 16 b (fun x hx => hex_digit x (b3 x hx)) sig.hi.toNat 0
    rw [Nat.add_zero, b2, b4] at this
    rw [this]
    rfl
  · unfold parse
    rw [if_neg (by simp [a2, b2]), ← a2, List.take_left, List.drop_left, parseWord_eq a2 a3 a4, parseWord_eq b2 b3 b4]

end Verif.Sig
