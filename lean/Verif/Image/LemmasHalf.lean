import Verif.Image.Spec
/-!
# Numbers of 16 bits — lemmas
-/
namespace Verif.Image

theorem and_high (n : Nat) : n &&& 32768 = 32768 * (n / 32768 % 2) := by
  rw [show (32768 : Nat) = 2 ^ 15 from rfl]
  apply Nat.eq_of_testBit_eq
  intro i
  rw [Nat.testBit_and, Nat.testBit_two_pow, Nat.testBit_two_pow_mul, ← Nat.pow_one 2, Nat.testBit_mod_two_pow,
    Nat.pow_one, Nat.testBit_div_two_pow]
  by_cases h : i = 15
  · subst h; simp
  · by_cases h2 : 15 ≤ i
    · have : ¬ i - 15 < 1 := by omega
      simp [this, h2]; omega
    · simp [h2]; omega

theorem and_low (n : Nat) : n &&& 32767 = n % 32768 := by
  have := Nat.and_two_pow_sub_one_eq_mod n 15
  simpa using this

theorem or_apart (a b : Nat) (h : b < 32768) : 32768 * a ||| b = 32768 * a + b := by
  have := Nat.two_pow_add_eq_or_of_lt (i := 15) h a
  simpa using this.symm

theorem toHalf_toNat (s : UInt32) : (toHalf s).toNat =
    if 113 ≤ s.toNat / 8388608 % 256 then
      32768 * (s.toNat / 2147483648) + (s.toNat / 8192 + 4294852608) % 4294967296 % 32768
    else 0 := by
  have hs := s.toNat_lt
  have hc : (s + s ≥ 0x71000000) ↔ 113 ≤ s.toNat / 8388608 % 256 := by
    rw [ge_iff_le, UInt32.le_iff_toNat_le, UInt32.toNat_add]
    show 1895825408 ≤ _ ↔ _
    omega
  have hhalf : (((s >>> (16 : UInt32)) &&& (0x8000 : UInt32)) |||
      (((s >>> (13 : UInt32)) - 0x1c000) &&& (0x7fff : UInt32))).toUInt16.toNat =
      32768 * (s.toNat / 2147483648) + (s.toNat / 8192 + 4294852608) % 4294967296 % 32768 := by
    rw [UInt32.toNat_toUInt16, UInt32.toNat_or, UInt32.toNat_and, UInt32.toNat_and,
      UInt32.toNat_shiftRight, UInt32.toNat_sub, UInt32.toNat_shiftRight]
    show ((s.toNat >>> 16 &&& 32768) |||
      ((4294967296 - 114688 + s.toNat >>> 13) % 4294967296 &&& 32767)) % 65536 = _
    rw [and_high, and_low, Nat.shiftRight_eq_div_pow, Nat.shiftRight_eq_div_pow, or_apart _ _ (by omega)]
    show (32768 * (s.toNat / 65536 / 32768 % 2) +
      (4294967296 - 114688 + s.toNat / 8192) % 4294967296 % 32768) % 65536 = _
    omega
  unfold toHalf
  dsimp only
  by_cases h : 113 ≤ s.toNat / 8388608 % 256
  · rw [if_pos h, if_pos (hc.2 h), UInt16.toNat_and, hhalf]
    show _ &&& 65535 = _
    have := Nat.and_two_pow_sub_one_eq_mod
      (32768 * (s.toNat / 2147483648) + (s.toNat / 8192 + 4294852608) % 4294967296 % 32768) 16
    rw [show (2 : Nat) ^ 16 - 1 = 65535 from rfl, show (2 : Nat) ^ 16 = 65536 from rfl] at this
    rw [this]
    omega
  · rw [if_neg h, if_neg (fun x => h (hc.1 x)), UInt16.toNat_and]
    exact Nat.and_zero _

/-- Numbers in range are cut. -/
theorem toHalf_normal {s : UInt32} (h1 : 113 ≤ s.toNat / 8388608 % 256) (h2 : s.toNat / 8388608 % 256 ≤ 142) :
    (toHalf s).toNat = 32768 * (s.toNat / 2147483648) +
      1024 * (s.toNat / 8388608 % 256 - 112) + s.toNat % 8388608 / 8192 := by
  have hs := s.toNat_lt
  rw [toHalf_toNat, if_pos h1]
  omega

theorem pow_split {a b : Nat} (h : a ≤ b) : (2 : Nat) ^ b = 2 ^ (b - a) * 2 ^ a := by
  rw [← Nat.pow_add, Nat.sub_add_cancel h]

theorem pow_mono {a b : Nat} (h : a ≤ b) : (2 : Nat) ^ a ≤ 2 ^ b := Nat.pow_le_pow_right (by omega) h

/-- The magnitude of a 32-bit number. -/
theorem floatVal_abs {b : UInt32} {v : Int} (h : floatVal b = some v) :
    b.toNat / 8388608 % 256 ≠ 255 ∧
    v.natAbs = (if b.toNat / 8388608 % 256 = 0 then 2 * (b.toNat % 8388608)
      else (8388608 + b.toNat % 8388608) * 2 ^ (b.toNat / 8388608 % 256)) ∧
    (0 < v → b.toNat < 2147483648) ∧ (v < 0 → 2147483648 ≤ b.toNat) := by
  unfold floatVal at h
  dsimp only at h
  split at h
  · cases h
  · rename_i h255
    refine ⟨h255, ?_⟩
    split at h
    · rename_i hlt
      injection h with h
      subst h
      refine ⟨Int.natAbs_natCast _, fun _ => hlt, fun h => ?_⟩
      omega
    · rename_i hge
      injection h with h
      subst h
      refine ⟨by rw [Int.natAbs_neg]; exact Int.natAbs_natCast _, fun h => ?_, fun _ => by omega⟩
      omega

theorem halfVal_abs {b : UInt16} {v : Int} (h : halfVal b = some v) :
    b.toNat / 1024 % 32 ≠ 31 ∧
    v.natAbs = (if b.toNat / 1024 % 32 = 0 then b.toNat % 1024 * 2 ^ 126
      else (1024 + b.toNat % 1024) * 2 ^ (b.toNat / 1024 % 32 + 125)) := by
  unfold halfVal at h
  dsimp only at h
  split at h
  · cases h
  · rename_i h255
    refine ⟨h255, ?_⟩
    split at h <;> injection h with h <;> subst h
    · exact Int.natAbs_natCast _
    · rw [Int.natAbs_neg]; exact Int.natAbs_natCast _

/-- In which range the exponent is. -/
theorem exponent_range {e f : Nat} (hf : f < 8388608) {v : Nat}
    (hv : v = (if e = 0 then 2 * f else (8388608 + f) * 2 ^ e)) :
    (2 ^ 136 ≤ v ↔ 113 ≤ e) ∧ (v < 2 ^ 166 ↔ e ≤ 142) := by
  by_cases h0 : e = 0
  · rw [if_pos h0] at hv
    subst h0
    have : (2 : Nat) ^ 136 = 87112285931760246646623899502532662132736 := by decide
    have : (2 : Nat) ^ 166 = 93536104789177786765035829293842113257979682750464 := by decide
    omega
  · rw [if_neg h0] at hv
    have hp : 0 < 2 ^ e := Nat.two_pow_pos e
    have hlo : 2 ^ (23 + e) ≤ v := by
      rw [hv, Nat.pow_add]
      exact Nat.mul_le_mul_right _ (by omega)
    have hhi : v < 2 ^ (24 + e) := by
      rw [hv, Nat.pow_add]
      exact Nat.mul_lt_mul_of_pos_right (by omega) hp
    refine ⟨⟨fun h => ?_, fun h => ?_⟩, ⟨fun h => ?_, fun h => ?_⟩⟩
    · have := (Nat.pow_lt_pow_iff_right (a := 2) (by omega)).1 (Nat.lt_of_le_of_lt h hhi)
      omega
    · exact Nat.le_trans (pow_mono (by omega)) hlo
    · have := (Nat.pow_lt_pow_iff_right (a := 2) (by omega)).1 (Nat.lt_of_le_of_lt hlo h)
      omega
    · exact Nat.lt_of_lt_of_le hhi (pow_mono (by omega))

/-- No 16-bit number lies between a number and what is left when digits are cut off. -/
theorem cut_best {e f : Nat} (he : 113 ≤ e) (hf : f < 8388608) {e' f' : Nat}
    (hf' : f' < 1024)
    (h : (if e' = 0 then f' * 2 ^ 126 else (1024 + f') * 2 ^ (e' + 125)) ≤ (8388608 + f) * 2 ^ e) :
    (if e' = 0 then f' * 2 ^ 126 else (1024 + f') * 2 ^ (e' + 125)) ≤
      (1024 + f / 8192) * 2 ^ (e - 112 + 125) := by
  have hE : e - 112 + 125 = e + 13 := by omega
  rw [hE]
  have hbig : 1024 * 2 ^ (e + 13) ≤ (1024 + f / 8192) * 2 ^ (e + 13) := Nat.mul_le_mul_right _ (by omega)
  by_cases h0 : e' = 0
  · rw [if_pos h0]
    refine Nat.le_trans ?_ hbig
    exact Nat.mul_le_mul (by omega) (pow_mono (by omega))
  · rw [if_neg h0] at h ⊢
    by_cases h1 : e' + 125 < e + 13
    · refine Nat.le_trans ?_ hbig
      have : (2 : Nat) ^ (e + 13) = 2 ^ (e + 12) * 2 := by rw [← Nat.pow_succ]
      have h3 : (1024 + f') * 2 ^ (e' + 125) ≤ 2048 * 2 ^ (e + 12) :=
        Nat.mul_le_mul (by omega) (pow_mono (by omega))
      rw [this]; omega
    · have hs : (2 : Nat) ^ (e' + 125) = 2 ^ (e' + 125 - (e + 13)) * 2 ^ (e + 13) := pow_split (by omega)
      rw [hs, ← Nat.mul_assoc] at h ⊢
      refine Nat.mul_le_mul_right _ ?_
      have h4 : (8388608 + f) * 2 ^ e < (1024 + f / 8192 + 1) * 2 ^ (e + 13) := by
        rw [Nat.pow_add, Nat.mul_comm (2 ^ e), ← Nat.mul_assoc]
        exact Nat.mul_lt_mul_of_pos_right (by omega) (Nat.two_pow_pos e)
      have h5 := Nat.lt_of_mul_lt_mul_right (Nat.lt_of_le_of_lt h h4)
      omega

end Verif.Image
