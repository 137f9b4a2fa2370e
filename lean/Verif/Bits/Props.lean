import Verif.Bits.Lemmas
/-!
# C29, C30 — power-of-two helpers and mixing functions
-/
namespace Verif.Bits
open Verif

/-- C29: 64-bit rounding returns a power of two, not below the argument, and no smaller power of two
is not below the argument — for every nonzero argument for which such a power is representable. -/
theorem C29_roundUp64_least (v : Nat) (h1 : 1 ≤ v) (hv : v ≤ 2 ^ 63) :
    (∃ k, roundUpPowerOf2_64 v = 2 ^ k) ∧ v ≤ roundUpPowerOf2_64 v ∧
      ∀ k, v ≤ 2 ^ k → roundUpPowerOf2_64 v ≤ 2 ^ k := by
  by_cases h2 : 2 ≤ v
  · rw [roundUp64_eq v h2 hv]
    exact ⟨⟨_, rfl⟩, least_pow v h2⟩
  · have : v = 1 := by omega
    subst this
    have e : roundUpPowerOf2_64 1 = 1 := by decide
    rw [e]
    exact ⟨⟨0, rfl⟩, Nat.le_refl _, fun k _ => Nat.pow_pos (by decide)⟩

example : roundUpPowerOf2_64 (2 ^ 40 + 1) = 2 ^ 41 := by decide

/-- C29: outside that range the 64-bit function returns 0 (there is no representable answer for
`v > 2^63`; for `v = 0` the answer 1 would be representable but is not returned). -/
theorem C29_roundUp64_out_of_range (v : Nat) (hv : v < 2 ^ 64) (h : v = 0 ∨ 2 ^ 63 < v) :
    roundUpPowerOf2_64 v = 0 := by
  rcases h with rfl | h
  · decide
  · have e : u64 (v + 2 ^ 64 - 1) = v - 1 := by unfold u64; omega
    have s6 := (smeared_one (v - 1)).step.step.step.step.step.step
    have hs := smeared_eq (w := 64) (n := v - 1) (by omega) (by omega) s6
    have hlog : (v - 1).log2 = 63 := by
      rw [Nat.log2_eq_iff (by omega)]
      omega
    rw [hlog] at hs
    unfold roundUpPowerOf2_64
    dsimp only
    rw [e, hs]
    decide

/-- C29: the same for the 32-bit function. -/
theorem C29_roundUp32_least (v : Nat) (h1 : 1 ≤ v) (hv : v ≤ 2 ^ 31) :
    (∃ k, roundUpPowerOf2_32 v = 2 ^ k) ∧ v ≤ roundUpPowerOf2_32 v ∧
      ∀ k, v ≤ 2 ^ k → roundUpPowerOf2_32 v ≤ 2 ^ k := by
  by_cases h2 : 2 ≤ v
  · rw [roundUp32_eq v h2 hv]
    exact ⟨⟨_, rfl⟩, least_pow v h2⟩
  · have : v = 1 := by omega
    subst this
    have e : roundUpPowerOf2_32 1 = 1 := by decide
    rw [e]
    exact ⟨⟨0, rfl⟩, Nat.le_refl _, fun k _ => Nat.pow_pos (by decide)⟩

example : roundUpPowerOf2_32 5 = 8 ∧ roundUpPowerOf2_32 8 = 8 := by decide

/-- C29: the power-of-two test is exact for nonzero arguments, at every width. -/
theorem C29_isPowerOf2_exact (w v : Nat) (hv : v < 2 ^ w) (h0 : v ≠ 0) :
    isPowerOf2 w v = true ↔ ∃ k, v = 2 ^ k := isPowerOf2_iff w v hv h0

example : isPowerOf2 32 4096 = true ∧ isPowerOf2 32 4095 = false := by decide

/-- The test answers yes for zero, at every width. -/
theorem C29_isPowerOf2_zero (w : Nat) : isPowerOf2 w 0 = true := by
  simp [isPowerOf2]

/-- C29: aligning returns the least multiple of the (power-of-two) alignment that is not below the
argument, provided it is representable. -/
theorem C29_align_least (w v k : Nat) (hk : k < w) (hv : v + (2 ^ k - 1) < 2 ^ w) :
    ∃ r, alignPowerOf2 w v (2 ^ k) = some r ∧ 2 ^ k ∣ r ∧ v ≤ r ∧
      ∀ m, 2 ^ k ∣ m → v ≤ m → r ≤ m := by
  have hpk : 2 ^ k < 2 ^ w := Nat.pow_lt_pow_right (by decide) hk
  have hp0 : 0 < 2 ^ k := Nat.pow_pos (by decide)
  have hpow := (isPowerOf2_iff w (2 ^ k) hpk (by omega)).mpr ⟨k, rfl⟩
  have e1 : (2 ^ k + 2 ^ w - 1) % 2 ^ w = 2 ^ k - 1 := by
    have : 2 ^ k + 2 ^ w - 1 = (2 ^ k - 1) + 2 ^ w := by omega
    rw [this, Nat.add_mod_right, Nat.mod_eq_of_lt (by omega)]
  have e2 : (v + 2 ^ k + (2 ^ w - 1)) % 2 ^ w = v + (2 ^ k - 1) := by
    have : v + 2 ^ k + (2 ^ w - 1) = (v + (2 ^ k - 1)) + 2 ^ w := by omega
    rw [this, Nat.add_mod_right, Nat.mod_eq_of_lt hv]
  refine ⟨(v + (2 ^ k - 1)) / 2 ^ k * 2 ^ k, ?_, Nat.dvd_mul_left _ _, ?_, ?_⟩
  · unfold alignPowerOf2
    rw [if_pos hpow, e1, e2, and_not_mask w k _ hv (by omega)]
  · have := Nat.div_add_mod (v + (2 ^ k - 1)) (2 ^ k)
    have h2 := Nat.mod_lt (v + (2 ^ k - 1)) hp0
    rw [Nat.mul_comm] at this
    omega
  · rintro m ⟨q, rfl⟩ hm
    rw [Nat.mul_comm]
    apply Nat.mul_le_mul_left
    apply Nat.le_of_lt_succ
    rw [Nat.div_lt_iff_lt_mul hp0]
    rw [Nat.succ_mul, Nat.mul_comm q]
    omega

example : alignPowerOf2 32 4097 4096 = some 8192 ∧ alignPowerOf2 64 8192 4096 = some 8192 := by
  decide

/-- C29: the alignment test is exact. -/
theorem C29_isAligned_exact (w v k : Nat) (hk : k < w) :
    isAlignedPowerOf2 w v (2 ^ k) = some (decide (2 ^ k ∣ v)) := by
  have hpk : 2 ^ k < 2 ^ w := Nat.pow_lt_pow_right (by decide) hk
  have hp0 : 0 < 2 ^ k := Nat.pow_pos (by decide)
  have hpow := (isPowerOf2_iff w (2 ^ k) hpk (by omega)).mpr ⟨k, rfl⟩
  have e1 : (2 ^ k + 2 ^ w - 1) % 2 ^ w = 2 ^ k - 1 := by
    have : 2 ^ k + 2 ^ w - 1 = (2 ^ k - 1) + 2 ^ w := by omega
    rw [this, Nat.add_mod_right, Nat.mod_eq_of_lt (by omega)]
  unfold isAlignedPowerOf2
  rw [if_pos hpow, e1, and_mask]
  congr 1
  rw [Bool.eq_iff_iff, beq_iff_eq, decide_eq_true_iff]
  exact (Nat.dvd_iff_mod_eq_zero).symm

example : isAlignedPowerOf2 32 12 4 = some true ∧ isAlignedPowerOf2 32 14 4 = some false := by decide

/-- Specification: number of positions below `w` holding a one bit. -/
def popcount (w n : Nat) : Nat := ((List.range w).filter (fun i => n.testBit i)).length

theorem popcount_succ (w n : Nat) : popcount (w + 1) n = n % 2 + popcount w (n / 2) := by
  unfold popcount
  rw [List.range_succ_eq_map, List.filter_cons]
  have h0 : n.testBit 0 = decide (n % 2 = 1) := by
    rw [Nat.testBit_zero]
  rw [h0, List.filter_map, ]
  have hf : ((fun i => n.testBit i) ∘ Nat.succ) = fun i => (n / 2).testBit i := by
    funext i
    simp [Nat.testBit_succ]
  rw [hf]
  rcases Nat.mod_two_eq_zero_or_one n with h | h <;> simp [h]
  omega

/-- C29: the bit counter counts exactly the set bits. -/
theorem C29_countSetBits_exact (w v : Nat) (hw : w ≤ 64) (hv : v < 2 ^ w) :
    countSetBits 0 v = popcount w v := by
  have key : ∀ (w v c : Nat), v < 2 ^ w → c + w < 2 ^ 32 → countSetBits c v = c + popcount w v := by
    intro w
    induction w with
    | zero =>
      intro v c hv _
      have : v = 0 := by simpa using hv
      subst this
      rw [countSetBits]
      simp [popcount]
    | succ w ih =>
      intro v c hv hc
      rw [countSetBits]
      by_cases h0 : v = 0
      · subst h0
        simp [popcount]
      · rw [dif_pos h0, popcount_succ]
        have e1 : v &&& 1 = v % 2 := and_mask v 1
        have e2 : v >>> 1 = v / 2 := by rw [Nat.shiftRight_eq_div_pow]
        have hm := Nat.mod_lt v (show 0 < 2 by decide)
        rw [e1, e2, u32_of_lt (by omega), ih (v / 2) (c + v % 2) (by rw [Nat.pow_succ] at hv; omega)
          (by omega)]
        omega
  have := key w v 0 hv (by omega)
  simpa using this

example : popcount 32 0xF0F0 = 8 := by decide

/-! ## C30 -/

/-- C30: on 32 bits, de-avalanche undoes avalanche. -/
theorem C30_deavalanche32_avalanche32 (h : BitVec 32) : deavalanche32 (avalanche32 h) = h := by
  have x16 : ∀ y : BitVec 32, (y ^^^ y >>> 16) ^^^ (y ^^^ y >>> 16) >>> 16 = y := by
    intro y
    rw [BitVec.ushiftRight_xor_distrib, ← BitVec.shiftRight_add, BitVec.xor_assoc,
      ← BitVec.xor_assoc (y >>> 16)]
    have z : y >>> (16 + 16) = 0#32 := BitVec.ushiftRight_eq_zero (by decide)
    simp [z]
  have x13 : ∀ y : BitVec 32,
      (y ^^^ y >>> 13) ^^^ ((y ^^^ y >>> 13) ^^^ (y ^^^ y >>> 13) >>> 13) >>> 13 = y := by
    intro y
    simp only [BitVec.ushiftRight_xor_distrib, ← BitVec.shiftRight_add]
    have z : y >>> (13 + 13 + 13) = 0#32 := BitVec.ushiftRight_eq_zero (by decide)
    rw [z]
    have : ∀ a b c : BitVec 32, a ^^^ b ^^^ (b ^^^ c ^^^ (c ^^^ 0#32)) = a := by
      intro a b c
      simp [BitVec.xor_assoc]
    exact this _ _ _
  unfold deavalanche32 avalanche32
  dsimp only
  rw [x16, BitVec.mul_assoc]
  have e1 : (0xc2b2ae35#32 * 0x7ed1b41d#32) = 1#32 := by decide
  rw [e1, BitVec.mul_one, x13, BitVec.mul_assoc]
  have e2 : (0x85ebca6b#32 * 0xa5cb9243#32) = 1#32 := by decide
  rw [e2, BitVec.mul_one, x16]

/-- C30: and the other way round. -/
theorem C30_avalanche32_deavalanche32 (h : BitVec 32) : avalanche32 (deavalanche32 h) = h := by
  have x16 : ∀ y : BitVec 32, (y ^^^ y >>> 16) ^^^ (y ^^^ y >>> 16) >>> 16 = y := by
    intro y
    rw [BitVec.ushiftRight_xor_distrib, ← BitVec.shiftRight_add, BitVec.xor_assoc,
      ← BitVec.xor_assoc (y >>> 16)]
    have z : y >>> (16 + 16) = 0#32 := BitVec.ushiftRight_eq_zero (by decide)
    simp [z]
  have x13 : ∀ y : BitVec 32,
      (y ^^^ (y ^^^ y >>> 13) >>> 13) ^^^ (y ^^^ (y ^^^ y >>> 13) >>> 13) >>> 13 = y := by
    intro y
    simp only [BitVec.ushiftRight_xor_distrib, ← BitVec.shiftRight_add]
    have z : y >>> (13 + 13 + 13) = 0#32 := BitVec.ushiftRight_eq_zero (by decide)
    rw [z]
    have : ∀ a b c : BitVec 32, a ^^^ (b ^^^ c) ^^^ (b ^^^ (c ^^^ 0#32)) = a := by
      intro a b c
      rw [BitVec.xor_zero, BitVec.xor_assoc, BitVec.xor_self, BitVec.xor_zero]
    exact this _ _ _
  unfold deavalanche32 avalanche32
  dsimp only
  rw [x16, BitVec.mul_assoc]
  have e1 : (0xa5cb9243#32 * 0x85ebca6b#32) = 1#32 := by decide
  rw [e1, BitVec.mul_one, x13, BitVec.mul_assoc]
  have e2 : (0x7ed1b41d#32 * 0xc2b2ae35#32) = 1#32 := by decide
  rw [e2, BitVec.mul_one, x16]

theorem xorshift33 (y : BitVec 64) : (y ^^^ y >>> 33) ^^^ (y ^^^ y >>> 33) >>> 33 = y := by
  rw [BitVec.ushiftRight_xor_distrib, ← BitVec.shiftRight_add, BitVec.xor_assoc,
    ← BitVec.xor_assoc (y >>> 33)]
  have z : y >>> (33 + 33) = 0#64 := BitVec.ushiftRight_eq_zero (by decide)
  simp [z]

/-- C30: on 64 bits, de-avalanche undoes avalanche. -/
theorem C30_deavalanche64_avalanche64 (h : BitVec 64) : deavalanche64 (avalanche64 h) = h := by
  unfold deavalanche64 avalanche64
  dsimp only
  rw [xorshift33, BitVec.mul_assoc]
  have e1 : (0xc4ceb9fe1a85ec53#64 * 0x9cb4b2f8129337db#64) = 1#64 := by decide
  rw [e1, BitVec.mul_one, xorshift33, BitVec.mul_assoc]
  have e2 : (0xff51afd7ed558ccd#64 * 0x4f74430c22a54005#64) = 1#64 := by decide
  rw [e2, BitVec.mul_one, xorshift33]

/-- C30: and the other way round. -/
theorem C30_avalanche64_deavalanche64 (h : BitVec 64) : avalanche64 (deavalanche64 h) = h := by
  unfold deavalanche64 avalanche64
  dsimp only
  rw [xorshift33, BitVec.mul_assoc]
  have e1 : (0x4f74430c22a54005#64 * 0xff51afd7ed558ccd#64) = 1#64 := by decide
  rw [e1, BitVec.mul_one, xorshift33, BitVec.mul_assoc]
  have e2 : (0x9cb4b2f8129337db#64 * 0xc4ceb9fe1a85ec53#64) = 1#64 := by decide
  rw [e2, BitVec.mul_one, xorshift33]

/-- C30: distinct keys stay distinct, and every value is hit (32 and 64 bits). -/
theorem C30_avalanche_bijective :
    (∀ a b, avalanche32 a = avalanche32 b → a = b) ∧ (∀ y, ∃ x, avalanche32 x = y) ∧
    (∀ a b, avalanche64 a = avalanche64 b → a = b) ∧ (∀ y, ∃ x, avalanche64 x = y) := by
  refine ⟨fun a b h => ?_, fun y => ⟨_, C30_avalanche32_deavalanche32 y⟩, fun a b h => ?_,
    fun y => ⟨_, C30_avalanche64_deavalanche64 y⟩⟩
  · rw [← C30_deavalanche32_avalanche32 a, h, C30_deavalanche32_avalanche32]
  · rw [← C30_deavalanche64_avalanche64 a, h, C30_deavalanche64_avalanche64]

example : avalanche32 1#32 = 0x514e28b7#32 := by decide

end Verif.Bits
