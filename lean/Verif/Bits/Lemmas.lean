import Verif.Bits.Model
namespace Verif.Bits
open Verif

/-- After smearing with a window of `d`, bit `i` is set iff one of the bits `i .. i+d-1` was. -/
def Smeared (n v d : Nat) : Prop := ∀ i, v.testBit i = true ↔ ∃ j, j < d ∧ n.testBit (i + j) = true

theorem smeared_one (n : Nat) : Smeared n n 1 := by
  intro i
  constructor
  · intro h; exact ⟨0, by omega, by simpa using h⟩
  · rintro ⟨j, hj, h⟩
    have : j = 0 := by omega
    subst this; simpa using h

theorem Smeared.step {n v d : Nat} (h : Smeared n v d) : Smeared n (smearStep v d) (d + d) := by
  intro i
  unfold smearStep
  rw [Nat.testBit_or, Nat.testBit_shiftRight, Bool.or_eq_true, h i, h (d + i)]
  constructor
  · rintro (⟨j, hj, hb⟩ | ⟨j, hj, hb⟩)
    · exact ⟨j, by omega, hb⟩
    · exact ⟨d + j, by omega, by rw [← hb]; congr 1; omega⟩
  · rintro ⟨j, hj, hb⟩
    by_cases hjd : j < d
    · exact Or.inl ⟨j, hjd, hb⟩
    · exact Or.inr ⟨j - d, by omega, by rw [← hb]; congr 1; omega⟩

theorem smeared_eq {n v w : Nat} (hn : n < 2 ^ w) (h0 : n ≠ 0) (h : Smeared n v w) :
    v = 2 ^ (n.log2 + 1) - 1 := by
  apply Nat.eq_of_testBit_eq
  intro i
  rw [Nat.testBit_two_pow_sub_one]
  have hlog : n.log2 < w := (Nat.log2_lt h0).mpr hn
  rw [Bool.eq_iff_iff, h i, decide_eq_true_iff]
  constructor
  · rintro ⟨j, _, hb⟩
    apply Classical.byContradiction
    intro hc
    have : n < 2 ^ (i + j) := by
      have h1 : n < 2 ^ (n.log2 + 1) := Nat.lt_log2_self
      have h2 : 2 ^ (n.log2 + 1) ≤ 2 ^ (i + j) := Nat.pow_le_pow_right (by decide) (by omega)
      omega
    rw [Nat.testBit_lt_two_pow this] at hb
    cases hb
  · intro hi
    refine ⟨n.log2 - i, by omega, ?_⟩
    have e : i + (n.log2 - i) = n.log2 := by omega
    rw [e]
    exact Nat.testBit_log2 h0

theorem smear_zero (s : Nat) : smearStep 0 s = 0 := by simp [smearStep]

/-- `2^(log2 (v-1) + 1)` is the least power of two at least `v`, for `v ≥ 2`. -/
theorem least_pow (v : Nat) (hv : 2 ≤ v) :
    v ≤ 2 ^ ((v - 1).log2 + 1) ∧ ∀ k, v ≤ 2 ^ k → 2 ^ ((v - 1).log2 + 1) ≤ 2 ^ k := by
  constructor
  · have : v - 1 < 2 ^ ((v - 1).log2 + 1) := Nat.lt_log2_self
    omega
  · intro k hk
    apply Nat.pow_le_pow_right (by decide)
    have : (v - 1).log2 < k := (Nat.log2_lt (by omega)).mpr (by omega)
    omega

theorem and_pred_eq_zero_iff (v : Nat) (h : v ≠ 0) : v &&& (v - 1) = 0 ↔ ∃ k, v = 2 ^ k := by
  constructor
  · intro he
    refine ⟨v.log2, ?_⟩
    have h1 : 2 ^ v.log2 ≤ v := Nat.log2_self_le h
    have h2 : v < 2 ^ (v.log2 + 1) := Nat.lt_log2_self
    apply Classical.byContradiction
    intro hne
    have h3 : 2 ^ v.log2 ≤ v - 1 := by omega
    have hlog : (v - 1).log2 = v.log2 := by
      rw [Nat.log2_eq_iff (by have := Nat.pow_pos (n := v.log2) (show 0 < 2 by decide); omega)]
      exact ⟨h3, by omega⟩
    have b1 : v.testBit v.log2 = true := Nat.testBit_log2 h
    have hv1 : v - 1 ≠ 0 := by have := Nat.pow_pos (n := v.log2) (show 0 < 2 by decide); omega
    have b2 : (v - 1).testBit v.log2 = true := by
      have := Nat.testBit_log2 hv1
      rwa [hlog] at this
    have : (v &&& (v - 1)).testBit v.log2 = true := by rw [Nat.testBit_and, b1, b2]; rfl
    rw [he] at this
    simp at this
  · rintro ⟨k, rfl⟩
    rw [and_mask, Nat.mod_self]

theorem isPowerOf2_iff (w v : Nat) (hv : v < 2 ^ w) (h0 : v ≠ 0) :
    isPowerOf2 w v = true ↔ ∃ k, v = 2 ^ k := by
  unfold isPowerOf2
  have e : (v + 2 ^ w - 1) % 2 ^ w = v - 1 := by
    have : v + 2 ^ w - 1 = (v - 1) + 2 ^ w := by omega
    rw [this, Nat.add_mod_right, Nat.mod_eq_of_lt (by omega)]
  rw [e, beq_iff_eq, and_pred_eq_zero_iff v h0]

theorem roundUp64_eq (v : Nat) (h2 : 2 ≤ v) (hv : v ≤ 2 ^ 63) :
    roundUpPowerOf2_64 v = 2 ^ ((v - 1).log2 + 1) := by
  have e : u64 (v + 2 ^ 64 - 1) = v - 1 := by unfold u64; omega
  have s1 := (smeared_one (v - 1)).step
  have s2 := s1.step
  have s3 := s2.step
  have s4 := s3.step
  have s5 := s4.step
  have s6 := s5.step
  have := smeared_eq (w := 64) (n := v - 1) (by omega) (by omega) s6
  have hlog : (v - 1).log2 < 63 := (Nat.log2_lt (by omega)).mpr (by omega)
  have hp : 2 ^ ((v - 1).log2 + 1) ≤ 2 ^ 63 := Nat.pow_le_pow_right (by decide) (by omega)
  have hp0 : 0 < 2 ^ ((v - 1).log2 + 1) := Nat.pow_pos (by decide)
  unfold roundUpPowerOf2_64
  dsimp only
  rw [e, this]
  rw [Nat.sub_add_cancel (by omega), u64_of_lt (by omega)]

theorem roundUp32_eq (v : Nat) (h2 : 2 ≤ v) (hv : v ≤ 2 ^ 31) :
    roundUpPowerOf2_32 v = 2 ^ ((v - 1).log2 + 1) := by
  have e : u32 (v + 2 ^ 32 - 1) = v - 1 := by unfold u32; omega
  have s1 := (smeared_one (v - 1)).step
  have s2 := s1.step
  have s3 := s2.step
  have s4 := s3.step
  have s5 := s4.step
  have := smeared_eq (w := 32) (n := v - 1) (by omega) (by omega) s5
  have hlog : (v - 1).log2 < 31 := (Nat.log2_lt (by omega)).mpr (by omega)
  have hp : 2 ^ ((v - 1).log2 + 1) ≤ 2 ^ 31 := Nat.pow_le_pow_right (by decide) (by omega)
  have hp0 : 0 < 2 ^ ((v - 1).log2 + 1) := Nat.pow_pos (by decide)
  unfold roundUpPowerOf2_32
  dsimp only
  rw [e, this]
  rw [Nat.sub_add_cancel (by omega), u32_of_lt (by omega)]

/-- Complement of a low mask, as an `and`: clears the low `k` bits. -/
theorem and_not_mask (w k x : Nat) (hx : x < 2 ^ w) (hk : k ≤ w) :
    x &&& (2 ^ w - 1 - (2 ^ k - 1)) = x / 2 ^ k * 2 ^ k := by
  apply Nat.eq_of_testBit_eq
  intro i
  have hpk : 2 ^ k ≤ 2 ^ w := Nat.pow_le_pow_right (by decide) hk
  have hp0 : 0 < 2 ^ k := Nat.pow_pos (by decide)
  have e : 2 ^ w - 1 - (2 ^ k - 1) = 2 ^ w - (2 ^ k - 1 + 1) := by omega
  rw [Nat.testBit_and, e, Nat.testBit_two_pow_sub_succ (by omega), Nat.testBit_two_pow_sub_one,
    ← Nat.shiftLeft_eq, Nat.testBit_shiftLeft, Nat.testBit_div_two_pow]
  by_cases h1 : i < w
  · by_cases h2 : i < k
    · have : ¬ (i ≥ k) := by omega
      simp [h1, h2, this]
    · have h3 : i ≥ k := by omega
      have h4 : i - k + k = i := by omega
      simp [h1, h2, h3, h4]
  · have h2 : x.testBit i = false := by
      apply Nat.testBit_lt_two_pow
      have : 2 ^ w ≤ 2 ^ i := Nat.pow_le_pow_right (by decide) (by omega)
      omega
    have h3 : i ≥ k := by omega
    have h4 : i - k + k = i := by omega
    simp [h1, h2, h3, h4]

end Verif.Bits
