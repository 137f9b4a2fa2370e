import Verif.Rand.Spec
import Verif.Rand.Order
import Verif.Rand.Primes
import Verif.Bits.Props
import Mathlib.Dynamics.PeriodicPts.Defs
import Mathlib.Data.Finset.Prod

/-!
# Lemmas about the sequence
-/

namespace Verif.Rand

open Verif.Bits (avalanche64 C30_avalanche_bijective)

theorem period_order : period = order := rfl

theorem after_eq (n : Nat) (s : Rng) : after n s = step^[n] s := by
  induction n generalizing s with
  | zero => rfl
  | succ n ih => rw [after, ih, Function.iterate_succ_apply]; rfl

theorem moves_of_prime {q : Nat} (hq : q.Prime) (h : q ∣ order) {s : Rng} (hs : s ≠ 0) : step^[order / q] s ≠ s := by
  have lt : order / q < 2 ^ 128 := Nat.lt_of_le_of_lt (Nat.div_le_self _ _) (by decide)
  rcases prime_factor hq h with rfl | rfl | rfl | rfl | rfl | rfl | rfl | rfl | rfl
  · exact moves lt inv_3 hs
  · exact moves lt inv_5 hs
  · exact moves lt inv_17 hs
  · exact moves lt inv_257 hs
  · exact moves lt inv_641 hs
  · exact moves lt inv_65537 hs
  · exact moves lt inv_274177 hs
  · exact moves lt inv_6700417 hs
  · exact moves lt inv_67280421310721 hs

theorem minimal {s : Rng} (hs : s ≠ 0) : Function.minimalPeriod step s = order := by
  have hper : Function.IsPeriodicPt step order s := step_order s
  have hd : Function.minimalPeriod step s ∣ order := hper.minimalPeriod_dvd
  have hpos : 0 < order := by decide
  obtain ⟨k, hk⟩ := hd
  by_cases h1 : k = 1
  · rw [hk, h1, Nat.mul_one]
  exfalso
  obtain ⟨q, hq, hqk⟩ := Nat.exists_prime_and_dvd h1
  obtain ⟨m, rfl⟩ := hqk
  have hqd : q ∣ order := ⟨Function.minimalPeriod step s * m, by rw [hk]; ac_rfl⟩
  apply moves_of_prime hq hqd hs
  have e : order / q = m * Function.minimalPeriod step s := by
    rw [hk]
    rw [show Function.minimalPeriod step s * (q * m) = q * (m * Function.minimalPeriod step s) by ac_rfl]
    exact Nat.mul_div_cancel_left _ hq.pos
  rw [e]
  exact (Function.isPeriodicPt_minimalPeriod step s).const_mul m

theorem iter_eq_iff {s : Rng} (hs : s ≠ 0) (m n : Nat) : step^[m] s = step^[n] s ↔ m % order = n % order := by
  rw [← minimal hs]
  rw [← Function.iterate_mod_minimalPeriod_eq (f := step) (x := s) (n := m),
    ← Function.iterate_mod_minimalPeriod_eq (f := step) (x := s) (n := n)]
  have pos : 0 < Function.minimalPeriod step s := by rw [minimal hs]; decide
  rw [Function.iterate_eq_iterate_iff_of_lt_minimalPeriod (Nat.mod_lt _ pos) (Nat.mod_lt _ pos)]

theorem step_inj {s t : Rng} (h : step s = step t) : s = t := by
  have e : ∀ s, step^[order - 1] (step s) = s := by
    intro s
    rw [← Function.iterate_succ_apply, show (order - 1).succ = order from rfl, step_order]
  rw [← e s, h, e]

theorem step_ne {s : Rng} (h : s ≠ 0) : step s ≠ 0 := fun e => h (step_inj (e.trans step_zero.symm))

theorem iter_ne {s : Rng} (h : s ≠ 0) (n : Nat) : step^[n] s ≠ 0 := by
  induction n with
  | zero => exact h
  | succ n ih => rw [Function.iterate_succ_apply' step]; exact step_ne ih

/-! ## The states are all there -/

/-- The words of a state as numbers. -/
def code (s : Rng) : Nat × Nat := (s.s0.toNat, s.s1.toNat)

theorem code_inj {s t : Rng} (h : code s = code t) : s = t := by
  unfold code at h
  rw [Prod.mk.injEq] at h
  exact Rng.ext (BitVec.eq_of_toNat_eq h.1) (BitVec.eq_of_toNat_eq h.2)

/-- The codes of all states but zero. -/
def codes : Finset (Nat × Nat) := (Finset.range (2 ^ 64) ×ˢ Finset.range (2 ^ 64)).erase (0, 0)

theorem code_mem {s : Rng} (h : s ≠ 0) : code s ∈ codes := by
  unfold codes
  rw [Finset.mem_erase, Finset.mem_product, Finset.mem_range, Finset.mem_range]
  refine ⟨fun e => h (code_inj e), s.s0.isLt, s.s1.isLt⟩

theorem codes_card : codes.card = order := by
  unfold codes
  rw [Finset.card_erase_of_mem, Finset.card_product, Finset.card_range]
  · decide
  · rw [Finset.mem_product, Finset.mem_range]
    exact ⟨by decide, by decide⟩

attribute [irreducible] codes

theorem image_all {α : Type} [DecidableEq α] (n : Nat) (f : Nat → α) (c : Finset α) (h1 : ∀ i, f i ∈ c)
    (h2 : ∀ i j, i < n → j < n → f i = f j → i = j) (h3 : c.card = n) : (Finset.range n).image f = c := by
  apply Finset.eq_of_subset_of_card_le
  · intro x hx
    rw [Finset.mem_image] at hx
    obtain ⟨i, _, rfl⟩ := hx
    exact h1 i
  · rw [h3, Finset.card_image_of_injOn, Finset.card_range]
    intro i hi j hj h
    simp only [Finset.coe_range, Set.mem_Iio] at hi hj
    exact h2 i j hi hj h

theorem visits_image {s : Rng} (hs : s ≠ 0) :
    (Finset.range order).image (fun n => code (step^[n] s)) = codes := by
  refine image_all order _ codes (fun n => code_mem (iter_ne hs n)) (fun m n hm hn h => ?_) codes_card
  have := (iter_eq_iff hs m n).1 (code_inj h)
  rwa [Nat.mod_eq_of_lt hm, Nat.mod_eq_of_lt hn] at this

theorem visits {s t : Rng} (hs : s ≠ 0) (ht : t ≠ 0) : ∃ n < order, step^[n] s = t := by
  have := code_mem ht
  rw [← visits_image hs, Finset.mem_image] at this
  obtain ⟨n, hn, h⟩ := this
  exact ⟨n, Finset.mem_range.1 hn, code_inj h⟩

/-! ## What is returned -/

theorem rotl_rotl (x : BitVec 64) (k : Nat) (h : k < 64) (h0 : 0 < k) : rotl (rotl x k) (64 - k) = x := by
  apply BitVec.eq_of_getLsbD_eq
  intro i hi
  unfold rotl
  rw [show 64 - (64 - k) = k by omega]
  simp only [BitVec.getLsbD_or, BitVec.getLsbD_shiftLeft, BitVec.getLsbD_ushiftRight]
  by_cases h1 : i < 64 - k
  · have e1 : k + i < 64 := by omega
    have e2 : x.getLsbD (64 - k + (k + i)) = false := BitVec.getLsbD_of_ge _ _ (by omega)
    have e3 : k + i - k = i := by omega
    simp [h1, e1, e2, e3]
  · have e1 : ¬ k + i < 64 := by omega
    have e2 : i - (64 - k) < k := by omega
    have e3 : 64 - k + (i - (64 - k)) = i := by omega
    have e4 : x.getLsbD (64 - k + (k + i)) = false := BitVec.getLsbD_of_ge _ _ (by omega)
    simp only [h1, hi, e1, e2, e3, e4]
    simp

/-- The word that makes the given output. -/
def unout (w : BitVec 64) : BitVec 64 := rotl (w * 0x8e38e38e38e38e39) 57 * 0xcccccccccccccccd

theorem unout_out (s : Rng) : unout (out64 s) = s.s0 := by
  unfold unout out64
  rw [BitVec.mul_assoc, show (9 : BitVec 64) * 0x8e38e38e38e38e39 = 1 by decide +kernel]
  have e : ∀ x : BitVec 64, x * 1 = x := BitVec.mul_one
  rw [e, rotl_rotl _ 7 (by decide) (by decide), BitVec.mul_assoc,
    show (5 : BitVec 64) * 0xcccccccccccccccd = 1 by decide +kernel, e]

theorem out_unout (w b : BitVec 64) : out64 ⟨unout w, b⟩ = w := by
  unfold unout out64
  have e : ∀ x : BitVec 64, x * 1 = x := BitVec.mul_one
  dsimp only
  rw [BitVec.mul_assoc, show (0xcccccccccccccccd : BitVec 64) * 5 = 1 by decide +kernel, e,
    rotl_rotl _ 57 (by decide) (by decide), BitVec.mul_assoc,
    show (0x8e38e38e38e38e39 : BitVec 64) * 9 = 1 by decide +kernel, e]

theorem rotl_inj {x y : BitVec 64} {k : Nat} (h : k < 64) (h0 : 0 < k) (e : rotl x k = rotl y k) : x = y := by
  rw [← rotl_rotl x k h h0, e, rotl_rotl y k h h0]

theorem xorshift_inj {x y : BitVec 64} (h : x ^^^ (x <<< 16) = y ^^^ (y <<< 16)) : x = y := by
  apply BitVec.eq_of_getLsbD_eq
  intro i
  induction i using Nat.strong_induction_on with
  | _ i ih =>
    intro hi
    have h1 : (x ^^^ (x <<< 16)).getLsbD i = (y ^^^ (y <<< 16)).getLsbD i := by rw [h]
    rw [BitVec.getLsbD_xor, BitVec.getLsbD_xor, BitVec.getLsbD_shiftLeft, BitVec.getLsbD_shiftLeft] at h1
    by_cases h2 : i < 16
    · simpa [h2] using h1
    · rw [ih (i - 16) (by omega) (by omega)] at h1
      simpa using h1

theorem two_determine {s t : Rng} (h0 : out64 s = out64 t) (h1 : out64 (step s) = out64 (step t)) : s = t := by
  have e0 : s.s0 = t.s0 := by rw [← unout_out, h0, unout_out]
  have e1 : (step s).s0 = (step t).s0 := by rw [← unout_out, h1, unout_out]
  unfold step at e1
  dsimp only at e1
  rw [e0] at e1
  generalize hx : s.s1 ^^^ t.s0 = x at e1
  generalize hy : t.s1 ^^^ t.s0 = y at e1
  rw [BitVec.xor_assoc, BitVec.xor_assoc, BitVec.xor_right_inj] at e1
  have e2 := xorshift_inj e1
  rw [← hx, ← hy, BitVec.xor_left_inj] at e2
  exact Rng.ext e0 e2

theorem av_ne {x : BitVec 64} (h : x ≠ 0) : avalanche64 x ≠ 0 := by
  intro e
  exact h (C30_avalanche_bijective.2.2.1 x 0 (e.trans (by decide +kernel)))

end Verif.Rand
