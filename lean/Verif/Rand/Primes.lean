import Verif.Rand.Lemmas
import Mathlib.NumberTheory.LucasPrimality
import Mathlib.Tactic.NormNum.Prime
import Mathlib.Tactic.ReduceModChar

/-!
# The prime factors of the order
-/

namespace Verif.Rand

theorem order_factors : order = 3 * 5 * 17 * 257 * 641 * 65537 * 274177 * 6700417 * 67280421310721 := by decide +kernel

theorem prime_big : Nat.Prime 67280421310721 := by
  have ne : ∀ a : Nat, a < 67280421310721 → a ≠ 1 → ((a : ZMod 67280421310721)) ≠ 1 := by
    intro a ha h1 h
    have h2 : ((a : ZMod 67280421310721)) = ((1 : Nat) : ZMod 67280421310721) := by rw [h]; simp
    rw [ZMod.natCast_eq_natCast_iff'] at h2
    omega
  apply lucas_primality 67280421310721 3
  · norm_num only
    reduce_mod_char
  · intro q hq hd
    have hf : 67280421310721 - 1 = 2 * 2 * 2 * 2 * 2 * 2 * 2 * 2 * 5 * 47 * 373 * 2998279 := by norm_num
    rw [hf] at hd
    have h2 : q = 2 ∨ q = 5 ∨ q = 47 ∨ q = 373 ∨ q = 2998279 := by
      simp only [hq.dvd_mul, Nat.prime_dvd_prime_iff_eq hq Nat.prime_two,
        Nat.prime_dvd_prime_iff_eq hq (by norm_num : Nat.Prime 5),
        Nat.prime_dvd_prime_iff_eq hq (by norm_num : Nat.Prime 47),
        Nat.prime_dvd_prime_iff_eq hq (by norm_num : Nat.Prime 373),
        Nat.prime_dvd_prime_iff_eq hq (by norm_num : Nat.Prime 2998279)] at hd
      omega
    rcases h2 with rfl | rfl | rfl | rfl | rfl
    · norm_num only
      reduce_mod_char
      exact_mod_cast ne 67280421310720 (by norm_num) (by norm_num)
    · norm_num only
      reduce_mod_char
      exact_mod_cast ne 8348471219631 (by norm_num) (by norm_num)
    · norm_num only
      reduce_mod_char
      exact_mod_cast ne 29801263682154 (by norm_num) (by norm_num)
    · norm_num only
      reduce_mod_char
      exact_mod_cast ne 65541179653181 (by norm_num) (by norm_num)
    · norm_num only
      reduce_mod_char
      exact_mod_cast ne 61150258807256 (by norm_num) (by norm_num)

theorem prime_factor {q : Nat} (hq : q.Prime) (h : q ∣ order) :
    q = 3 ∨ q = 5 ∨ q = 17 ∨ q = 257 ∨ q = 641 ∨ q = 65537 ∨ q = 274177 ∨ q = 6700417 ∨ q = 67280421310721 := by
  rw [order_factors] at h
  simp only [hq.dvd_mul, Nat.prime_dvd_prime_iff_eq hq (by norm_num : Nat.Prime 3),
    Nat.prime_dvd_prime_iff_eq hq (by norm_num : Nat.Prime 5),
    Nat.prime_dvd_prime_iff_eq hq (by norm_num : Nat.Prime 17),
    Nat.prime_dvd_prime_iff_eq hq (by norm_num : Nat.Prime 257),
    Nat.prime_dvd_prime_iff_eq hq (by norm_num : Nat.Prime 641),
    Nat.prime_dvd_prime_iff_eq hq (by norm_num : Nat.Prime 65537),
    Nat.prime_dvd_prime_iff_eq hq (by norm_num : Nat.Prime 274177),
    Nat.prime_dvd_prime_iff_eq hq (by norm_num : Nat.Prime 6700417),
    Nat.prime_dvd_prime_iff_eq hq prime_big] at h
  omega

end Verif.Rand
