import Verif.Rand.LemmasC
import Mathlib.Tactic.Ring

/-!
# C79: the random number generator
-/

namespace Verif.Rand

/-- C79: the sequence of states of a generator, from whatever seed or environment it was made, is a cycle of exactly
`2^128 - 1` states: two moments have the same state just if they lie a multiple of that apart. -/
theorem C79_period {s : Rng} (h : Made s) (m n : Nat) : after m s = after n s ↔ m % period = n % period := by
  rw [after_eq, after_eq, period_order, iter_eq_iff (made_ne h)]

/-- The seed 0, and the seed whose first word is zero. -/
example : Made (ofSeed 0) ∧ Made (ofSeed (-1)) ∧ Verif.Bits.avalanche64 (-1 + 1) = 0 :=
  ⟨Or.inl ⟨_, rfl⟩, Or.inl ⟨_, rfl⟩, by decide +kernel⟩

/-- C79: the one state from which a generator would return zero for ever is never reached. -/
theorem C79_never_zero {s : Rng} (h : Made s) (n : Nat) : after n s ≠ ⟨0, 0⟩ := by
  rw [after_eq]; exact iter_ne (made_ne h) n

/-- That state stays as it is and returns zero. -/
theorem C79_zero_stuck (n : Nat) : after n ⟨0, 0⟩ = ⟨0, 0⟩ ∧ drawn n ⟨0, 0⟩ = 0 := by
  have e : after n ⟨0, 0⟩ = ⟨0, 0⟩ := by rw [after_eq]; exact iter_zero n
  refine ⟨e, ?_⟩
  unfold drawn
  rw [e]
  decide +kernel

/-- C79: every other state is reached from every generator, at just one moment of the period. -/
theorem C79_all_states {s : Rng} (h : Made s) {t : Rng} (ht : t ≠ ⟨0, 0⟩) : ∃! n, n < period ∧ after n s = t := by
  obtain ⟨n, hn, e⟩ := visits (made_ne h) ht
  rw [← period_order] at hn
  refine ⟨n, ⟨hn, by rw [after_eq]; exact e⟩, ?_⟩
  rintro m ⟨hm, e2⟩
  have := (C79_period h m n).1 (by rw [e2, after_eq, e])
  rwa [Nat.mod_eq_of_lt hm, Nat.mod_eq_of_lt hn] at this

example : (⟨1, 0⟩ : Rng) ≠ ⟨0, 0⟩ := by decide

/-- C79: so the sequences of all seeds are stretches of one and the same cycle. -/
theorem C79_one_cycle {s t : Rng} (h : Made s) (h2 : Made t) :
    ∃! d, d < period ∧ ∀ n, drawn n t = drawn (d + n) s := by
  obtain ⟨d, ⟨hd, e⟩, _⟩ := C79_all_states h (made_ne h2)
  have plus : ∀ n, after (d + n) s = after n t := by
    intro n
    rw [after_eq, after_eq, Nat.add_comm, Function.iterate_add_apply, ← after_eq d, e]
  refine ⟨d, ⟨hd, fun n => ?_⟩, ?_⟩
  · unfold drawn; rw [plus]
  · rintro d' ⟨hd', h'⟩
    have e0 : out64 (after 0 t) = out64 (after d' s) := h' 0
    have e1 : out64 (after 1 t) = out64 (after (d' + 1) s) := h' 1
    have e2 : after d' s = t := by
      refine (two_determine e0 ?_).symm
      rw [after_eq, after_eq] at e1 ⊢
      rw [Function.iterate_succ_apply' step, Function.iterate_succ_apply' step] at e1
      exact e1
    have := (C79_period h d' d).1 (by rw [e2, e])
    rwa [Nat.mod_eq_of_lt hd', Nat.mod_eq_of_lt hd] at this

example : Made (ofSeed 1) ∧ Made (ofEnvironment 5 6 7) := ⟨Or.inl ⟨_, rfl⟩, Or.inr ⟨_, _, _, rfl⟩⟩

open Classical in
/-- C79: within a period each set of words is hit `2^64` times for each of its words, but for one zero. -/
theorem C79_counts {s : Rng} (h : Made s) (P : BitVec 64 → Prop) :
    howMany period (fun n => P (drawn n s)) =
      howMany (2 ^ 64) (fun w => P (BitVec.ofNat 64 w)) * 2 ^ 64 - if P 0 then 1 else 0 := by
  have := count_out (made_ne h) P
  rw [← this, period_order]
  apply howMany_congr
  intro n _
  unfold drawn
  rw [after_eq]
  rfl

theorem counts_of {s : Rng} (h : Made s) (P : BitVec 64 → Prop) {k : Nat}
    (hk : howMany (2 ^ 64) (fun w => P (BitVec.ofNat 64 w)) = k) (h0 : ¬ P 0) :
    howMany period (fun n => P (drawn n s)) = k * 2 ^ 64 := by
  rw [C79_counts h P, hk, if_neg h0, Nat.sub_zero]

/-- C79: each word is returned `2^64` times in a period, zero one time fewer. -/
theorem C79_equidistributed {s : Rng} (h : Made s) (v : BitVec 64) :
    howMany period (fun n => drawn n s = v) = if v = 0 then 2 ^ 64 - 1 else 2 ^ 64 := by
  rw [C79_counts h (fun w => w = v)]
  have e : howMany (2 ^ 64) (fun w => BitVec.ofNat 64 w = v) = 1 := by
    rw [← howMany_eq v.isLt]
    apply howMany_congr
    intro i hi
    constructor
    · rintro rfl; rw [BitVec.toNat_ofNat, Nat.mod_eq_of_lt hi]
    · rintro rfl; simp
  rw [e]
  by_cases hv : v = 0
  · rw [if_pos hv, if_pos hv.symm, Nat.one_mul]
  · rw [if_neg hv, if_neg (Ne.symm hv), Nat.one_mul, Nat.sub_zero]

/-- C79: and so are the shorter numbers: the low `k` bits have each value `2^(128-k)` times, zero one time fewer. -/
theorem C79_low_bits {s : Rng} (h : Made s) (k : Nat) (hk : k ≤ 64) (v : Nat) (hv : v < 2 ^ k) :
    howMany period (fun n => (drawn n s).toNat % 2 ^ k = v) = if v = 0 then 2 ^ (128 - k) - 1 else 2 ^ (128 - k) := by
  rw [C79_counts h (fun w => w.toNat % 2 ^ k = v)]
  have e : howMany (2 ^ 64) (fun w => (BitVec.ofNat 64 w).toNat % 2 ^ k = v) = 2 ^ (64 - k) := by
    have := howMany_mod (2 ^ (64 - k)) (2 ^ k) (fun i => i = v)
    rw [howMany_eq hv, Nat.mul_one, ← Nat.pow_add, Nat.sub_add_cancel hk] at this
    rw [← this]
    apply howMany_congr
    intro i hi
    rw [BitVec.toNat_ofNat, Nat.mod_eq_of_lt hi]
  have e2 : 2 ^ (64 - k) * 2 ^ 64 = 2 ^ (128 - k) := by rw [← Nat.pow_add]; rw [show 64 - k + 64 = 128 - k by omega]
  rw [e, e2]
  have ez : BitVec.toNat (0 : BitVec 64) % 2 ^ k = 0 := Nat.zero_mod _
  rw [ez]
  by_cases h0 : v = 0
  · rw [if_pos h0, if_pos h0.symm]
  · rw [if_neg h0, if_neg (Ne.symm h0), Nat.sub_zero]

example : (8 : Nat) ≤ 64 ∧ 255 < 2 ^ 8 := by decide

/-- C79: a call for 32, 16 or 8 bits returns the low bits of the next word, and takes one word. -/
theorem C79_widths (s : Rng) :
    (next32 s).1.toNat = (drawn 0 s).toNat % 2 ^ 32 ∧ (next32 s).2 = after 1 s ∧
    (next16 s).1.toNat = (drawn 0 s).toNat % 2 ^ 16 ∧ (next16 s).2 = after 1 s ∧
    (next8 s).1.toNat = (drawn 0 s).toNat % 2 ^ 8 ∧ (next8 s).2 = after 1 s ∧ (nextFloat s).2 = after 1 s := by
  refine ⟨?_, rfl, ?_, rfl, ?_, rfl, rfl⟩ <;> exact BitVec.toNat_setWidth _ _

example : (next8 (ofSeed 0)).1 = (drawn 0 (ofSeed 0)).truncate 8 ∧ (next8 (ofSeed 0)).1 ≠ 0 := by decide +kernel

/-- C79: two successive words tell the whole state, and so all that follows. -/
theorem C79_predictable {s t : Rng} (h0 : drawn 0 s = drawn 0 t) (h1 : drawn 1 s = drawn 1 t) : s = t :=
  two_determine h0 h1

/-- C79: generators of different seeds differ in their first two words. -/
theorem C79_seeds_differ {a b : BitVec 64} (h : a ≠ b) :
    drawn 0 (ofSeed a) ≠ drawn 0 (ofSeed b) ∨ drawn 1 (ofSeed a) ≠ drawn 1 (ofSeed b) := by
  by_contra hc
  rw [not_or, not_not, not_not] at hc
  exact h (seed_inj (C79_predictable hc.1 hc.2))

example : (0 : BitVec 64) ≠ 1 ∧ drawn 0 (ofSeed 0) ≠ drawn 0 (ofSeed 1) := by decide +kernel

theorem avalanche_inj {x y : BitVec 64} (h : Verif.Bits.avalanche64 x = Verif.Bits.avalanche64 y) : x = y :=
  Verif.Bits.C30_avalanche_bijective.2.2.1 _ _ h

theorem or_one {x y : BitVec 64} (h : x ||| 1 = y ||| 1) : x = y ∨ x = y ^^^ 1 := by
  have hb : ∀ i, 0 < i → x.getLsbD i = y.getLsbD i := by
    intro i hi
    have := congrArg (fun z => z.getLsbD i) h
    simpa [BitVec.getLsbD_or, show i ≠ 0 by omega] using this
  by_cases h0 : x.getLsbD 0 = y.getLsbD 0
  · left
    apply BitVec.eq_of_getLsbD_eq
    intro i _
    rcases Nat.eq_zero_or_pos i with rfl | hi
    · exact h0
    · exact hb i hi
  · right
    apply BitVec.eq_of_getLsbD_eq
    intro i _
    rw [BitVec.getLsbD_xor]
    rcases Nat.eq_zero_or_pos i with rfl | hi
    · have : (1 : BitVec 64).getLsbD 0 = true := rfl
      rw [this]
      revert h0
      cases x.getLsbD 0 <;> cases y.getLsbD 0 <;> simp
    · have h1 : (1 : BitVec 64).getLsbD i = false := by
        rw [show (1 : BitVec 64) = 1#64 from rfl, BitVec.getLsbD_one]
        simp; omega
      rw [h1, hb i hi, Bool.xor_false]

theorem skip_inj : ∀ (n : Nat) {s t : Rng}, skip n s = skip n t → s = t
  | 0, _, _, h => h
  | n + 1, _, _, h => step_inj (skip_inj n h)

theorem three_or_one {x y z : BitVec 64} (h1 : x ||| 1 = y ||| 1) (h2 : x ||| 1 = z ||| 1) : x = y ∨ x = z ∨ y = z := by
  rcases or_one h1 with h | h
  · exact Or.inl h
  · rcases or_one h2 with k | k
    · exact Or.inr (Or.inl k)
    · exact Or.inr (Or.inr ((BitVec.xor_left_inj _).1 (h.symm.trans k)))

/-- C79: generators made without a seed depend on both clocks: of any three readings of either clock at most two lead
to the same generator, everything else being the same. -/
theorem C79_clocks_matter {a b c : BitVec 64} (hab : a ≠ b) (hac : a ≠ c) (hbc : b ≠ c) (other thread : BitVec 64) :
    ¬ (ofEnvironment a other thread = ofEnvironment b other thread ∧
       ofEnvironment a other thread = ofEnvironment c other thread) ∧
    ¬ (ofEnvironment other a thread = ofEnvironment other b thread ∧
       ofEnvironment other a thread = ofEnvironment other c thread) := by
  constructor
  · rintro ⟨h1, h2⟩
    have e1 := avalanche_inj (congrArg Rng.s0 (skip_inj 10 h1))
    have e2 := avalanche_inj (congrArg Rng.s0 (skip_inj 10 h2))
    rcases three_or_one e1 e2 with h | h | h
    · exact hab (avalanche_inj h)
    · exact hac (avalanche_inj h)
    · exact hbc (avalanche_inj h)
  · rintro ⟨h1, h2⟩
    have e1 := avalanche_inj (congrArg Rng.s1 (skip_inj 10 h1))
    have e2 := avalanche_inj (congrArg Rng.s1 (skip_inj 10 h2))
    rcases three_or_one e1 e2 with h | h | h
    · exact hab (avalanche_inj ((BitVec.add_left_inj _).1 h))
    · exact hac (avalanche_inj ((BitVec.add_left_inj _).1 h))
    · exact hbc (avalanche_inj ((BitVec.add_left_inj _).1 h))

example : (3 : BitVec 64) ≠ 4 ∧ (3 : BitVec 64) ≠ 5 ∧ (4 : BitVec 64) ≠ 5 := by decide

/-! ## Fractions -/

theorem toFloat_big {n : Nat} (h : 2 ^ 24 ≤ n) : ∃ e q r, 2 ^ 23 ≤ q ∧ q < 2 ^ 24 ∧ r < 2 * 2 ^ e ∧
    n = q * (2 * 2 ^ e) + r ∧
    toFloat n = (if 2 ^ e < r ∨ (r = 2 ^ e ∧ q % 2 = 1) then q + 1 else q) * (2 * 2 ^ e) := by
  have hn : n ≠ 0 := by intro e; subst e; revert h; decide
  have h1 := Nat.log2_self_le hn
  have h2 := Nat.lt_log2_self (n := n)
  have h3 : 24 ≤ Nat.log2 n := (Nat.le_log2 hn).2 h
  obtain ⟨e, he⟩ : ∃ e, Nat.log2 n = e + 24 := ⟨Nat.log2 n - 24, by omega⟩
  have hp : 2 ^ (e + 1) = 2 * 2 ^ e := by rw [Nat.pow_succ, Nat.mul_comm]
  have pos : 0 < 2 ^ (e + 1) := Nat.two_pow_pos _
  refine ⟨e, n / 2 ^ (e + 1), n % 2 ^ (e + 1), ?_, ?_, ?_, ?_, ?_⟩
  · rw [Nat.le_div_iff_mul_le pos, ← Nat.pow_add, show 23 + (e + 1) = e + 24 by omega, ← he]; exact h1
  · rw [Nat.div_lt_iff_lt_mul pos, ← Nat.pow_add, show 24 + (e + 1) = e + 24 + 1 by omega, ← he]; exact h2
  · rw [← hp]; exact Nat.mod_lt _ pos
  · rw [← hp, Nat.mul_comm]; exact (Nat.div_add_mod _ _).symm
  · unfold toFloat
    rw [if_neg (by omega)]
    dsimp only
    rw [he, show e + 24 - 23 = e + 1 by omega, show e + 1 - 1 = e by omega, hp]

/-- The conversion gives a number that a `float` can hold, and none is nearer. -/
theorem C79_nearest (n : Nat) : IsFloat (toFloat n) ∧ ∀ m, IsFloat m → apart (toFloat n) n ≤ apart m n := by
  by_cases h : n < 2 ^ 24
  · have e : toFloat n = n := by unfold toFloat; rw [if_pos h]
    rw [e]
    refine ⟨⟨n, 0, h, by omega⟩, fun m _ => ?_⟩
    unfold apart; omega
  obtain ⟨e, q, r, q1, q2, hr, hn, hf⟩ := toFloat_big (Nat.le_of_not_lt h)
  have pe : 0 < 2 ^ e := Nat.two_pow_pos _
  constructor
  · rw [hf]
    by_cases hq : q + 1 < 2 ^ 24
    · refine ⟨if 2 ^ e < r ∨ (r = 2 ^ e ∧ q % 2 = 1) then q + 1 else q, e + 1, ?_, by
        rw [Nat.pow_succ, Nat.mul_comm (2 ^ e) 2]⟩
      split <;> omega
    · split
      · refine ⟨2 ^ 23, e + 2, by decide, ?_⟩
        rw [show q + 1 = 2 ^ 23 * 2 by omega, Nat.pow_add]
        ring
      · exact ⟨q, e + 1, q2, by rw [Nat.pow_succ, Nat.mul_comm (2 ^ e)]⟩
  · rintro m ⟨q', e', hq', hm⟩
    -- a number that can be held is at most the one below or at least the one above
    have key : m ≤ q * (2 * 2 ^ e) ∨ (q + 1) * (2 * 2 ^ e) ≤ m := by
      by_cases he : e' ≤ e
      · left
        have : 2 ^ e' ≤ 2 ^ e := Nat.pow_le_pow_right (by decide) he
        calc m = q' * 2 ^ e' := hm
          _ ≤ 2 ^ 24 * 2 ^ e := Nat.mul_le_mul (by omega) this
          _ = 2 ^ 23 * (2 * 2 ^ e) := by ring
          _ ≤ q * (2 * 2 ^ e) := Nat.mul_le_mul_right _ q1
      · obtain ⟨d, rfl⟩ : ∃ d, e' = e + 1 + d := ⟨e' - (e + 1), by omega⟩
        have e2 : m = (q' * 2 ^ d) * (2 * 2 ^ e) := by rw [hm, Nat.pow_add, Nat.pow_succ]; ring
        rw [e2]
        rcases Nat.lt_or_ge q (q' * 2 ^ d) with h1 | h1
        · right; exact Nat.mul_le_mul_right _ h1
        · left; exact Nat.mul_le_mul_right _ h1
    rw [Nat.add_mul, Nat.one_mul] at key
    rw [hf]
    unfold apart
    split
    · rw [Nat.add_mul, Nat.one_mul]; omega
    · rename_i hc
      have : r ≤ 2 ^ e := by
        by_contra hc2
        exact hc (Or.inl (by omega))
      omega

example : toFloat 16777217 = 16777216 ∧ toFloat 16777219 = 16777220 ∧ toFloat 4294967295 = 4294967296 := by decide +kernel

/-- Between two numbers that a `float` can hold the conversion keeps the order. -/
theorem C79_monotone {m n : Nat} (h : m ≤ n) : toFloat m ≤ toFloat n := by
  obtain ⟨f1, n1⟩ := C79_nearest m
  obtain ⟨f2, n2⟩ := C79_nearest n
  have h1 := n1 _ f2
  have h2 := n2 _ f1
  by_cases e : m = n
  · rw [e]
  unfold apart at h1 h2
  omega

theorem toFloat_top {n : Nat} (h : 2 ^ 32 - 128 ≤ n) (h2 : n < 2 ^ 32) : toFloat n = 2 ^ 32 := by
  obtain ⟨e, q, r, q1, q2, hr, hn, hf⟩ := toFloat_big (n := n) (by omega)
  have he : e = 7 := by
    by_contra hne
    rcases Nat.lt_or_gt_of_ne hne with hl | hl
    · have : 2 ^ e ≤ 2 ^ 6 := Nat.pow_le_pow_right (by decide) (by omega)
      have : q * (2 * 2 ^ e) ≤ (2 ^ 24 - 1) * (2 * 2 ^ e) := Nat.mul_le_mul_right _ (by omega)
      omega
    · have h8 : 2 ^ 8 ≤ 2 ^ e := Nat.pow_le_pow_right (by decide) (by omega)
      have : 2 ^ 23 * (2 * 2 ^ e) ≤ q * (2 * 2 ^ e) := Nat.mul_le_mul_right _ q1
      omega
  subst he
  have hq : q = 2 ^ 24 - 1 := by omega
  subst hq
  have : 2 ^ 7 ≤ r := by omega
  suffices hc : 2 ^ 7 < r ∨ (r = 2 ^ 7 ∧ (2 ^ 24 - 1) % 2 = 1) by
    rw [hf, if_pos hc]
    decide
  rcases Nat.lt_or_eq_of_le this with h | h
  · exact Or.inl h
  · exact Or.inr ⟨h.symm, by decide⟩

/-- C79: a fraction lies between 0 and 1 and at most `2^-25` from the number drawn over `2^32`. -/
theorem C79_fraction (s : Rng) : (nextFloat s).1 ≤ 2 ^ 32 ∧ apart (nextFloat s).1 (next32 s).1.toNat ≤ 2 ^ 7 := by
  unfold nextFloat
  dsimp only
  have hlt := (next32 s).1.isLt
  generalize (next32 s).1.toNat = n at hlt ⊢
  constructor
  · have := C79_monotone (m := n) (n := 2 ^ 32 - 1) (by omega)
    rw [toFloat_top (n := 2 ^ 32 - 1) (by decide) (by decide)] at this
    exact this
  · by_cases h : n < 2 ^ 24
    · unfold toFloat apart; rw [if_pos h]; omega
    obtain ⟨e, q, r, q1, q2, hr, hn, hf⟩ := toFloat_big (Nat.le_of_not_lt h)
    have he : e ≤ 7 := by
      by_contra hne
      have h8 : 2 ^ 8 ≤ 2 ^ e := Nat.pow_le_pow_right (by decide) (by omega)
      have : 2 ^ 23 * (2 * 2 ^ e) ≤ q * (2 * 2 ^ e) := Nat.mul_le_mul_right _ q1
      omega
    have : 2 ^ e ≤ 2 ^ 7 := Nat.pow_le_pow_right (by decide) he
    rw [hf]
    unfold apart
    split
    · rw [Nat.add_mul, Nat.one_mul]; omega
    · rename_i hc
      have : r ≤ 2 ^ e := by
        by_contra hc2
        exact hc (Or.inl (by omega))
      omega

/-- C79: it is 1 just if the number drawn is one of the last 128; and 0 just if that is 0. -/
theorem C79_fraction_one (s : Rng) :
    ((nextFloat s).1 = 2 ^ 32 ↔ 2 ^ 32 - 128 ≤ (next32 s).1.toNat) ∧ ((nextFloat s).1 = 0 ↔ (next32 s).1.toNat = 0) := by
  unfold nextFloat
  dsimp only
  have hlt := (next32 s).1.isLt
  generalize (next32 s).1.toNat = n at hlt ⊢
  refine ⟨⟨fun h => ?_, fun h => toFloat_top h hlt⟩, fun h => ?_, fun h => by subst h; decide⟩
  · by_contra hc
    have := C79_monotone (m := n) (n := 2 ^ 32 - 129) (by omega)
    rw [h] at this
    revert this
    decide +kernel
  · by_contra hc
    have := C79_monotone (m := 1) (n := n) (by omega)
    rw [h] at this
    revert this
    decide

/-- C79: so 1 itself is returned, in `2^103` of the `2^128 - 1` moments of a period: the fraction is not always below 1. -/
theorem C79_fraction_reaches_one {s : Rng} (h : Made s) :
    howMany period (fun n => (nextFloat (after n s)).1 = 2 ^ 32) = 2 ^ 103 := by
  have e : howMany period (fun n => (nextFloat (after n s)).1 = 2 ^ 32) =
      howMany period (fun n => (fun w : BitVec 64 => 2 ^ 32 - 128 ≤ w.toNat % 2 ^ 32) (drawn n s)) := by
    apply howMany_congr
    intro n _
    rw [(C79_fraction_one _).1, (C79_widths _).1]
    rfl
  have hz : ¬ 2 ^ 32 - 128 ≤ BitVec.toNat (0 : BitVec 64) % 2 ^ 32 := by
    rw [show BitVec.toNat (0 : BitVec 64) = 0 from rfl]; omega
  have e2 : howMany (2 ^ 64) (fun w => 2 ^ 32 - 128 ≤ (BitVec.ofNat 64 w).toNat % 2 ^ 32) = 2 ^ 32 * 128 := by
    have e3 : howMany (2 ^ 32) (fun i => 2 ^ 32 - 128 ≤ i) = 128 := howMany_last (by decide)
    have := howMany_mod (2 ^ 32) (2 ^ 32) (fun i => 2 ^ 32 - 128 ≤ i)
    rw [e3] at this
    rw [← this]
    apply howMany_congr
    intro i hi
    rw [BitVec.toNat_ofNat, Nat.mod_eq_of_lt hi]
  rw [e]
  exact (counts_of h (fun w : BitVec 64 => 2 ^ 32 - 128 ≤ w.toNat % 2 ^ 32) e2 hz).trans (by decide)

end Verif.Rand
