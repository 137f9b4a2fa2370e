import Verif.Rand.LemmasB
import Mathlib.Data.Nat.Count

/-!
# Lemmas about counting
-/

namespace Verif.Rand

theorem made_ne {s : Rng} (h : Made s) : s ≠ 0 := by
  rcases h with ⟨seed, rfl⟩ | ⟨time, timer, thread, rfl⟩
  · unfold ofSeed
    apply step_ne
    apply step_ne
    intro e
    have e0 : Verif.Bits.avalanche64 (seed + 1) = 0 := congrArg Rng.s0 e
    have e1 : Verif.Bits.avalanche64 (Verif.Bits.avalanche64 (seed + 1) + 1) = 0 := congrArg Rng.s1 e
    rw [e0] at e1
    exact av_ne (by decide) e1
  · unfold ofEnvironment
    have hs : ∀ n s, skip n s = step^[n] s := by
      intro n
      induction n with
      | zero => intro s; rfl
      | succ n ih => intro s; rw [skip, ih, Function.iterate_succ_apply]
    rw [hs]
    apply iter_ne
    intro e
    have e0 := congrArg Rng.s0 e
    refine av_ne ?_ e0
    intro e1
    have := congrArg (BitVec.getLsbD · 0) e1
    simp at this

theorem seed_inj {a b : BitVec 64} (h : ofSeed a = ofSeed b) : a = b := by
  unfold ofSeed at h
  have h1 := congrArg Rng.s0 (step_inj (step_inj h))
  have h2 := Verif.Bits.C30_avalanche_bijective.2.2.1 _ _ h1
  exact (BitVec.add_left_inj _).1 h2

theorem zero_lt_words : 0 < 2 ^ 64 := by decide

open Classical in
theorem count_image {α : Type} [DecidableEq α] (n : Nat) (f : Nat → α) (c : Finset α) (h : (Finset.range n).image f = c)
    (h2 : ∀ i j, i < n → j < n → f i = f j → i = j) (Q : α → Prop) :
    howMany n (fun i => Q (f i)) = (c.filter Q).card := by
  subst h
  unfold howMany
  rw [Finset.filter_image, Finset.card_image_of_injOn]
  intro i hi j hj h
  rw [Finset.mem_coe, Finset.mem_filter, Finset.mem_range] at hi hj
  exact h2 i j hi.1 hj.1 h

open Classical in
theorem count_states {s : Rng} (hs : s ≠ 0) (Q : Rng → Prop) :
    howMany order (fun n => Q (step^[n] s)) =
      (codes.filter (fun c => Q ⟨BitVec.ofNat 64 c.1, BitVec.ofNat 64 c.2⟩)).card := by
  rw [← count_image order _ codes (visits_image hs)]
  · simp [code]
  · intro m n hm hn h
    have := (iter_eq_iff hs m n).1 (code_inj h)
    rwa [Nat.mod_eq_of_lt hm, Nat.mod_eq_of_lt hn] at this

theorem codes_def : codes = (Finset.range (2 ^ 64) ×ˢ Finset.range (2 ^ 64)).erase (0, 0) := by
  unfold codes; rfl

open Classical in
theorem count_words (P : BitVec 64 → Prop) :
    ((Finset.range (2 ^ 64)).filter (fun a => P (out64 ⟨BitVec.ofNat 64 a, 0⟩))).card =
      ((Finset.range (2 ^ 64)).filter (fun w => P (BitVec.ofNat 64 w))).card := by
  generalize hN : 2 ^ 64 = N
  apply Finset.card_bij' (fun a _ => (out64 ⟨BitVec.ofNat 64 a, 0⟩).toNat) (fun w _ => (unout (BitVec.ofNat 64 w)).toNat)
  · intro a ha
    rw [Finset.mem_filter, Finset.mem_range] at ha ⊢
    refine ⟨by rw [← hN]; exact BitVec.isLt _, ?_⟩
    rw [BitVec.ofNat_toNat, BitVec.setWidth_eq]; exact ha.2
  · intro a ha
    rw [Finset.mem_filter, Finset.mem_range] at ha ⊢
    refine ⟨by rw [← hN]; exact BitVec.isLt _, ?_⟩
    rw [BitVec.ofNat_toNat, BitVec.setWidth_eq, out_unout]; exact ha.2
  · intro a ha
    rw [Finset.mem_filter, Finset.mem_range] at ha
    rw [BitVec.ofNat_toNat, BitVec.setWidth_eq, unout_out, BitVec.toNat_ofNat, hN, Nat.mod_eq_of_lt ha.1]
  · intro a ha
    rw [Finset.mem_filter, Finset.mem_range] at ha
    rw [BitVec.ofNat_toNat, BitVec.setWidth_eq, out_unout, BitVec.toNat_ofNat, hN, Nat.mod_eq_of_lt ha.1]

open Classical in
theorem erase_filter {α : Type} [DecidableEq α] (c : Finset α) (x : α) (hx : x ∈ c) (P : α → Prop) :
    ((c.erase x).filter P).card = (c.filter P).card - if P x then 1 else 0 := by
  rw [Finset.filter_erase]
  by_cases h : P x
  · rw [if_pos h, Finset.card_erase_of_mem (Finset.mem_filter.2 ⟨hx, h⟩)]
  · rw [if_neg h, Finset.erase_eq_of_notMem (fun e => h (Finset.mem_filter.1 e).2), Nat.sub_zero]

theorem zero_mem (N : Nat) (h : 0 < N) : ((0, 0) : Nat × Nat) ∈ Finset.range N ×ˢ Finset.range N := by
  rw [Finset.mem_product, Finset.mem_range]
  exact ⟨h, h⟩

theorem out_s0 (s : Rng) : out64 s = out64 ⟨s.s0, 0⟩ := rfl

open Classical in
theorem count_out {s : Rng} (hs : s ≠ 0) (P : BitVec 64 → Prop) :
    howMany order (fun n => P (out64 (step^[n] s))) =
      howMany (2 ^ 64) (fun w => P (BitVec.ofNat 64 w)) * 2 ^ 64 - if P 0 then 1 else 0 := by
  have key : ∀ N, 0 < N → ∀ Q : Nat × Nat → Prop, (((Finset.range N ×ˢ Finset.range N).erase (0, 0)).filter Q).card =
      ((Finset.range N ×ˢ Finset.range N).filter Q).card - if Q (0, 0) then 1 else 0 :=
    fun N hN Q => erase_filter _ _ (zero_mem N hN) Q
  rw [count_states hs (fun t => P (out64 t)), codes_def, key _ zero_lt_words]
  have e0 : out64 ⟨BitVec.ofNat 64 0, BitVec.ofNat 64 0⟩ = 0 := by decide +kernel
  dsimp only
  rw [e0]
  have k2 : ∀ N, ((Finset.range N ×ˢ Finset.range N).filter
      (fun c => P (out64 ⟨BitVec.ofNat 64 c.1, BitVec.ofNat 64 c.2⟩))).card =
      ((Finset.range N).filter (fun a => P (out64 ⟨BitVec.ofNat 64 a, 0⟩))).card * N := by
    intro N
    have := Finset.filter_product_left (s := Finset.range N) (t := Finset.range N)
      (fun a => P (out64 ⟨BitVec.ofNat 64 a, 0⟩))
    have h2 := congrArg Finset.card this
    rw [Finset.card_product, Finset.card_range] at h2
    rw [← h2]
    congr 1
  rw [k2, count_words P]
  unfold howMany
  rfl

open Classical in
theorem howMany_count (n : Nat) (P : Nat → Prop) : howMany n P = Nat.count P n := by
  unfold howMany; exact (Nat.count_eq_card_filter_range P n).symm

theorem howMany_congr {n : Nat} {P Q : Nat → Prop} (h : ∀ i < n, P i ↔ Q i) : howMany n P = howMany n Q := by
  classical
  rw [howMany_count, howMany_count]
  induction n with
  | zero => simp
  | succ n ih =>
    rw [Nat.count_succ, Nat.count_succ, ih (fun i hi => h i (by omega))]
    simp only [h n (by omega)]

theorem howMany_none (n : Nat) {P : Nat → Prop} (h : ∀ i < n, ¬ P i) : howMany n P = 0 := by
  classical
  unfold howMany
  rw [Finset.card_eq_zero, Finset.filter_eq_empty_iff]
  intro i hi
  exact h i (Finset.mem_range.1 hi)

theorem howMany_all (n : Nat) {P : Nat → Prop} (h : ∀ i < n, P i) : howMany n P = n := by
  classical
  unfold howMany
  rw [Finset.filter_true_of_mem, Finset.card_range]
  intro i hi
  exact h i (Finset.mem_range.1 hi)

theorem howMany_add (m n : Nat) (P : Nat → Prop) : howMany (m + n) P = howMany m P + howMany n (fun i => P (m + i)) := by
  classical
  rw [howMany_count, howMany_count, howMany_count, Nat.count_add]

theorem howMany_eq {n v : Nat} (h : v < n) : howMany n (fun i => i = v) = 1 := by
  obtain ⟨k, rfl⟩ := Nat.exists_eq_add_of_lt h
  rw [Nat.add_assoc, howMany_add, Nat.add_comm k 1, howMany_add, howMany_none v (by omega), howMany_none k (by omega),
    howMany_all 1 (by omega)]

theorem howMany_last {n k : Nat} (h : k ≤ n) : howMany n (fun i => n - k ≤ i) = k := by
  obtain ⟨m, rfl⟩ := Nat.exists_eq_add_of_le' h
  rw [howMany_add, howMany_none m (by omega), howMany_all k (by omega), Nat.zero_add]

/-- Of the numbers below `a * b` each condition on the residue modulo `b` holds of `a` times as many as below `b`. -/
theorem howMany_mod (a b : Nat) (P : Nat → Prop) :
    howMany (a * b) (fun i => P (i % b)) = a * howMany b P := by
  induction a with
  | zero => simp [howMany]
  | succ a ih =>
    rw [Nat.add_mul, Nat.one_mul, howMany_add, ih, Nat.add_mul, Nat.one_mul]
    congr 1
    apply howMany_congr
    intro i hi
    rw [Nat.add_comm, Nat.add_mul_mod_self_right, Nat.mod_eq_of_lt hi]

end Verif.Rand
