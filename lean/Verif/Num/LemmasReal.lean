import Verif.Num.ModelReal
import Verif.Num.SpecReal
import Verif.Num.Lemmas
namespace Verif.Num
open Verif

theorem digitsOf_cons (base : Nat) (c : Byte) (rest : List Byte) :
    digitsOf base (c :: rest) = if isDigit base c then c :: digitsOf base rest else [] := by
  simp only [digitsOf, List.takeWhile_cons]

theorem afterDigits_cons (base : Nat) (c : Byte) (rest : List Byte) :
    afterDigits base (c :: rest) = if isDigit base c then afterDigits base rest else c :: rest := by
  simp only [afterDigits, List.dropWhile_cons]

/-- A digit of the radix, with its value. -/
theorem digit_cases (base : Nat) (hb : base ≤ 36) (c : Byte) :
    (isDigit base c = true ∧ digitOf c < base ∧ specDigit c = some (digitOf c)) ∨
    (isDigit base c = false ∧ base ≤ digitOf c) := by
  have h1 := isDigit_iff base hb c
  have h2 := digitOf_spec c
  cases hd : isDigit base c with
  | true =>
    left
    have h3 : digitOf c < base := by
      rw [hd] at h1; simpa using h1
    refine ⟨rfl, h3, ?_⟩
    cases hs : specDigit c with
    | none =>
      rw [isDigit, hs] at hd
      cases hd
    | some d => rw [hs] at h2; simp at h2; rw [h2]
  | false =>
    right
    refine ⟨rfl, ?_⟩
    rw [hd] at h1
    simpa using h1

theorem readComp_rest (a : Arith) (base : Nat) (hb : base ≤ 36) (input : List Byte) (v : Rat) (any : Bool) :
    (readComp a base v any input).2 =
      (any || !(digitsOf base input).isEmpty, afterDigits base input) := by
  induction input generalizing v any with
  | nil => simp [readComp, digitsOf, afterDigits]
  | cons c rest ih =>
    rw [readComp, digitsOf_cons, afterDigits_cons]
    rcases digit_cases base hb c with ⟨h1, h2, _⟩ | ⟨h1, h2⟩
    · rw [if_neg (by omega), ih, h1]; simp
    · rw [if_pos h2, h1]; simp

theorem readComp_value (a : Arith) (base : Nat) (hb : base ≤ 36) (hb0 : 0 < base) (input : List Byte)
    (v : Nat) (any : Bool)
    (hr : ∀ n : Nat, n ≤ numeral base v (digitsOf base input) → a.rnd n = n) :
    (readComp a base v any input).1 = numeral base v (digitsOf base input) := by
  induction input generalizing v any with
  | nil => simp [readComp, digitsOf, numeral]
  | cons c rest ih =>
    rw [readComp, digitsOf_cons]
    rw [digitsOf_cons] at hr
    rcases digit_cases base hb c with ⟨h1, h2, h3⟩ | ⟨h1, h2⟩
    · rw [h1, if_pos rfl, numeral, h3] at hr
      dsimp only at hr
      have hm := numeral_mono base hb0 (digitsOf base rest) (v * base + digitOf c)
      have e1 : a.rnd ((v : Rat) * base) = ((v * base : Nat) : Rat) := by
        have := hr (v * base) (by omega)
        rw [← this]; congr 1; grind
      have e2 : a.rnd (((v * base : Nat) : Rat) + (digitOf c : Nat)) = ((v * base + digitOf c : Nat) : Rat) := by
        have := hr (v * base + digitOf c) (by omega)
        rw [← this]; congr 1; grind
      rw [if_neg (by omega), h1, if_pos rfl, numeral, h3, e1, e2, ih _ _ hr]
    · rw [if_pos h2, h1]; simp [numeral]

theorem numeral_shift (base : Nat) (ds : List Byte) (h : Digits base ds) (x y : Nat) :
    numeral base (x + y) ds = x * base ^ ds.length + numeral base y ds := by
  induction ds generalizing x y with
  | nil => simp [numeral]
  | cons c ds ih =>
    have hc := h c (by simp)
    have ht : Digits base ds := fun d hd => h d (by simp [hd])
    rw [numeral, numeral]
    cases hs : specDigit c with
    | none => rw [isDigit, hs] at hc; cases hc
    | some d =>
      dsimp only
      rw [show (x + y) * base + d = x * base + (y * base + d) by grind, ih ht, List.length_cons,
        Nat.pow_succ]
      grind

theorem digitsOf_digits (base : Nat) (input : List Byte) : Digits base (digitsOf base input) := by
  induction input with
  | nil => intro c hc; simp [digitsOf] at hc
  | cons x rest ih =>
    intro c hc
    rw [digitsOf_cons] at hc
    split at hc
    · rename_i hx
      rcases List.mem_cons.1 hc with rfl | hc
      · exact hx
      · exact ih c hc
    · cases hc

/-- The test for an overflow of the denominator sees every overflow. -/
def Detects (base : Nat) : Prop :=
  ∀ k, base ^ k < 2 ^ 64 → 2 ^ 64 ≤ base ^ (k + 1) → base ^ (k + 1) % 2 ^ 64 < base ^ k

theorem fracLoop_rest (a : Arith) (base : Nat) (hb : base ≤ 36) (input : List Byte) (v s : Rat)
    (n d : Nat) : (fracLoop a base v s n d input).2 = afterDigits base input := by
  induction input generalizing v s n d with
  | nil => simp [fracLoop, afterDigits]
  | cons c rest ih =>
    rw [fracLoop, afterDigits_cons]
    dsimp only
    rcases digit_cases base hb c with ⟨h1, h2, _⟩ | ⟨h1, h2⟩
    · rw [if_neg (by omega), h1]
      split
      · rw [ih]; rfl
      · rw [ih]; rfl
    · rw [if_pos h2, h1]; simp

theorem natPow_ne (base k : Nat) (hb0 : 0 < base) : (base : Rat) ^ k ≠ 0 := by
  intro h
  have h0 : (0 : Rat) < base := by
    have : ((0 : Nat) : Rat) < base := Rat.natCast_lt_natCast.2 hb0
    simpa using this
  have := Rat.pow_pos (n := k) h0
  rw [h] at this
  exact Rat.lt_irrefl this

theorem shift_alg (v s n d m P B Q : Rat) (hP : P ≠ 0) (hB : B ≠ 0) (hQ : Q ≠ 0)
    (h : m = n * B * Q + d) :
    v + s * n * (1 / P) + s * (1 / P) * d / (B * Q) = v + s * m / (P * (Q * B)) := by
  subst h
  grind

theorem fracLoop_value (a : Arith) (base : Nat) (hb : base ≤ 36) (hb0 : 0 < base) (hr : ∀ x, a.rnd x = x)
    (hd : Detects base) (input : List Byte) (v s : Rat) (n k : Nat) (hn : n < base ^ k)
    (hk : base ^ k < 2 ^ 64) :
    (fracLoop a base v s n (base ^ k) input).1 =
      v + s * (numeral base n (digitsOf base input) : Rat) /
        ((base : Rat) ^ k * (base : Rat) ^ (digitsOf base input).length) := by
  induction input generalizing v s n k with
  | nil => simp [fracLoop, digitsOf, numeral, hr]
  | cons c rest ih =>
    rw [fracLoop, digitsOf_cons]
    dsimp only
    rcases digit_cases base hb c with ⟨h1, h2, h3⟩ | ⟨h1, h2⟩
    · have hbne : (base : Rat) ≠ 0 := by
        intro h
        have : base = 0 := by exact_mod_cast h
        omega
      rw [if_neg (by omega), h1, if_pos rfl, numeral, h3, List.length_cons]
      dsimp only
      simp only [hr]
      by_cases ho : 2 ^ 64 ≤ base ^ (k + 1)
      · have := hd k hk ho
        rw [if_pos (by rw [u64]; rw [Nat.pow_succ] at this; exact this)]
        have := ih (v + s * n * (1 / ((base ^ k : Nat) : Rat))) (s * (1 / ((base ^ k : Nat) : Rat)))
          (digitOf c) 1 (by simpa using h2) (by rw [Nat.pow_one]; omega)
        rw [Nat.pow_one] at this
        rw [this, show n * base + digitOf c = n * base + digitOf c from rfl,
          numeral_shift base _ (digitsOf_digits base rest) (n * base) (digitOf c)]
        have e : ((base ^ k : Nat) : Rat) = (base : Rat) ^ k := by simp
        have e1 : (base : Rat) ^ 1 = base := by grind
        rw [e, e1, Rat.pow_succ]
        apply shift_alg _ _ _ _ _ _ _ _ (natPow_ne base k hb0) hbne (natPow_ne base _ hb0)
        simp
      · have hlt : base ^ (k + 1) < 2 ^ 64 := by omega
        have hmul : u64 (base ^ k * base) = base ^ (k + 1) := by
          rw [u64, ← Nat.pow_succ, Nat.mod_eq_of_lt hlt]
        have hle : base ^ k ≤ base ^ (k + 1) := Nat.pow_le_pow_right hb0 (by omega)
        have hnum : n * base + digitOf c < base ^ (k + 1) := by
          rw [Nat.pow_succ]
          have : (n + 1) * base ≤ base ^ k * base := Nat.mul_le_mul_right _ hn
          grind
        have hu : u64 (n * base + digitOf c) = n * base + digitOf c := by
          rw [u64, Nat.mod_eq_of_lt (by omega)]
        rw [hmul, if_neg (by omega), hu, ih _ _ _ _ hnum hlt, Rat.pow_succ, Rat.pow_succ]
        congr 2
        grind
    · rw [if_pos h2, h1]; simp [numeral, hr]

end Verif.Num
