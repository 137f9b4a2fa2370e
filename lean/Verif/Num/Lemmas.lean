import Verif.Num.Model
import Verif.Num.Spec
namespace Verif.Num
open Verif

theorem digitOf_spec (c : Byte) :
    digitOf c = match specDigit c with | some d => d | none => 255 := by
  revert c
  apply forall_byte
  decide +kernel

theorem specDigit_lt (c : Byte) (d : Nat) (h : specDigit c = some d) : d < 36 := by
  have : ∀ c : Byte, ∀ d ∈ specDigit c, d < 36 := by
    apply forall_byte
    decide +kernel
  exact this c d h

theorem isDigit_iff (base : Nat) (hb : base ≤ 36) (c : Byte) :
    isDigit base c = true ↔ digitOf c < base := by
  rw [digitOf_spec, isDigit]
  cases specDigit c with
  | none => simp; omega
  | some d => simp

theorem numeral_mono (base : Nat) (hb : 0 < base) (l : List Byte) (a : Nat) :
    a ≤ numeral base a l := by
  induction l generalizing a with
  | nil => exact Nat.le_refl _
  | cons c rest ih =>
    simp only [numeral]
    cases specDigit c with
    | none => exact ih a
    | some d =>
      have h := ih (a * base + d)
      have : a ≤ a * base := Nat.le_mul_of_pos_right a hb
      simp only
      omega

theorem parseLoop_spec (base : Nat) (hb : 0 < base) (hb' : base ≤ 36) (input : List Byte) :
    ∀ (result v : Nat) (any ov : Bool),
      ((ov = false ∧ result = v ∧ v < 2 ^ 64) ∨ (ov = true ∧ 2 ^ 64 ≤ v)) →
      parseLoop base result any ov input =
        (if (any = false ∧ digitsOf base input = []) ∨ 2 ^ 64 ≤ numeral base v (digitsOf base input)
          then ⟨0, true, afterDigits base input⟩
          else ⟨numeral base v (digitsOf base input), false, afterDigits base input⟩) := by
  have exit : ∀ (result v : Nat) (any ov : Bool) (rest : List Byte),
      ((ov = false ∧ result = v ∧ v < 2 ^ 64) ∨ (ov = true ∧ 2 ^ 64 ≤ v)) →
      (if !any || ov then (⟨0, true, rest⟩ : Parsed Nat) else ⟨result, false, rest⟩) =
       (if (any = false ∧ True) ∨ 2 ^ 64 ≤ v then ⟨0, true, rest⟩ else ⟨v, false, rest⟩) := by
    intro result v any ov rest h
    rcases h with ⟨rfl, rfl, h⟩ | ⟨rfl, h⟩
    · cases any
      · simp
      · have : ¬ (2 ^ 64 ≤ result) := by omega
        simp [this]
    · simp [h]
  induction input with
  | nil =>
    intro result v any ov h
    simpa [parseLoop, digitsOf, afterDigits, numeral] using exit result v any ov [] h
  | cons c rest ih =>
    intro result v any ov h
    by_cases hd : isDigit base c = true
    · have hlt := (isDigit_iff base hb' c).mp hd
      have hds : digitsOf base (c :: rest) = c :: digitsOf base rest := by
        simp [digitsOf, hd]
      have has : afterDigits base (c :: rest) = afterDigits base rest := by
        simp [afterDigits, hd]
      rw [hds, has]
      have hsd : specDigit c = some (digitOf c) := by
        rw [digitOf_spec]
        cases hs : specDigit c with
        | some d => rfl
        | none => simp [isDigit, hs] at hd
      simp only [parseLoop]
      rw [if_neg (by omega)]
      have hnum : numeral base v (c :: digitsOf base rest)
          = numeral base (v * base + digitOf c) (digitsOf base rest) := by
        simp [numeral, hsd]
      rw [hnum]
      have step : ((ov || (decide (result > 0x71c71c71c71c71b) &&
            decide (result > (2 ^ 64 - 1 - digitOf c) / base))) = false ∧
            u64 (result * base + digitOf c) = v * base + digitOf c ∧
            v * base + digitOf c < 2 ^ 64) ∨
          ((ov || (decide (result > 0x71c71c71c71c71b) &&
            decide (result > (2 ^ 64 - 1 - digitOf c) / base))) = true ∧
            2 ^ 64 ≤ v * base + digitOf c) := by
        rcases h with ⟨rfl, rfl, h⟩ | ⟨rfl, h⟩
        · have hdiv : result > (2 ^ 64 - 1 - digitOf c) / base ↔
              2 ^ 64 ≤ result * base + digitOf c := by
            rw [gt_iff_lt, Nat.div_lt_iff_lt_mul hb]
            omega
          by_cases hov : 2 ^ 64 ≤ result * base + digitOf c
          · right
            refine ⟨?_, hov⟩
            have h1 : result > 0x71c71c71c71c71b := by
              apply Classical.byContradiction
              intro hn
              have : result * base ≤ 0x71c71c71c71c71b * 36 :=
                Nat.mul_le_mul (by omega) hb'
              omega
            simp [h1, hdiv.mpr hov]
          · left
            refine ⟨?_, u64_of_lt (by omega), by omega⟩
            have : ¬ (result > (2 ^ 64 - 1 - digitOf c) / base) := fun h => hov (hdiv.mp h)
            simp only [this, decide_false, Bool.and_false, Bool.or_false]
        · right
          refine ⟨by simp, ?_⟩
          have : v ≤ v * base := Nat.le_mul_of_pos_right v hb
          omega
      rw [ih _ (v * base + digitOf c) true _ step]
      simp
    · have hnlt : ¬ digitOf c < base := fun h => hd ((isDigit_iff base hb' c).mpr h)
      have hds : digitsOf base (c :: rest) = [] := by simp [digitsOf, hd]
      have has : afterDigits base (c :: rest) = c :: rest := by simp [afterDigits, hd]
      rw [hds, has]
      simp only [parseLoop]
      rw [if_pos (by omega)]
      simpa [numeral] using exit result v any ov (c :: rest) h

theorem toDigit_spec (cap : Bool) (d : Nat) (h : d < 36) : specDigit (toDigit d cap) = some d := by
  revert d
  cases cap <;> decide +kernel

theorem numeral_append (base a : Nat) (l m : List Byte) :
    numeral base a (l ++ m) = numeral base (numeral base a l) m := by
  induction l generalizing a with
  | nil => rfl
  | cons c rest ih =>
    simp only [List.cons_append, numeral]
    cases specDigit c <;> simp [ih]

/-- The digits printed are positional digits of the value, most significant first. -/
theorem printLoop_spec (radix : Nat) (cap : Bool) (hr : 2 ≤ radix) (hr' : radix ≤ 36) :
    ∀ (k value : Nat) (acc : List Byte), value < 2 ^ k → value < 2 ^ 64 →
      ∃ ds, printLoop radix cap k value acc = some (ds ++ acc) ∧
        (∀ c ∈ ds, isDigit radix c = true) ∧
        (∀ a, numeral radix a ds = a * radix ^ ds.length + value) ∧
        (0 < value → ∃ c cs d, ds = c :: cs ∧ specDigit c = some d ∧ 0 < d) ∧ ds.length ≤ k ∧
        (∀ c ∈ ds, ∃ d < radix, c = toDigit d cap) := by
  intro k
  induction k with
  | zero =>
    intro value acc hv _
    have : value = 0 := by simpa using hv
    subst this
    exact ⟨[], by simp [printLoop], by simp, by simp [numeral], by simp, by simp, by simp⟩
  | succ k ih =>
    intro value acc hv hv64
    by_cases h0 : value = 0
    · subst h0
      exact ⟨[], by simp [printLoop], by simp, by simp [numeral], by simp, by simp, by simp⟩
    · have hq : value / radix < 2 ^ k := by
        rw [Nat.div_lt_iff_lt_mul (by omega)]
        calc value < 2 ^ (k + 1) := hv
          _ = 2 ^ k * 2 := Nat.pow_succ 2 k
          _ ≤ 2 ^ k * radix := Nat.mul_le_mul_left _ hr
      have hq64 : value / radix < 2 ^ 64 := Nat.lt_of_le_of_lt (Nat.div_le_self _ _) hv64
      have hdm : value - value / radix * radix = value % radix := by
        have := Nat.div_add_mod value radix
        rw [Nat.mul_comm] at this
        omega
      have hml : value % radix < radix := Nat.mod_lt _ (by omega)
      have hu : u32 (value - value / radix * radix) = value % radix := by
        rw [hdm]; exact u32_of_lt (by omega)
      obtain ⟨ds, h1, h2, h3, h4, h5, h6⟩ := ih (value / radix) (toDigit (value % radix) cap :: acc) hq hq64
      have hsd := toDigit_spec cap (value % radix) (by omega)
      refine ⟨ds ++ [toDigit (value % radix) cap], ?_, ?_, ?_, ?_, ?_, ?_⟩
      · simp only [printLoop]
        rw [if_pos (by omega), hu, h1]
        simp
      · intro c hc
        rw [List.mem_append, List.mem_singleton] at hc
        rcases hc with hc | rfl
        · exact h2 c hc
        · simp [isDigit, hsd, hml]
      · intro a
        rw [numeral_append, h3]
        simp only [numeral, hsd, List.length_append, List.length_cons, List.length_nil, Nat.zero_add]
        rw [Nat.pow_succ, Nat.add_mul, Nat.add_assoc, Nat.mul_assoc]
        congr 1
        rw [Nat.mul_comm]
        exact Nat.div_add_mod value radix
      · intro _
        by_cases hz : value / radix = 0
        · have hds : ds = [] := by
            rw [hz] at h1
            cases k <;> simpa [printLoop] using h1
          refine ⟨toDigit (value % radix) cap, [], value % radix, by simp [hds], hsd, ?_⟩
          have := Nat.div_add_mod value radix
          rw [hz] at this
          omega
        · obtain ⟨c, cs, d, e, hs, hp⟩ := h4 (Nat.pos_of_ne_zero hz)
          exact ⟨c, cs ++ [toDigit (value % radix) cap], d, by simp [e], hs, hp⟩
      · simp; omega
      · intro c hc
        rw [List.mem_append, List.mem_singleton] at hc
        rcases hc with hc | rfl
        · exact h6 c hc
        · exact ⟨_, hml, rfl⟩

theorem digits_split (base : Nat) (ds rest : List Byte) (h : ∀ c ∈ ds, isDigit base c = true)
    (hr : ∀ c ∈ rest.head?, isDigit base c = false) :
    digitsOf base (ds ++ rest) = ds ∧ afterDigits base (ds ++ rest) = rest := by
  induction ds with
  | nil =>
    cases rest with
    | nil => simp [digitsOf, afterDigits]
    | cons c r =>
      have := hr c (by simp)
      simp [digitsOf, afterDigits, this]
  | cons c ds ih =>
    have h1 := h c (by simp)
    have := ih (fun x hx => h x (by simp [hx]))
    simp only [digitsOf, afterDigits] at this ⊢
    simp [h1, this]

end Verif.Num
