import Verif.Num.Lemmas
/-!
# C08, C09 — printing and parsing integers
-/
namespace Verif.Num
open Verif

/-- The digits for 10 and above are capitals iff capitals were asked for. -/
theorem toDigit_case (cap : Bool) (d : Nat) (h : d < 36) :
    if cap then ¬ (97 ≤ toDigit d cap ∧ toDigit d cap ≤ 122)
    else ¬ (65 ≤ toDigit d cap ∧ toDigit d cap ≤ 90) := by
  have : ∀ cap : Bool, ∀ d : Fin 36, if cap then ¬ (97 ≤ toDigit d cap ∧ toDigit d cap ≤ 122)
    else ¬ (65 ≤ toDigit d cap ∧ toDigit d cap ≤ 90) := by decide +kernel
  exact this cap ⟨d, h⟩

/-- C08: what is printed is the positional representation of the value, without superfluous leading
zero, using only lower (or only upper) case digits of the radix, at most 64 characters — in
particular the 64 byte digit buffer never overflows. -/
theorem C08_print_canonical (v radix : Nat) (cap : Bool) (hv : v < 2 ^ 64) (hr : 2 ≤ radix)
    (hr' : radix ≤ 36) :
    ∃ bs, printU64 v radix cap = some bs ∧ numeral radix 0 bs = v ∧
      (∀ c ∈ bs, (∃ d < radix, specDigit c = some d) ∧
        (if cap then ¬ (97 ≤ c ∧ c ≤ 122) else ¬ (65 ≤ c ∧ c ≤ 90))) ∧
      bs ≠ [] ∧ bs.length ≤ 64 ∧ (bs.head? = some 48 → bs = [48]) := by
  unfold printU64
  rw [if_pos hr]
  by_cases h0 : v = 0
  · subst h0
    refine ⟨[48], by simp, ?_, ?_, by simp, by simp, by simp⟩
    · have : specDigit 48 = some 0 := by decide
      simp [numeral, this]
    · intro c hc
      rw [List.mem_singleton] at hc
      subst hc
      exact ⟨⟨0, by omega, by decide⟩, by cases cap <;> decide⟩
  · rw [if_neg h0]
    obtain ⟨ds, h1, h2, h3, h4, h5, h6⟩ := printLoop_spec radix cap hr hr' 64 v [] hv hv
    obtain ⟨c, cs, d, e, hs, hp⟩ := h4 (by omega)
    refine ⟨ds, by simpa using h1, by simpa using h3 0, ?_, by simp [e], h5, ?_⟩
    · intro c hc
      obtain ⟨d, hd, rfl⟩ := h6 c hc
      exact ⟨⟨d, hd, toDigit_spec cap d (by omega)⟩, toDigit_case cap d (by omega)⟩
    · intro hh
      rw [e] at hh
      simp only [List.head?_cons, Option.some.injEq] at hh
      subst hh
      have : specDigit 48 = some 0 := by decide
      rw [this] at hs
      simp only [Option.some.injEq] at hs
      omega

example : printU64 255 16 true = some [70, 70] := by decide +kernel
example : printU64 (2 ^ 64 - 1) 2 false = some (List.replicate 64 49) := by decide +kernel

/-- C08: print in radix 2..36, then parse in the same radix: the same value, no error, and exactly
the text after the number is left. -/
theorem C08_roundtrip (v radix : Nat) (cap : Bool) (rest : List Byte) (hv : v < 2 ^ 64)
    (hr : 2 ≤ radix) (hr' : radix ≤ 36) (hrest : ∀ c ∈ rest.head?, isDigit radix c = false) :
    ∃ bs, printU64 v radix cap = some bs ∧
      parseU64 radix (bs ++ rest) = some ⟨v, false, rest⟩ := by
  obtain ⟨bs, h1, h2, h3, h4, _, _⟩ := C08_print_canonical v radix cap hv hr hr'
  refine ⟨bs, h1, ?_⟩
  have hdig : ∀ c ∈ bs, isDigit radix c = true := by
    intro c hc
    obtain ⟨⟨d, hd, hs⟩, _⟩ := h3 c hc
    simp [isDigit, hs, hd]
  obtain ⟨e1, e2⟩ := digits_split radix bs rest hdig hrest
  unfold parseU64
  rw [if_pos ⟨by omega, hr'⟩, parseLoop_spec radix (by omega) hr' (bs ++ rest) 0 0 false false
    (Or.inl ⟨rfl, rfl, by decide⟩), e1, e2, h2]
  have : ¬ (2 ^ 64 ≤ v) := by omega
  simp [h4, this]

example : ∃ bs, printU64 4096 7 false = some bs ∧ parseU64 7 (bs ++ [32]) = some ⟨4096, false, [32]⟩ :=
  C08_roundtrip 4096 7 false [32] (by decide) (by decide) (by decide) (by decide)

/-- C09: complete description of unsigned parsing on every input: the longest prefix of digits is
consumed; the result is its mathematical value if there is a digit and the value fits in 64 bits,
and a parse error otherwise. -/
theorem C09_parse_unsigned_exact (base : Nat) (hb : 0 < base) (hb' : base ≤ 36)
    (input : List Byte) :
    parseU64 base input = some
      (if digitsOf base input ≠ [] ∧ numeral base 0 (digitsOf base input) < 2 ^ 64
        then ⟨numeral base 0 (digitsOf base input), false, afterDigits base input⟩
        else ⟨0, true, afterDigits base input⟩) := by
  unfold parseU64
  rw [if_pos ⟨hb, hb'⟩, parseLoop_spec base hb hb' input 0 0 false false
    (Or.inl ⟨rfl, rfl, by decide⟩)]
  by_cases h1 : digitsOf base input = []
  · simp [h1]
  · by_cases h2 : numeral base 0 (digitsOf base input) < 2 ^ 64
    · have : ¬ (2 ^ 64 ≤ numeral base 0 (digitsOf base input)) := by omega
      simp [h1, h2, this]
    · have : 2 ^ 64 ≤ numeral base 0 (digitsOf base input) := by omega
      simp [h1, h2, this]

/-- 2^64 - 1 is accepted, 2^64 is an error (radix 10). -/
example : parseU64 10 [49,56,52,52,54,55,52,52,48,55,51,55,48,57,53,53,49,54,49,53]
    = some ⟨18446744073709551615, false, []⟩ ∧
  parseU64 10 [49,56,52,52,54,55,52,52,48,55,51,55,48,57,53,53,49,54,49,54]
    = some ⟨0, true, []⟩ := by decide +kernel

/-- C09: narrower unsigned types (8, 16, 32 bits): value if it fits the narrow type, error
otherwise. -/
theorem C09_parse_narrow_unsigned_exact (w base : Nat) (hw : w ≤ 64) (hb : 0 < base)
    (hb' : base ≤ 36) (input : List Byte) :
    parseUN w base input = some
      (if digitsOf base input ≠ [] ∧ numeral base 0 (digitsOf base input) < 2 ^ w
        then ⟨numeral base 0 (digitsOf base input), false, afterDigits base input⟩
        else ⟨0, true, afterDigits base input⟩) := by
  unfold parseUN
  rw [C09_parse_unsigned_exact base hb hb' input]
  have hpw : 2 ^ w ≤ 2 ^ 64 := Nat.pow_le_pow_right (by decide) hw
  have hpos : 0 < 2 ^ w := Nat.pow_pos (by decide)
  by_cases h1 : digitsOf base input = []
  · simp [h1]
  · by_cases h2 : numeral base 0 (digitsOf base input) < 2 ^ w
    · have h3 : numeral base 0 (digitsOf base input) < 2 ^ 64 := by omega
      simp [h1, h2, h3, Nat.mod_eq_of_lt h2]
    · by_cases h3 : numeral base 0 (digitsOf base input) < 2 ^ 64
      · have h4 : numeral base 0 (digitsOf base input) % 2 ^ w ≠
            numeral base 0 (digitsOf base input) := by
          intro e
          have := Nat.mod_lt (numeral base 0 (digitsOf base input)) hpos
          omega
        simp only [h1, h2, h3, ne_eq, not_false_eq_true, and_self, ↓reduceIte, h4, and_false]
      · simp [h1, h2, h3]

example : parseUN 8 10 [50,53,53,44] = some ⟨255, false, [44]⟩ ∧
    parseUN 8 10 [50,53,54] = some ⟨0, true, []⟩ := by decide +kernel

/-- Specification of the optional minus sign. -/
def hasMinus (input : List Byte) : Bool := input.head? == some 45
def afterMinus (input : List Byte) : List Byte := if hasMinus input then input.drop 1 else input

/-- The mathematical value of a signed numeral at the start of the input. -/
def signedValue (base : Nat) (input : List Byte) : Int :=
  if hasMinus input then -(numeral base 0 (digitsOf base (afterMinus input)) : Int)
  else (numeral base 0 (digitsOf base (afterMinus input)) : Int)

theorem toSigned64_small (n : Nat) (h : n < 2 ^ 63) : toSigned 64 n = n := by
  unfold toSigned
  rw [Nat.mod_eq_of_lt (by omega), if_pos (by omega)]

theorem toSigned64_big (n : Nat) (h : 2 ^ 63 ≤ n) (h' : n < 2 ^ 64) :
    toSigned 64 n = (n : Int) - 2 ^ 64 := by
  unfold toSigned
  rw [Nat.mod_eq_of_lt h', if_neg (by omega)]

/-- C09 (signed, 64 bits), for every input except the text of exactly `-2^63`: success with the
mathematical value iff there is a digit and the value is in the signed 64-bit range; otherwise a
parse error.  Missing (hence `_partial`): for the text of `-2^63` the C++ negates the most negative
value, which is undefined behaviour (see `C09_parse_signed_min_is_ub`). -/
theorem C09_parse_signed_exact_partial (base : Nat) (hb : 0 < base) (hb' : base ≤ 36)
    (input : List Byte) (hmin : signedValue base input ≠ -(2 ^ 63)) :
    ∃ p, parseS64 base input = some p ∧ p.rest = afterDigits base (afterMinus input) ∧
      (p.error = false ↔ digitsOf base (afterMinus input) ≠ [] ∧
        -(2 ^ 63) ≤ signedValue base input ∧ signedValue base input < 2 ^ 63) ∧
      (p.error = false → p.value = signedValue base input) := by
  have key : ∀ inp : List Byte, parseU64 base inp = some
      (if digitsOf base inp ≠ [] ∧ numeral base 0 (digitsOf base inp) < 2 ^ 64
        then ⟨numeral base 0 (digitsOf base inp), false, afterDigits base inp⟩
        else ⟨0, true, afterDigits base inp⟩) := C09_parse_unsigned_exact base hb hb'
  have main : ∀ inp : List Byte,
      (∀ n : Nat, n = numeral base 0 (digitsOf base inp) → digitsOf base inp ≠ [] → n < 2 ^ 64 →
        parseU64 base inp = some ⟨n, false, afterDigits base inp⟩) ∧
      ((digitsOf base inp = [] ∨ 2 ^ 64 ≤ numeral base 0 (digitsOf base inp)) →
        parseU64 base inp = some ⟨0, true, afterDigits base inp⟩) := by
    intro inp
    refine ⟨?_, ?_⟩
    · rintro n rfl h1 h2
      rw [key, if_pos ⟨h1, h2⟩]
    · intro h
      rw [key, if_neg]
      rintro ⟨h1, h2⟩
      rcases h with h | h
      · exact h1 h
      · omega
  by_cases hm : hasMinus input = true
  · have hin : ∃ rest, input = 45 :: rest := by
      cases input with
      | nil => simp [hasMinus] at hm
      | cons c rest =>
        simp only [hasMinus, List.head?_cons, beq_iff_eq, Option.some.injEq] at hm
        exact ⟨rest, by rw [hm]⟩
    obtain ⟨rest, rfl⟩ := hin
    have ham : afterMinus (45 :: rest) = rest := by simp [afterMinus, hasMinus]
    simp only [signedValue, hm, ↓reduceIte, ham] at hmin ⊢
    generalize hn : numeral base 0 (digitsOf base rest) = n at *
    by_cases hbad : digitsOf base rest = [] ∨ 2 ^ 64 ≤ n
    · have hp := (main rest).2 (by rw [hn]; exact hbad)
      refine ⟨⟨0, true, afterDigits base rest⟩, ?_, rfl, ?_, by simp⟩
      · simp only [parseS64, ↓reduceIte, hp]
        simp [toSigned]
      · constructor
        · intro h; cases h
        · rintro ⟨h1, h2, _⟩
          rcases hbad with h | h
          · exact absurd h h1
          · omega
    · have h1 : digitsOf base rest ≠ [] := fun h => hbad (Or.inl h)
      have h2 : n < 2 ^ 64 := by
        apply Classical.byContradiction; intro h; exact hbad (Or.inr (by omega))
      have hp := (main rest).1 n hn.symm h1 h2
      by_cases hs : n < 2 ^ 63
      · have e := toSigned64_small n hs
        refine ⟨⟨-(n : Int), false, afterDigits base rest⟩, ?_, rfl, ?_, by simp⟩
        · simp only [parseS64, ↓reduceIte, hp, e]
          rw [if_neg (by omega)]
          have : ¬ (-(n : Int) > 0) := by omega
          simp [this]
        · simp only [true_iff]
          exact ⟨h1, by omega, by omega⟩
      · have e := toSigned64_big n (by omega) h2
        have hne : n ≠ 2 ^ 63 := by
          intro h; apply hmin; rw [h]; rfl
        refine ⟨⟨-((n : Int) - 2 ^ 64), true, afterDigits base rest⟩, ?_, rfl, ?_, by simp⟩
        · simp only [parseS64, ↓reduceIte, hp, e]
          rw [if_neg (by omega)]
          have : (-((n : Int) - 2 ^ 64) > 0) := by omega
          simp only [this, decide_true, Bool.or_true]
        · constructor
          · intro h; cases h
          · rintro ⟨_, h, _⟩; omega
  · have hm' : hasMinus input = false := by simpa using hm
    have ham : afterMinus input = input := by simp [afterMinus, hm']
    have hps : ∀ p, parseU64 base input = some p → parseS64 base input =
        some ⟨toSigned 64 p.value, p.error || decide (toSigned 64 p.value < 0), p.rest⟩ := by
      intro p hp
      cases input with
      | nil => simp [parseS64, hp]
      | cons c rest =>
        have hc : c ≠ 45 := by
          simp only [hasMinus, List.head?_cons, beq_eq_false_iff_ne, ne_eq,
            Option.some.injEq] at hm'
          exact hm'
        simp only [parseS64, hc, ↓reduceIte, hp, Bool.false_eq_true]
    simp only [signedValue, hm', ham, Bool.false_eq_true, ↓reduceIte] at hmin ⊢
    generalize hn : numeral base 0 (digitsOf base input) = n at *
    by_cases hbad : digitsOf base input = [] ∨ 2 ^ 64 ≤ n
    · have hp := (main input).2 (by rw [hn]; exact hbad)
      refine ⟨⟨0, true, afterDigits base input⟩, ?_, rfl, ?_, by simp⟩
      · rw [hps _ hp]
        simp [toSigned]
      · constructor
        · intro h; cases h
        · rintro ⟨h1, _, h2⟩
          rcases hbad with h | h
          · exact absurd h h1
          · omega
    · have h1 : digitsOf base input ≠ [] := fun h => hbad (Or.inl h)
      have h2 : n < 2 ^ 64 := by
        apply Classical.byContradiction; intro h; exact hbad (Or.inr (by omega))
      have hp := (main input).1 n hn.symm h1 h2
      by_cases hs : n < 2 ^ 63
      · have e := toSigned64_small n hs
        refine ⟨⟨(n : Int), false, afterDigits base input⟩, ?_, rfl, ?_, by simp⟩
        · rw [hps _ hp]
          simp only [e]
          have : ¬ ((n : Int) < 0) := by omega
          simp [this]
        · simp only [true_iff]
          exact ⟨h1, by omega, by omega⟩
      · have e := toSigned64_big n (by omega) h2
        refine ⟨⟨(n : Int) - 2 ^ 64, true, afterDigits base input⟩, ?_, rfl, ?_, by simp⟩
        · rw [hps _ hp]
          simp only [e]
          have : ((n : Int) - 2 ^ 64 < 0) := by omega
          simp only [this, decide_true, Bool.or_true]
        · constructor
          · intro h; cases h
          · rintro ⟨_, _, h⟩; omega

example : ∃ p, parseS64 10 [45, 49, 50, 32] = some p ∧ p.value = -12 ∧ p.error = false ∧
    p.rest = [32] := ⟨⟨-12, false, [32]⟩, by decide +kernel, rfl, rfl, rfl⟩
/-- `9223372036854775808` is out of the signed range. -/
example : ∃ p, parseS64 10 [57,50,50,51,51,55,50,48,51,54,56,53,52,55,55,53,56,48,56] = some p ∧
    p.error = true := ⟨⟨-9223372036854775808, true, []⟩, by decide +kernel, rfl⟩

/-- The excluded case is real: reading `-9223372036854775808` negates the most negative 64-bit
integer (undefined behaviour, outcome `none`), although the value is representable. -/
theorem C09_parse_signed_min_is_ub :
    parseS64 10 [45,57,50,50,51,51,55,50,48,51,54,56,53,52,55,55,53,56,48,56] = none := by
  decide +kernel

theorem toSigned_eq_iff (w : Nat) (hw : 0 < w) (hw' : w ≤ 64) (x : Int) (hx : -(2 ^ 63) ≤ x)
    (hx' : x < 2 ^ 63) :
    toSigned w (x % 2 ^ 64).toNat = x ↔ -(2 ^ (w - 1)) ≤ x ∧ x < 2 ^ (w - 1) := by
  obtain ⟨k, rfl⟩ : ∃ k, w = k + 1 := ⟨w - 1, by omega⟩
  have hpk : (2 : Nat) ^ (k + 1) = 2 * 2 ^ k := by rw [Nat.pow_succ]; omega
  have hpki : (2 : Int) ^ (k + 1) = 2 * 2 ^ k := by rw [Int.pow_succ]; omega
  have hpos : 0 < 2 ^ k := Nat.pow_pos (by decide)
  have hcast : ((2 ^ k : Nat) : Int) = (2 : Int) ^ k := by push_cast; rfl
  have hdvd : (2 : Nat) ^ (k + 1) ∣ 2 ^ 64 := Nat.pow_dvd_pow 2 hw'
  simp only [Nat.add_sub_cancel]
  -- the low bits of x
  have hlow : (((x % 2 ^ 64).toNat % 2 ^ (k + 1) : Nat) : Int) = x % 2 ^ (k + 1) := by
    have h1 : (((x % 2 ^ 64).toNat : Nat) : Int) = x % 2 ^ 64 :=
      Int.toNat_of_nonneg (Int.emod_nonneg _ (by decide))
    have h2 : (((x % 2 ^ 64).toNat % 2 ^ (k + 1) : Nat) : Int)
        = (x % 2 ^ 64) % ((2 ^ (k + 1) : Nat) : Int) := by
      rw [Int.natCast_emod, h1]
    rw [h2]
    have h3 : ((2 ^ (k + 1) : Nat) : Int) ∣ ((2 ^ 64 : Nat) : Int) := Int.natCast_dvd_natCast.mpr hdvd
    have h4 : ((2 ^ 64 : Nat) : Int) = 2 ^ 64 := by decide
    rw [← h4, Int.emod_emod_of_dvd _ h3]
    push_cast; rfl
  have hm0 : 0 ≤ x % 2 ^ (k + 1) := Int.emod_nonneg _ (by rw [hpki]; omega)
  have hm1 : x % 2 ^ (k + 1) < 2 ^ (k + 1) := Int.emod_lt_of_pos _ (by rw [hpki]; omega)
  unfold toSigned
  simp only [Nat.add_sub_cancel]
  generalize (x % 2 ^ 64).toNat % 2 ^ (k + 1) = m at hlow
  have hdm := Int.mul_ediv_add_emod x (2 ^ (k + 1))
  generalize x / 2 ^ (k + 1) = q at hdm
  rw [← hlow, hpki] at hdm hm1
  generalize hP : (2 : Int) ^ k = P at *
  have hPpos : 0 < P := by omega
  rw [hpki]
  split
  · constructor
    · intro h; omega
    · rintro ⟨h1, h2⟩
      have : q = 0 := by
        have a : 2 * P * q ≤ P := by omega
        have b : -(2 * P) < 2 * P * q := by omega
        have c : -1 < q := by
          apply Classical.byContradiction; intro hq
          have : 2 * P * q ≤ 2 * P * (-1) := Int.mul_le_mul_of_nonneg_left (by omega) (by omega)
          omega
        have d : q < 1 := by
          apply Classical.byContradiction; intro hq
          have : 2 * P * 1 ≤ 2 * P * q := Int.mul_le_mul_of_nonneg_left (by omega) (by omega)
          omega
        omega
      subst this
      omega
  · constructor
    · intro h; omega
    · rintro ⟨h1, h2⟩
      have : q = -1 := by
        have c : -2 < q := by
          apply Classical.byContradiction; intro hq
          have : 2 * P * q ≤ 2 * P * (-2) := Int.mul_le_mul_of_nonneg_left (by omega) (by omega)
          omega
        have d : q < 0 := by
          apply Classical.byContradiction; intro hq
          have : 0 ≤ 2 * P * q := Int.mul_nonneg (by omega) (by omega)
          omega
        omega
      subst this
      omega

/-- C09 (narrow signed types, 8/16/32 bits): success with the mathematical value iff it lies in the
range of the narrow type; otherwise a parse error.  `_partial` for the same reason as the 64-bit
statement: the text `-2^63` is excluded. -/
theorem C09_parse_narrow_signed_exact_partial (w base : Nat) (hw : 0 < w) (hw' : w ≤ 64)
    (hb : 0 < base) (hb' : base ≤ 36)
    (input : List Byte) (hmin : signedValue base input ≠ -(2 ^ 63)) :
    ∃ p, parseSN w base input = some p ∧ p.rest = afterDigits base (afterMinus input) ∧
      (p.error = false ↔ digitsOf base (afterMinus input) ≠ [] ∧
        -(2 ^ (w - 1)) ≤ signedValue base input ∧ signedValue base input < 2 ^ (w - 1)) ∧
      (p.error = false → p.value = signedValue base input) := by
  obtain ⟨p, hp, hrest, herr, hval⟩ := C09_parse_signed_exact_partial base hb hb' input hmin
  unfold parseSN
  rw [hp]
  dsimp only
  have hpw : (2 : Int) ^ (w - 1) ≤ 2 ^ 63 := by
    have : (2 : Nat) ^ (w - 1) ≤ 2 ^ 63 := Nat.pow_le_pow_right (by decide) (by omega)
    have h2 := Int.ofNat_le.mpr this
    rw [Int.natCast_pow, Int.natCast_pow] at h2
    exact h2
  cases he : p.error with
  | false =>
    have hv := hval he
    obtain ⟨h1, h2, h3⟩ := herr.mp he
    have hiff := toSigned_eq_iff w hw hw' p.value (by omega) (by omega)
    by_cases hfit : toSigned w (p.value % 2 ^ 64).toNat = p.value
    · rw [if_neg (by simpa using hfit)]
      refine ⟨_, rfl, hrest, ?_, fun _ => hfit.trans hv⟩
      simp only [he, true_iff]
      have := hiff.mp hfit
      rw [hv] at this
      exact ⟨h1, this.1, this.2⟩
    · rw [if_pos hfit]
      refine ⟨_, rfl, hrest, ?_, by simp⟩
      constructor
      · intro h; cases h
      · rintro ⟨_, h4, h5⟩
        exact absurd (hiff.mpr (by rw [hv]; exact ⟨h4, h5⟩)) hfit
  | true =>
    have hno : ¬ (digitsOf base (afterMinus input) ≠ [] ∧
        -(2 ^ (w - 1)) ≤ signedValue base input ∧ signedValue base input < 2 ^ (w - 1)) := by
      rintro ⟨h1, h2, h3⟩
      have := herr.mpr ⟨h1, by omega, by omega⟩
      rw [he] at this
      cases this
    split
    · exact ⟨_, rfl, hrest, by simp [hno], by simp⟩
    · exact ⟨_, rfl, hrest, by simp [hno], by simp⟩

example : parseSN 8 10 [45,49,50,56] = some ⟨-128, false, []⟩ ∧
    parseSN 8 10 [49,50,56] = some ⟨0, true, []⟩ := by decide +kernel

/-- C08 (signed): print then parse is the identity for every 64-bit integer other than the most
negative one, for which printing itself is undefined behaviour
(`C08_print_signed_min_is_ub`). -/
theorem C08_signed_roundtrip_partial (v : Int) (radix : Nat) (cap : Bool) (rest : List Byte)
    (hv : -(2 ^ 63) < v) (hv' : v < 2 ^ 63) (hr : 2 ≤ radix) (hr' : radix ≤ 36)
    (hrest : ∀ c ∈ rest.head?, isDigit radix c = false) :
    ∃ bs, printS64 v radix cap = some bs ∧
      parseS64 radix (bs ++ rest) = some ⟨v, false, rest⟩ := by
  unfold printS64
  by_cases h : v ≥ 0
  · rw [if_pos h]
    obtain ⟨bs, h1, h2⟩ := C08_roundtrip v.toNat radix cap rest (by omega) hr hr' hrest
    obtain ⟨bs', h1', _, h3', h4', _, _⟩ := C08_print_canonical v.toNat radix cap (by omega) hr hr'
    rw [h1] at h1'
    simp only [Option.some.injEq] at h1'
    subst h1'
    refine ⟨bs, h1, ?_⟩
    cases bs with
    | nil => exact absurd rfl h4'
    | cons c cs =>
      obtain ⟨⟨d, _, hs⟩, _⟩ := h3' c (by simp)
      have hc : c ≠ 45 := by
        intro e; subst e
        have : specDigit 45 = none := by decide
        rw [this] at hs; cases hs
      simp only [List.cons_append] at h2 ⊢
      simp only [parseS64, hc, ↓reduceIte, h2, Bool.false_eq_true]
      rw [toSigned64_small _ (by omega)]
      have e : ((v.toNat : Nat) : Int) = v := Int.toNat_of_nonneg h
      simp only [e]
      have : ¬ (v < 0) := by omega
      simp [this]
  · rw [if_neg h, if_neg (by omega)]
    obtain ⟨bs, h1, h2⟩ := C08_roundtrip (-v).toNat radix cap rest (by omega) hr hr' hrest
    rw [h1]
    refine ⟨45 :: bs, rfl, ?_⟩
    simp only [List.cons_append, parseS64, ↓reduceIte, h2]
    rw [toSigned64_small _ (by omega)]
    have e : (((-v).toNat : Nat) : Int) = -v := Int.toNat_of_nonneg (by omega)
    rw [e, if_neg (by omega)]
    simp only [Int.neg_neg]
    have : ¬ (v > 0) := by omega
    simp [this]

example : ∃ bs, printS64 (-4095) 16 false = some bs ∧
    parseS64 16 (bs ++ [41]) = some ⟨-4095, false, [41]⟩ :=
  C08_signed_roundtrip_partial (-4095) 16 false [41] (by decide) (by decide) (by decide) (by decide)
    (by decide)

/-- Printing the most negative 64-bit integer is undefined behaviour in the code
(`(u64) -value` negates before converting). -/
theorem C08_print_signed_min_is_ub : printS64 (-(2 ^ 63)) 10 false = none := by decide

end Verif.Num
