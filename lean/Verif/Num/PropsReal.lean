import Verif.Num.LemmasReal
/-!
# Property C68: numbers with fraction and exponent
-/
namespace Verif.Num
open Verif Written

/-- The radixes in which the code sees every overflow of the denominator. -/
def goodRadix : List Nat := [1, 2, 4, 5, 8, 10, 13, 15, 16, 19, 23, 25, 29, 32, 36]

theorem detects_of_good (base : Nat) (h : base ∈ goodRadix) : Detects base := by
  intro k h1 h2
  by_cases hk : k < 64
  · have : ∀ b ∈ goodRadix, ∀ k < 64, b ^ k < 2 ^ 64 → 2 ^ 64 ≤ b ^ (k + 1) →
        b ^ (k + 1) % 2 ^ 64 < b ^ k := by decide +kernel
    exact this base h k hk h1 h2
  · by_cases hb : 2 ≤ base
    · have : 2 ^ k ≤ base ^ k := Nat.pow_le_pow_left hb k
      have : 2 ^ 64 ≤ 2 ^ k := Nat.pow_le_pow_right (by omega) (by omega)
      omega
    · have : base = 1 ∨ base = 0 := by omega
      rcases this with rfl | rfl
      · rw [Nat.one_pow] at h2; omega
      · rw [Nat.zero_pow (by omega)] at h2; omega

theorem minus_no_digit (base : Nat) : isDigit base 45 = false := rfl
theorem point_no_digit (base : Nat) : isDigit base 46 = false := rfl
theorem plus_no_digit (base : Nat) : isDigit base 43 = false := rfl

theorem takeMinus_text (base : Nat) (m : Bool) (w r : List Byte) (hw : Digits base w) (hne : w ≠ []) :
    takeMinus ((if m then [45] else []) ++ (w ++ r)) = (m, w ++ r) := by
  cases m with
  | true => rfl
  | false =>
    cases w with
    | nil => exact absurd rfl hne
    | cons c w =>
      simp only [Bool.false_eq_true, if_false, List.nil_append, List.cons_append, takeMinus]
      rw [if_neg]
      intro h
      have := hw c (by simp)
      rw [h, minus_no_digit] at this
      cases this

theorem takeSign_text (base : Nat) (s : Option Bool) (ds r : List Byte) (hw : Digits base ds) (hne : ds ≠ []) :
    takeSign (signText s ++ (ds ++ r)) = (s == some true, ds ++ r) := by
  cases s with
  | some b => cases b <;> rfl
  | none =>
    cases ds with
    | nil => exact absurd rfl hne
    | cons c w =>
      have := hw c (by simp)
      simp only [signText, List.nil_append, List.cons_append, takeSign]
      rw [if_neg, if_neg]
      · rfl
      · intro h; rw [h, minus_no_digit] at this; cases this
      · intro h; rw [h, plus_no_digit] at this; cases this

theorem exp_letter (c : Byte) : c.toNat ||| 32 = 101 ↔ c = 101 ∨ c = 69 := by
  revert c; apply forall_byte; decide +kernel

theorem headFrac {base : Nat} {n : Written} {rest : List Byte} (hv : n.Valid base) (he : n.Ends base rest) :
    ∀ c ∈ (fracText n.frac ++ (expText n.exp ++ rest)).head?, isDigit base c = false := by
  intro c hc
  cases hf : n.frac with
  | some ds => rw [hf] at hc; simp [fracText] at hc; subst hc; rfl
  | none =>
    rw [hf] at hc
    cases hx : n.exp with
    | some e =>
      obtain ⟨e, s, ds⟩ := e
      rw [hx] at hc
      simp [fracText, expText] at hc
      subst hc
      exact (hv.exp _ _ _ hx).2.1
    | none =>
      rw [hx] at hc
      cases rest with
      | nil => simp [fracText, expText] at hc
      | cons d t =>
        simp [fracText, expText] at hc
        subst hc
        exact (he _ _ rfl).1

theorem headExp {base : Nat} {n : Written} {rest : List Byte} (hv : n.Valid base) (he : n.Ends base rest) :
    ∀ c ∈ (expText n.exp ++ rest).head?, isDigit base c = false := by
  intro c hc
  cases hx : n.exp with
  | some e =>
    obtain ⟨e, s, ds⟩ := e
    rw [hx] at hc
    simp [expText] at hc
    subst hc
    exact (hv.exp _ _ _ hx).2.1
  | none =>
    rw [hx] at hc
    cases rest with
    | nil => simp [expText] at hc
    | cons d t =>
      simp [expText] at hc
      subst hc
      exact (he _ _ rfl).1

theorem headRest {base : Nat} {n : Written} {rest : List Byte} (he : n.Ends base rest) :
    ∀ c ∈ rest.head?, isDigit base c = false := by
  intro c hc
  cases rest with
  | nil => cases hc
  | cons d t => simp at hc; subst hc; exact (he _ _ rfl).1

theorem takeFrac_text (a : Arith) (base : Nat) (hb : base ≤ 36) (hb0 : 0 < base)
    (ha : ∀ x, a.rnd x = x) (hd : Detects base) (n : Written) (rest : List Byte) (hv : n.Valid base)
    (he : n.Ends base rest) (v : Rat) :
    takeFrac a base v (fracText n.frac ++ (expText n.exp ++ rest)) =
      (v + fracValue base n.frac, expText n.exp ++ rest) := by
  cases hf : n.frac with
  | some ds =>
    simp only [fracText, List.cons_append, takeFrac, if_true]
    have hs := digits_split base ds _ (hv.frac _ hf) (headExp hv he)
    apply Prod.ext
    · have := fracLoop_value a base hb hb0 ha hd (ds ++ (expText n.exp ++ rest)) v 1 0 0 (by simp)
        (by simp)
      rw [Nat.pow_zero] at this
      rw [this, hs.1]
      simp only [fracValue]
      grind
    · rw [fracLoop_rest a base hb, hs.2]
  | none =>
    simp only [fracText, List.nil_append, fracValue]
    have h0 : v + 0 = v := Rat.add_zero v
    rw [h0]
    cases hx : n.exp with
    | some e =>
      obtain ⟨e, s, ds⟩ := e
      simp only [expText, List.cons_append, takeFrac]
      rw [if_neg]
      have := (hv.exp _ _ _ hx).1
      intro h; subst h; revert this; decide
    | none =>
      cases rest with
      | nil => rfl
      | cons c t =>
        simp only [expText, List.nil_append, takeFrac]
        rw [if_neg (((he _ _ rfl).2 hx).2.2 hf)]

theorem takeExp_text (a : Arith) (base : Nat) (hb : base ≤ 36) (hb0 : 0 < base)
    (ha : Exact a.rnd a.pow) (n : Written) (rest : List Byte) (hv : n.Valid base)
    (he : n.Ends base rest) (v : Rat) :
    takeExp a base v true (expText n.exp ++ rest) = (v * expValue base n.exp, true, rest) := by
  cases hx : n.exp with
  | some e =>
    obtain ⟨e, s, ds⟩ := e
    obtain ⟨h1, h2, h3, h4⟩ := hv.exp _ _ _ hx
    simp only [expText, List.cons_append, takeExp]
    rw [if_pos ⟨trivial, (exp_letter e).2 h1⟩, List.append_assoc, takeSign_text base s ds rest h3 h4]
    dsimp only
    have hs := digits_split base ds rest h3 (headRest he)
    have hval := readComp_value a base hb hb0 (ds ++ rest) 0 false (fun n _ => ha.rnd n)
    have hrest := readComp_rest a base hb (ds ++ rest) 0 false
    rw [hs.1] at hval
    rw [hs.1, hs.2] at hrest
    have hval : (readComp a base 0 false (ds ++ rest)).1 = ((numeral base 0 ds : Nat) : Rat) := hval
    rw [hval, hrest, ha.rnd]
    apply Prod.ext
    · cases s with
      | none => simp [expValue, (ha.pow base _).1]
      | some b =>
        cases b with
        | false => simp [expValue, (ha.pow base _).1]
        | true => simp [expValue, (ha.pow base _).2]
    · cases ds with
      | nil => exact absurd rfl h4
      | cons c ds => rfl
  | none =>
    have h1 : v * 1 = v := by grind
    simp only [expText, List.nil_append, expValue, h1]
    cases rest with
    | nil => rfl
    | cons c t =>
      simp only [takeExp]
      rw [if_neg]
      rintro ⟨_, h⟩
      have := (he _ _ rfl).2 hx
      rcases (exp_letter c).1 h with h | h
      · exact this.1 h
      · exact this.2.1 h

/-- **C68**: apart from rounding, a well-written number is read as the number it denotes and nothing of
what follows is taken — in the radixes in which the denominator is watched rightly, ten among them. -/
theorem C68_reads_partial (a : Arith) (ha : Exact a.rnd a.pow) (base : Nat) (hg : base ∈ goodRadix)
    (n : Written) (rest : List Byte) (hv : n.Valid base) (he : n.Ends base rest) :
    parseReal a base (n.text ++ rest) = some ⟨n.value base, false, rest⟩ := by
  have hb : base ≤ 36 ∧ 0 < base := by
    have : ∀ b ∈ goodRadix, b ≤ 36 ∧ 0 < b := by decide
    exact this base hg
  have hd := detects_of_good base hg
  have htext : n.text ++ rest = (if n.minus then [45] else []) ++
      (n.whole ++ (fracText n.frac ++ (expText n.exp ++ rest))) := by
    simp only [Written.text, List.append_assoc]
  rw [parseReal, if_pos ⟨hb.2, hb.1⟩, htext, takeMinus_text base _ _ _ hv.whole hv.some_digit]
  dsimp only
  have hs := digits_split base n.whole _ hv.whole (headFrac hv he)
  have hval := readComp_value a base hb.1 hb.2 (n.whole ++ (fracText n.frac ++ (expText n.exp ++ rest)))
    0 false (fun n _ => ha.rnd n)
  have hrest := readComp_rest a base hb.1 (n.whole ++ (fracText n.frac ++ (expText n.exp ++ rest))) 0 false
  rw [hs.1] at hval
  rw [hs.1, hs.2] at hrest
  have hval : (readComp a base 0 false (n.whole ++ (fracText n.frac ++ (expText n.exp ++ rest)))).1 =
    ((numeral base 0 n.whole : Nat) : Rat) := hval
  have hany : (!n.whole.isEmpty) = true := by
    cases h : n.whole with
    | nil => exact absurd h hv.some_digit
    | cons c w => rfl
  rw [hval, hrest, takeFrac_text a base hb.1 hb.2 ha.rnd hd n rest hv he]
  dsimp only
  rw [Bool.false_or, hany, takeExp_text a base hb.1 hb.2 ha n rest hv he]
  dsimp only
  congr 2
  rw [Written.value]
  cases n.minus
  · simp
  · simp only [if_true]; grind

theorem afterDigits_head (base : Nat) (input : List Byte) (c : Byte) (t : List Byte)
    (h : afterDigits base input = c :: t) : isDigit base c = false := by
  induction input with
  | nil => simp [afterDigits] at h
  | cons x rest ih =>
    rw [afterDigits_cons] at h
    split at h
    · exact ih h
    · rename_i hx
      cases h
      simpa using hx

theorem digits_join (base : Nat) (input : List Byte) :
    digitsOf base input ++ afterDigits base input = input := List.takeWhile_append_dropWhile

theorem takeMinus_join (input : List Byte) :
    input = (if (takeMinus input).1 then [45] else []) ++ (takeMinus input).2 := by
  cases input with
  | nil => rfl
  | cons c t =>
    simp only [takeMinus]
    split
    · rename_i h; subst h; rfl
    · rfl

theorem takeSign_join (input : List Byte) :
    ∃ s, input = signText s ++ (takeSign input).2 := by
  cases input with
  | nil => exact ⟨none, rfl⟩
  | cons c t =>
    simp only [takeSign]
    split
    · rename_i h; subst h; exact ⟨some false, rfl⟩
    · split
      · rename_i h; subst h; exact ⟨some true, rfl⟩
      · exact ⟨none, rfl⟩

theorem takeFrac_join (a : Arith) (base : Nat) (hb : base ≤ 36) (v : Rat) (input : List Byte)
    (hin : ∀ c t, input = c :: t → isDigit base c = false) :
    ∃ f, input = fracText f ++ (takeFrac a base v input).2 ∧ (∀ ds, f = some ds → Digits base ds) ∧
      ∀ c t, (takeFrac a base v input).2 = c :: t → isDigit base c = false ∧ (f = none → c ≠ 46) := by
  cases input with
  | nil => exact ⟨none, rfl, by simp, by simp [takeFrac]⟩
  | cons c t =>
    simp only [takeFrac]
    split
    · rename_i h
      subst h
      rw [fracLoop_rest a base hb]
      refine ⟨some (digitsOf base t), ?_, ?_, ?_⟩
      · simp only [fracText, List.cons_append, digits_join]
      · intro ds h; cases h; exact digitsOf_digits base t
      · intro c t' h; exact ⟨afterDigits_head base _ _ _ h, by simp⟩
    · rename_i h
      refine ⟨none, rfl, by simp, ?_⟩
      intro c' t' h'
      cases h'
      exact ⟨hin _ _ rfl, fun _ => h⟩

theorem takeExp_join (a : Arith) (base : Nat) (hb : base ≤ 36) (v : Rat) (any : Bool) (input : List Byte)
    (hin : ∀ c t, input = c :: t → isDigit base c = false)
    (hany : (takeExp a base v any input).2.1 = true) :
    any = true ∧ ∃ x, input = expText x ++ (takeExp a base v any input).2.2 ∧
      (∀ e s ds, x = some (e, s, ds) →
        (e = 101 ∨ e = 69) ∧ isDigit base e = false ∧ Digits base ds ∧ ds ≠ []) ∧
      ∀ c t, (takeExp a base v any input).2.2 = c :: t →
        isDigit base c = false ∧ (x = none → c ≠ 101 ∧ c ≠ 69) := by
  cases input with
  | nil => exact ⟨hany, none, rfl, by simp, by simp [takeExp]⟩
  | cons c t =>
    simp only [takeExp] at hany ⊢
    split
    · rename_i h
      rw [if_pos h] at hany
      rw [readComp_rest a base hb] at hany ⊢
      obtain ⟨s, hs⟩ := takeSign_join t
      refine ⟨h.1, some (c, s, digitsOf base (takeSign t).2), ?_, ?_, ?_⟩
      · simp only [expText, List.cons_append, List.append_assoc, digits_join]
        rw [← hs]
      · intro e s' ds h'
        cases h'
        refine ⟨(exp_letter c).1 h.2, hin _ _ rfl, digitsOf_digits base _, ?_⟩
        intro h0
        rw [h0] at hany
        simp at hany
      · intro c' t' h'
        exact ⟨afterDigits_head base _ _ _ h', by simp⟩
    · rename_i h
      rw [if_neg h] at hany
      dsimp only at hany
      refine ⟨hany, none, rfl, by simp, ?_⟩
      intro c' t' h'
      cases h'
      refine ⟨hin _ _ rfl, fun _ => ⟨?_, ?_⟩⟩
      · intro h'; exact h ⟨hany, (exp_letter c).2 (Or.inl h')⟩
      · intro h'; exact h ⟨hany, (exp_letter c).2 (Or.inr h')⟩

/-- **C68**: whenever the code reports no error, in whatever radix and whatever its rounding, the input
began with a well-written number and exactly that was taken. -/
theorem C68_only (a : Arith) (base : Nat) (input : List Byte) (p : Parsed Rat)
    (h : parseReal a base input = some p) (he : p.error = false) :
    ∃ n : Written, n.Valid base ∧ n.Ends base p.rest ∧ input = n.text ++ p.rest := by
  unfold parseReal at h
  split at h
  · rename_i hb
    simp only [Option.some.injEq] at h
    subst h
    simp only [Bool.not_eq_false'] at he
    dsimp only
    have h1 := takeMinus_join input
    generalize hm : takeMinus input = m at *
    have h2 := readComp_rest a base hb.2 m.2 0 false
    generalize hw : readComp a base 0 false m.2 = w at *
    have hw2 : w.2.2 = afterDigits base m.2 := by rw [h2]
    have hin : ∀ c t, w.2.2 = c :: t → isDigit base c = false := by
      intro c t h
      rw [hw2] at h
      exact afterDigits_head base _ _ _ h
    obtain ⟨f, f1, f2, f3⟩ := takeFrac_join a base hb.2 w.1 w.2.2 hin
    generalize takeFrac a base w.1 w.2.2 = g at *
    obtain ⟨x0, x, x1, x2, x3⟩ := takeExp_join a base hb.2 g.1 w.2.1 g.2
      (fun c t h => (f3 c t h).1) he
    refine ⟨⟨m.1, digitsOf base m.2, f, x⟩, ⟨digitsOf_digits base _, ?_, f2, x2⟩, ?_, ?_⟩
    · intro h0
      dsimp only at h0
      rw [h2, h0] at x0
      simp at x0
    · intro c t hc
      refine ⟨(x3 c t hc).1, fun hx => ⟨((x3 c t hc).2 hx).1, ((x3 c t hc).2 hx).2, fun hf => ?_⟩⟩
      dsimp only at hx hf
      rw [hx] at x1
      simp only [expText, List.nil_append] at x1
      exact (f3 c t (by rw [x1, hc])).2 hf
    · conv => lhs; rw [h1, ← digits_join base m.2, ← hw2, f1, x1]
      simp only [Written.text, List.append_assoc]
  · cases h

/-- **C68**: integers up to 2^53 are read exactly, in every radix and whatever else is rounded. -/
theorem C68_integers (a : Arith) (ha : KeepsIntegers a.rnd) (base : Nat) (hb : 0 < base ∧ base ≤ 36)
    (minus : Bool) (ds rest : List Byte) (hds : Digits base ds) (hne : ds ≠ [])
    (hsize : numeral base 0 ds ≤ 2 ^ 53) (he : (⟨minus, ds, none, none⟩ : Written).Ends base rest) :
    parseReal a base ((⟨minus, ds, none, none⟩ : Written).text ++ rest) =
      some ⟨(if minus then -1 else 1) * (numeral base 0 ds : Rat), false, rest⟩ := by
  have hv : (⟨minus, ds, none, none⟩ : Written).Valid base := ⟨hds, hne, by simp, by simp⟩
  have htext : (⟨minus, ds, none, none⟩ : Written).text ++ rest = (if minus then [45] else []) ++
      (ds ++ rest) := by
    simp only [Written.text, List.append_assoc, fracText, expText, List.nil_append]
  rw [parseReal, if_pos ⟨hb.1, hb.2⟩, htext, takeMinus_text base _ _ _ hds hne]
  dsimp only
  have hs := digits_split base ds rest hds (headRest he)
  have hval := readComp_value a base hb.2 hb.1 (ds ++ rest)
    0 false (fun n hn => ha n (by rw [hs.1] at hn; omega))
  have hrest := readComp_rest a base hb.2 (ds ++ rest) 0 false
  rw [hs.1] at hval
  rw [hs.1, hs.2] at hrest
  have hval : (readComp a base 0 false (ds ++ rest)).1 = ((numeral base 0 ds : Nat) : Rat) := hval
  have hany : (!ds.isEmpty) = true := by
    cases ds with
    | nil => exact absurd rfl hne
    | cons c w => rfl
  have hf : takeFrac a base (numeral base 0 ds : Nat) rest = (((numeral base 0 ds : Nat) : Rat), rest) := by
    cases rest with
    | nil => rfl
    | cons c t => simp only [takeFrac]; rw [if_neg (((he _ _ rfl).2 rfl).2.2 rfl)]
  have hx : takeExp a base (numeral base 0 ds : Nat) true rest =
      (((numeral base 0 ds : Nat) : Rat), true, rest) := by
    cases rest with
    | nil => rfl
    | cons c t =>
      simp only [takeExp]
      rw [if_neg]
      rintro ⟨_, h⟩
      have := (he _ _ rfl).2 rfl
      rcases (exp_letter c).1 h with h | h
      · exact this.1 h
      · exact this.2.1 h
  rw [hval, hrest, hf, Bool.false_or, hany]
  dsimp only
  rw [hx]
  dsimp only
  congr 2
  cases minus
  · simp
  · simp only [if_true]; grind

/-- Arithmetic without rounding, for examples. -/
def ideal : Arith := ⟨id, fun b e => if e.den = 1 then b ^ e.num else 0⟩

theorem ideal_exact : Exact ideal.rnd ideal.pow := by
  refine ⟨fun _ => rfl, fun b k => ⟨?_, ?_⟩⟩
  · simp [ideal, Rat.zpow_natCast]
  · have h1 : (-(k : Rat)).den = 1 := by simp
    have h2 : (-(k : Rat)).num = -(k : Int) := by simp
    simp only [ideal, h1, h2, if_true, Rat.zpow_neg, Rat.zpow_natCast]
    grind

/-- One digit more than fits a 64-bit denominator: nothing but zeros and a one at the end. -/
def longFraction (base : Nat) : Written :=
  ⟨false, [48], some (List.replicate (((List.range 65).find? (fun k => 2 ^ 64 ≤ base ^ k)).getD 0 - 1) 48 ++ [49]),
    none⟩

/-- **C68** does not hold in the other radixes: a fraction long enough is read as another number,
although the code watches for the overflow (seven is among them). -/
theorem C68_radixes (base : Nat) (hb : 0 < base ∧ base ≤ 36) :
    (∀ a : Arith, Exact a.rnd a.pow → ∀ n : Written, n.Valid base → n.Ends base [] →
      parseReal a base n.text = some ⟨n.value base, false, []⟩) ↔ base ∈ goodRadix := by
  constructor
  · intro h
    have hbad : ∀ b : Nat, b < 37 → 0 < b → b ∉ goodRadix →
        Digits b [48] ∧ (∀ c ∈ List.replicate (((List.range 65).find? (fun k => 2 ^ 64 ≤ b ^ k)).getD 0 - 1) 48
          ++ [49], isDigit b c = true) ∧
        (parseReal ideal b (longFraction b).text).map (·.value) ≠ some ((longFraction b).value b) := by
      unfold Digits
      decide +kernel
    by_cases hg : base ∈ goodRadix
    · exact hg
    · obtain ⟨h1, h2, h3⟩ := hbad base (by omega) hb.1 hg
      exfalso
      apply h3
      have := h ideal ideal_exact (longFraction base)
        ⟨h1, by simp [longFraction], by intro ds hd; cases hd; exact h2, by simp [longFraction]⟩
        (by intro c t h; cases h)
      rw [this]
      rfl
  · intro h a ha n hv he
    have := C68_reads_partial a ha base h n [] hv he
    rwa [List.append_nil] at this

/-- A number has to begin with a digit: `.5` is refused, although it is read as one half. -/
theorem C68_leading_point : parseReal ideal 10 [46, 53] = some ⟨1 / 2, true, []⟩ := by decide +kernel

/-- `-12.5e+2;` meets the conditions and is read as -1250. -/
example : (⟨true, [49, 50], some [53], some (101, some false, [50])⟩ : Written).Valid 10 ∧
    (⟨true, [49, 50], some [53], some (101, some false, [50])⟩ : Written).Ends 10 [59] ∧
    (⟨true, [49, 50], some [53], some (101, some false, [50])⟩ : Written).text =
      [45, 49, 50, 46, 53, 101, 43, 50] ∧
    (⟨true, [49, 50], some [53], some (101, some false, [50])⟩ : Written).value 10 = -1250 ∧
    parseReal ideal 10 [45, 49, 50, 46, 53, 101, 43, 50, 59] = some ⟨-1250, false, [59]⟩ := by
  refine ⟨⟨by unfold Digits; decide, by decide, ?_, ?_⟩, ?_, by decide, by decide +kernel, by decide +kernel⟩
  · intro ds h; cases h; unfold Digits; decide
  · intro e s ds h; cases h; exact ⟨by decide, by decide, by unfold Digits; decide, by decide⟩
  · intro c t h; cases h; exact ⟨by decide, by simp⟩

/-- The least number of 25 decimal places, 64 bits of denominator being not enough. -/
example : parseReal ideal 10 (49 :: 46 :: (List.replicate 24 48 ++ [49])) =
    some ⟨1 + 1 / 10 ^ 25, false, []⟩ := by decide +kernel

/-- Rounding as coarse as can be above 2^53 keeps the integers. -/
example : KeepsIntegers fun x => if x ≤ 9007199254740992 then x else 0 := by
  intro n h
  dsimp only
  rw [if_pos]
  have : ((n : Nat) : Rat) ≤ ((2 ^ 53 : Nat) : Rat) := Rat.natCast_le_natCast.2 h
  simpa using this

end Verif.Num
