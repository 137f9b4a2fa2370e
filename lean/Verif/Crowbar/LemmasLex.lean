import Verif.Crowbar.SpecPrint
import Verif.Crowbar.LemmasMono
import Verif.Num.Props

/-!
# Reading printed tokens
-/

namespace Verif.Crowbar

/-- What may follow a printed token. -/
def Sep (r : List Byte) : Prop := r = [] ∨ (∃ r', r = 32 :: r') ∨ ∃ r', r = 10 :: r'

theorem nameStart_iff (b : Byte) : isIdStart b = true ↔ nameStart b := by
  unfold nameStart isIdStart
  revert b; apply forall_byte; decide +kernel

theorem digitByte_iff (b : Byte) : isDig b = true ↔ digitByte b := by
  unfold digitByte isDig
  revert b; apply forall_byte; decide +kernel

theorem sep_stop {f : Byte → Bool} (h32 : f 32 = false) (h10 : f 10 = false) (a r : List Byte)
    (ha : ∀ c ∈ a, f c = true) (hr : Sep r) :
    (a ++ r).takeWhile f = a ∧ (a ++ r).dropWhile f = r := by
  induction a with
  | nil =>
    rcases hr with h | ⟨r', h⟩ | ⟨r', h⟩ <;> subst h <;> simp [*]
  | cons c a ih =>
    have hc := ha c (List.mem_cons_self ..)
    obtain ⟨h1, h2⟩ := ih fun d hd => ha d (List.mem_cons_of_mem _ hd)
    simp only [List.cons_append, List.takeWhile_cons, hc, if_true, h1, List.dropWhile_cons, h2, and_self]

/-- A byte that begins a token, whatever the mode. -/
def solid (c : Byte) : Bool := !(c == 10 || c == 13 || c == 9 || c == 32 || c == 47)

theorem lexF_space (total : Nat) (nl : Bool) (k : Nat) (c : Byte) (r : List Byte) (h : isBlank c = false) :
    lexF total nl (k + 1) (32 :: c :: r) = lexF total nl k (c :: r) := by
  rw [lexF]
  rw [if_neg (by decide), if_neg (by decide), if_neg (by decide), if_pos (by decide)]
  rw [List.dropWhile_cons, if_neg (by simp [h])]

/-- A token whose first byte is `solid` does not depend on the number of turns or on the mode. -/
theorem lexF_solid (total : Nat) (nl nl' : Bool) (k k' : Nat) (c : Byte) (r : List Byte) (h : solid c = true) :
    lexF total nl (k + 1) (c :: r) = lexF total nl' (k' + 1) (c :: r) := by
  have h10 : ¬ c = 10 := by intro e; subst e; exact absurd h (by decide)
  have h47 : ¬ c = 47 := by intro e; subst e; exact absurd h (by decide)
  have hb : ¬ isBlank c = true := by
    revert c; intro c h _ _
    revert h; revert c; apply forall_byte; decide +kernel
  rw [lexF.eq_def, lexF.eq_def total nl']
  dsimp only
  simp only [if_neg h10, if_neg h47, if_neg hb]

theorem solid_blank {c : Byte} (h : solid c = true) : isBlank c = false := by
  revert h; revert c; apply forall_byte; decide +kernel

/-- The token after a space, for a solid first byte: the mode does not matter. -/
theorem lex_solid (total : Nat) (nl : Bool) (c : Byte) (r : List Byte) (h : solid c = true) :
    lex total nl (32 :: c :: r) = lexF total false 1 (c :: r) := by
  unfold lex
  rw [lexF_space _ _ _ _ _ (solid_blank h)]
  exact lexF_solid _ _ _ (r.length + 1) 0 _ _ h

theorem lex_word (total : Nat) (nl : Bool) (n r : List Byte)
    (hn : ∃ b r, n = b :: r ∧ nameStart b ∧ ∀ c ∈ r, nameStart c ∨ digitByte c) (hr : Sep r) :
    lex total nl (32 :: n ++ r) = (⟨.identifier, total - (n ++ r).length, n⟩, r) := by
  obtain ⟨b, m, e, hb, hm⟩ := hn
  subst e
  have hb' := (nameStart_iff b).mpr hb
  have hs : solid b = true := by
    clear hb; revert hb'; revert b; apply forall_byte; decide +kernel
  show lex total nl (32 :: b :: (m ++ r)) = _
  rw [lex_solid _ _ _ _ hs, lexF.eq_def]
  dsimp only
  obtain ⟨h1, h2⟩ := sep_stop (f := isIdChar) (by decide) (by decide) m r (by
    intro c hc
    unfold isIdChar
    rcases hm c hc with h | h
    · rw [(nameStart_iff c).mpr h]; rfl
    · rw [(digitByte_iff c).mpr h, Bool.or_true]) hr
  simp only [hb', if_true, h1, h2, List.length_cons, List.cons_append]

theorem lex_name (total : Nat) (nl : Bool) (n r : List Byte) (hn : NameOk n) (hr : Sep r) :
    lex total nl (32 :: n ++ r) = (⟨.identifier, total - (n ++ r).length, n⟩, r) :=
  lex_word total nl n r hn.1 hr

theorem decimal_digits (v : Nat) : decimal v ≠ [] ∧ ∀ c ∈ decimal v, isDig c = true := by
  induction v using decimal.induct with
  | case1 v h =>
    rw [decimal, if_pos h]
    refine ⟨by simp, ?_⟩
    intro c hc
    simp only [List.mem_singleton] at hc
    subst hc
    revert v
    intro v h
    have : ∀ v < 10, isDig (UInt8.ofNat (48 + v)) = true := by decide +kernel
    exact this v h
  | case2 v h ih =>
    rw [decimal, if_neg h]
    refine ⟨by simp, ?_⟩
    intro c hc
    rcases List.mem_append.mp hc with hc | hc
    · exact ih.2 c hc
    · simp only [List.mem_singleton] at hc
      subst hc
      have : ∀ v < 10, isDig (UInt8.ofNat (48 + v)) = true := by decide +kernel
      exact this _ (Nat.mod_lt _ (by decide))

theorem lex_num (total : Nat) (nl : Bool) (v : Nat) (r : List Byte) (hr : Sep r) :
    lex total nl (32 :: decimal v ++ r) = (⟨.numericLiteral, total - (decimal v ++ r).length, decimal v⟩, r) := by
  obtain ⟨h0, hd⟩ := decimal_digits v
  cases hv : decimal v with
  | nil => exact absurd hv h0
  | cons b m =>
    rw [hv] at hd
    have hb := hd b (List.mem_cons_self ..)
    have hs : solid b = true := by
      revert hb; clear hv hd; revert b; apply forall_byte; decide +kernel
    have hi : isIdStart b = false := by
      revert hb; clear hv hd hs; revert b; apply forall_byte; decide +kernel
    show lex total nl (32 :: b :: (m ++ r)) = _
    rw [lex_solid _ _ _ _ hs, lexF.eq_def]
    dsimp only
    obtain ⟨h1, h2⟩ := sep_stop (f := isDig) (by decide) (by decide) m r
      (fun c hc => hd c (List.mem_cons_of_mem _ hc)) hr
    simp only [hi, hb, if_true, h1, h2, List.length_cons, List.cons_append, Bool.false_eq_true, if_false]

theorem toU32_decimal (v : Nat) (h : v < 2 ^ 32) : toU32 (decimal v) = v := by
  have hdig : ∀ v, (∀ c ∈ decimal v, Num.isDigit 10 c = true) ∧ ∀ a, Num.numeral 10 a (decimal v) = a * 10 ^ (decimal v).length + v := by
    intro v
    induction v using decimal.induct with
    | case1 v h =>
      rw [decimal, if_pos h]
      have h1 : ∀ v < 10, Num.isDigit 10 (UInt8.ofNat (48 + v)) = true := by decide +kernel
      have h2 : ∀ v < 10, Num.specDigit (UInt8.ofNat (48 + v)) = some v := by decide +kernel
      refine ⟨by simpa using h1 v h, ?_⟩
      intro a
      simp only [Num.numeral, h2 v h, List.length_singleton, Nat.pow_one]
    | case2 v h ih =>
      rw [decimal, if_neg h]
      have hm : v % 10 < 10 := Nat.mod_lt _ (by decide)
      have h1 : ∀ v < 10, Num.isDigit 10 (UInt8.ofNat (48 + v)) = true := by decide +kernel
      have h2 : ∀ v < 10, Num.specDigit (UInt8.ofNat (48 + v)) = some v := by decide +kernel
      refine ⟨?_, ?_⟩
      · intro c hc
        rcases List.mem_append.mp hc with hc | hc
        · exact ih.1 c hc
        · simp only [List.mem_singleton] at hc
          subst hc; exact h1 _ hm
      · intro a
        rw [Num.numeral_append, ih.2]
        simp only [Num.numeral, h2 _ hm, List.length_append, List.length_singleton, Nat.pow_succ, Nat.add_mul,
          Nat.mul_assoc]
        omega
  obtain ⟨h1, h2⟩ := hdig v
  have hd : Num.digitsOf 10 (decimal v) = decimal v := by
    unfold Num.digitsOf
    have := List.takeWhile_append_of_pos (l₂ := []) h1
    simpa using this
  have ha : Num.afterDigits 10 (decimal v) = [] := by
    unfold Num.afterDigits
    have := List.dropWhile_append_of_pos (l₂ := []) h1
    simpa using this
  unfold toU32
  rw [Num.C09_parse_narrow_unsigned_exact 32 10 (by decide) (by decide) (by decide), hd, ha, h2 0]
  rw [if_pos ⟨(decimal_digits v).1, by omega⟩]
  simp

/-- Tokens of fixed spelling that end before a space. -/
theorem lex_bin (total : Nat) (nl : Bool) (op : BinOp) (r : List Byte) (hr : Sep r) :
    ∃ t : Tok, lex total nl (32 :: binText op ++ r) = (t, r) ∧ toBin t.ty = some op := by
  rcases hr with h | ⟨r', h⟩ | ⟨r', h⟩ <;> subst h <;> cases op <;> exact ⟨_, rfl, rfl⟩

end Verif.Crowbar
