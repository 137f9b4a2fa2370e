import Verif.Esc.Model
import Verif.Esc.Spec
/-!
# C14, C48, C51: command lines, terminators, identifiers
-/
namespace Verif.Esc
open Verif

/-! ## C14 -/

theorem crtArg_backslashes (q : Bool) (n k : Nat) (rest : List Byte) :
    crtArg q n (List.replicate k 92 ++ rest) = crtArg q (n + k) rest := by
  induction k generalizing n with
  | zero => rfl
  | succ k ih =>
    rw [List.replicate_succ, List.cons_append, crtArg.eq_def]
    dsimp only
    rw [if_pos rfl, ih]
    congr 1; omega

theorem crtArg_plain (q : Bool) (n : Nat) (c : Byte) (cs : List Byte) (h1 : c ≠ 92) (h2 : c ≠ 34)
    (h3 : q = true ∨ (c ≠ 32 ∧ c ≠ 9)) :
    crtArg q n (c :: cs) = (List.replicate n 92 ++ (c :: (crtArg q 0 cs).1), (crtArg q 0 cs).2) := by
  rw [crtArg.eq_def]
  dsimp only
  rw [if_neg h1, if_neg h2, if_neg]
  rintro ⟨h4, h5⟩
  rcases h3 with h3 | h3
  · rw [h3] at h5; simp at h5
  · rcases h4 with h4 | h4
    · exact h3.1 h4
    · exact h3.2 h4

theorem crtArg_escaped_quote (q : Bool) (n : Nat) (cs : List Byte) :
    crtArg q (2 * n + 1) (34 :: cs) =
      (List.replicate n 92 ++ (34 :: (crtArg q 0 cs).1), (crtArg q 0 cs).2) := by
  rw [crtArg.eq_def]
  dsimp only
  rw [if_neg (by decide), if_pos rfl, if_pos (by omega)]
  have : (2 * n + 1) / 2 = n := by omega
  rw [this]

/-- The end of an argument: nothing follows, or a space or tab does. -/
def ArgEnd (rest : List Byte) : Prop := rest = [] ∨ rest.head? = some 32 ∨ rest.head? = some 9

theorem crtArg_end (rest : List Byte) (h : ArgEnd rest) (n : Nat) :
    crtArg false n rest = (List.replicate n 92, rest) := by
  cases rest with
  | nil => rfl
  | cons c cs =>
    have hc : c = 32 ∨ c = 9 := by
      rcases h with h | h | h
      · simp at h
      · simp at h; exact Or.inl h
      · simp at h; exact Or.inr h
    rw [crtArg.eq_def]
    dsimp only
    rw [if_neg (by rcases hc with rfl | rfl <;> decide), if_neg (by rcases hc with rfl | rfl <;> decide),
      if_pos ⟨hc, rfl⟩]

theorem crtArg_close (rest : List Byte) (h : ArgEnd rest) :
    crtArg true 0 (34 :: rest) = ([], rest) := by
  rw [crtArg.eq_def]
  dsimp only
  rw [if_neg (by decide), if_pos rfl, if_neg (by decide)]
  cases rest with
  | nil => rfl
  | cons c cs =>
    have hc : c ≠ 34 := by
      rcases h with h | h | h
      · simp at h
      · simp at h; subst h; decide
      · simp at h; subst h; decide
    dsimp only
    rw [if_neg (by simp [hc])]
    have := crtArg_end (c :: cs) h 0
    simp only [Bool.not_true, this]
    rfl

theorem winLoop_read (s rest : List Byte) (n : Nat) (hr : ArgEnd rest)
    (hlast : s.getLast? ≠ some 92) (hn : s = [] → n = 0) :
    crtArg true 0 (winLoop n s ++ 34 :: rest) = (List.replicate n 92 ++ s, rest) := by
  induction s generalizing n with
  | nil =>
    rw [hn rfl]
    exact crtArg_close rest hr
  | cons c cs ih =>
    have hlast' : cs.getLast? ≠ some 92 := by
      cases cs with
      | nil => simp
      | cons d ds => simpa [List.getLast?_cons_cons] using hlast
    unfold winLoop
    by_cases h1 : c = 92
    · subst h1
      rw [if_pos rfl]
      have hcs : cs ≠ [] := by rintro rfl; simp at hlast
      rw [ih (n + 1) hlast' (fun h => absurd h hcs), List.replicate_succ']
      simp
    · rw [if_neg h1]
      by_cases h2 : c = 34
      · subst h2
        rw [if_pos rfl]
        have e : List.replicate (2 * n) 92 ++ ([92, 34] ++ winLoop 0 cs) ++ 34 :: rest =
            List.replicate (2 * n + 1) 92 ++ (34 :: (winLoop 0 cs ++ 34 :: rest)) := by
          rw [List.replicate_succ']
          simp
        rw [e, crtArg_backslashes, Nat.zero_add, crtArg_escaped_quote, ih 0 hlast' (fun _ => rfl)]
        simp
      · rw [if_neg h2]
        have e : List.replicate n 92 ++ c :: winLoop 0 cs ++ 34 :: rest =
            List.replicate n 92 ++ (c :: (winLoop 0 cs ++ 34 :: rest)) := by simp
        rw [e, crtArg_backslashes, Nat.zero_add, crtArg_plain true n c _ h1 h2 (Or.inl rfl),
          ih 0 hlast' (fun _ => rfl)]
        simp

theorem plain_read (s rest : List Byte) (n : Nat) (hr : ArgEnd rest)
    (h : ∀ c ∈ s, c ≠ 32 ∧ c ≠ 9 ∧ c ≠ 34) :
    crtArg false n (s ++ rest) = (List.replicate n 92 ++ s, rest) := by
  induction s generalizing n with
  | nil =>
    rw [List.nil_append, crtArg_end rest hr n, List.append_nil]
  | cons c cs ih =>
    have hc := h c (by simp)
    have ih' := fun m => ih m (fun d hd => h d (by simp [hd]))
    by_cases h1 : c = 92
    · subst h1
      rw [List.cons_append, crtArg.eq_def]
      dsimp only
      rw [if_pos rfl, ih' (n + 1), List.replicate_succ']
      simp
    · rw [List.cons_append, crtArg_plain false n c _ h1 hc.2.2 (Or.inr ⟨hc.1, hc.2.1⟩), ih' 0]
      simp

/-- **C14**, for arguments that do not end in a backslash (or need no quotes): the quoted argument,
followed by the end of the command line or by a space or tab, is read by the C runtime rules as
exactly the original argument.

Missing: arguments ending in a backslash that need quotes, where the claim is false
(`C14_trailing_backslash_lost`), and the empty argument, which prints nothing
(`C14_empty_argument_vanishes`). -/
theorem C14_roundtrip_partial (arg rest : List Byte)
    (h : arg.getLast? ≠ some 92 ∨ arg.all (fun c => !(Str.isWhite c || c == 34)) = true)
    (hr : ArgEnd rest) :
    crtArg false 0 (winQuote arg ++ rest) = (arg, rest) := by
  unfold winQuote
  by_cases hq : arg.any (fun c => Str.isWhite c || c == 34) = true
  · rw [if_pos hq]
    have hlast : arg.getLast? ≠ some 92 := by
      rcases h with h | h
      · exact h
      · exfalso
        rw [List.any_eq_true] at hq
        obtain ⟨c, hc, hc'⟩ := hq
        rw [List.all_eq_true] at h
        have := h c hc
        rw [hc'] at this
        simp at this
    have hne : arg ≠ [] := by rintro rfl; simp at hq
    cases hw : winLoop 0 arg ++ [34] ++ rest with
    | nil => simp at hw
    | cons d ds =>
      rw [List.cons_append, hw]
      rw [crtArg.eq_def]
      dsimp only
      rw [if_neg (by decide), if_pos rfl, if_neg (by decide), if_neg (by simp)]
      have := winLoop_read arg rest 0 hr hlast (fun _ => rfl)
      simp only [Bool.not_false]
      rw [← hw, List.append_assoc]
      simp only [List.cons_append, List.nil_append]
      rw [this]
      rfl
  · rw [if_neg hq]
    have hh : ∀ c ∈ arg, c ≠ 32 ∧ c ≠ 9 ∧ c ≠ 34 := by
      intro c hc
      have : ¬ (Str.isWhite c || c == 34) = true := by
        intro h'
        exact hq (List.any_eq_true.mpr ⟨c, hc, h'⟩)
      simp only [Str.isWhite, Bool.or_eq_true, beq_iff_eq, not_or] at this
      exact ⟨this.1.1.1.1, this.1.1.1.2, this.2⟩
    have := plain_read arg rest 0 hr hh
    simpa using this

example : winQuote [97, 32, 92, 34] = [34, 97, 32, 92, 92, 92, 34, 34] ∧
    crtArg false 0 [34, 97, 32, 92, 92, 92, 34, 34, 32, 120] = ([97, 32, 92, 34], [32, 120]) := by
  decide

/-- **C14** fails: the argument `a b\` is printed as `"a b"`; the backslash is lost. -/
theorem C14_trailing_backslash_lost :
    winQuote [97, 32, 98, 92] = [34, 97, 32, 98, 34] ∧
    crtArg false 0 (winQuote [97, 32, 98, 92]) = ([97, 32, 98], []) := by decide

/-- **C14** fails for the empty argument: nothing is printed, so no argument is passed. -/
theorem C14_empty_argument_vanishes : winQuote [] = [] := by decide

/-! ## C48 -/

/-- Occurrences of `special` in a text that starts with a partial match and a mismatch. -/
theorem occurrence_after_mismatch (special : List Byte) (a : Byte) (as : List Byte)
    (hs : special = a :: as) (hrec : a ∉ as) (m : Nat) (hm : m < special.length) (c : Byte)
    (cs : List Byte) (hmis : special[m]? ≠ some c) (hc : 0 < m → c ≠ a) (pre rest : List Byte)
    (h : special.take m ++ c :: cs = pre ++ special ++ rest) :
    ∃ pre', pre = special.take m ++ c :: pre' ∧ cs = pre' ++ special ++ rest := by
  have hlen : (special.take m).length = m := by rw [List.length_take]; omega
  -- the occurrence starts after the mismatching byte
  have hstart : m < pre.length := by
    by_cases hlt : m < pre.length
    · exact hlt
    exfalso
    have hat : (special.take m ++ c :: cs)[pre.length]? = some a := by
      rw [h, List.append_assoc, List.getElem?_append_right (Nat.le_refl _), Nat.sub_self, hs]
      rfl
    by_cases h0 : pre.length = 0
    · -- starts at 0: then special[m] = c
      have hp : pre = [] := List.length_eq_zero_iff.mp h0
      subst hp
      have : (special.take m ++ c :: cs)[m]? = some c := by
        rw [List.getElem?_append_right (by omega), hlen, Nat.sub_self]; rfl
      rw [h, List.nil_append, List.getElem?_append_left hm] at this
      exact hmis this
    · by_cases hpm : pre.length = m
      · have : (special.take m ++ c :: cs)[m]? = some c := by
          rw [List.getElem?_append_right (by omega), hlen, Nat.sub_self]; rfl
        rw [hpm, this] at hat
        exact hc (by omega) (Option.some.inj hat)
      · have hlt' : pre.length < m := by omega
        rw [List.getElem?_append_left (by omega), List.getElem?_take_of_lt hlt', hs] at hat
        obtain ⟨k, hk⟩ : ∃ k, pre.length = k + 1 := ⟨pre.length - 1, by omega⟩
        rw [hk, List.getElem?_cons_succ] at hat
        exact hrec (List.mem_of_getElem? hat)
  refine ⟨pre.drop (m + 1), ?_, ?_⟩
  · have h1 : (special.take m ++ c :: cs).take (m + 1) = pre.take (m + 1) := by
      rw [h, List.append_assoc, List.take_append_of_le_length (by omega)]
    have h2 : (special.take m ++ c :: cs).take (m + 1) = special.take m ++ [c] := by
      rw [List.take_append, hlen]
      have : m + 1 - m = 1 := by omega
      rw [this, List.take_of_length_le (by omega)]
      rfl
    have h3 : pre.take (m + 1) = special.take m ++ [c] := by rw [← h1, h2]
    calc pre = pre.take (m + 1) ++ pre.drop (m + 1) := (List.take_append_drop _ _).symm
      _ = _ := by rw [h3]; simp
  · have h1 : (special.take m ++ c :: cs).drop (m + 1) = cs := by
      rw [List.drop_append, hlen]
      have : m + 1 - m = 1 := by omega
      rw [this, List.drop_eq_nil_of_le (by omega)]
      rfl
    rw [← h1, h, List.append_assoc, List.drop_append_of_le_length (by omega), List.append_assoc]

/-- `input` never contains a false start directly followed by the terminator's first byte. -/
def NoRestart (special input : List Byte) : Prop :=
  ∀ m a, special.head? = some a → 0 < m → m < special.length →
    ¬ (special.take m ++ [a]) <:+: input

theorem scanLoop_exact (special : List Byte) (a : Byte) (as : List Byte) (hs : special = a :: as)
    (hrec : a ∉ as) (input : List Byte) (m : Nat) (hm : m < special.length)
    (hno : NoRestart special (special.take m ++ input)) :
    (∀ rest, scanLoop special m input = some rest ↔
      AfterFirst special (special.take m ++ input) rest) ∧
    (scanLoop special m input = none ↔ ¬ special <:+: (special.take m ++ input)) := by
  induction input generalizing m with
  | nil =>
    have hnot : ¬ special <:+: (special.take m ++ []) := by
      intro h
      have := h.length_le
      rw [List.append_nil, List.length_take] at this
      omega
    refine ⟨fun rest => ?_, ?_⟩
    · simp only [scanLoop, reduceCtorEq, false_iff]
      rintro ⟨pre, h, _⟩
      exact hnot ⟨pre, rest, h.symm⟩
    · simp only [scanLoop, true_iff]
      exact hnot
  | cons c cs ih =>
    have hlen : (special.take m).length = m := by rw [List.length_take]; omega
    by_cases hmt : special[m]? = some c
    · have htake : special.take m ++ c :: cs = special.take (m + 1) ++ cs := by
        rw [List.take_succ, hmt]
        simp
      by_cases hend : m + 1 ≥ special.length
      · have hfull : special.take (m + 1) = special := List.take_of_length_le hend
        simp only [scanLoop, hmt, ↓reduceIte, hend]
        rw [htake, hfull]
        refine ⟨fun rest => ?_, ?_⟩
        · constructor
          · intro h
            have := Option.some.inj h
            subst this
            exact ⟨[], by simp, by simp⟩
          · rintro ⟨pre, h1, h2⟩
            have := h2 [] cs (by simp)
            have hp : pre = [] := List.length_eq_zero_iff.mp (by simpa using this)
            subst hp
            rw [List.nil_append] at h1
            rw [List.append_cancel_left h1]
        · simp only [reduceCtorEq, false_iff, Decidable.not_not]
          exact ⟨[], cs, by simp⟩
      · simp only [scanLoop, hmt, ↓reduceIte, hend]
        rw [htake]
        exact ih (m + 1) (by omega) (by rw [← htake]; exact hno)
    · have hca : 0 < m → c ≠ a := by
        rintro h0 rfl
        refine hno m c (by rw [hs]; rfl) h0 hm ?_
        exact ⟨[], cs, by simp⟩
      have hno' : NoRestart special (special.take 0 ++ cs) := by
        intro k b hb h0 hk hin
        refine hno k b hb h0 hk ?_
        rw [List.take_zero, List.nil_append] at hin
        exact hin.trans ⟨special.take m ++ [c], [], by simp⟩
      obtain ⟨ih1, ih2⟩ := ih 0 (by rw [hs]; simp) hno'
      rw [List.take_zero, List.nil_append] at ih1 ih2
      simp only [scanLoop, hmt, ↓reduceIte]
      refine ⟨fun rest => ?_, ?_⟩
      · rw [ih1 rest]
        constructor
        · rintro ⟨pre, h1, h2⟩
          refine ⟨special.take m ++ c :: pre, by rw [h1]; simp, ?_⟩
          intro pre' rest' h3
          obtain ⟨pre'', e1, e2⟩ := occurrence_after_mismatch special a as hs hrec m hm c cs hmt hca
            pre' rest' h3
          have := h2 pre'' rest' e2
          rw [e1]
          simp only [List.length_append, List.length_cons]
          omega
        · rintro ⟨pre, h1, h2⟩
          obtain ⟨pre'', e1, e2⟩ := occurrence_after_mismatch special a as hs hrec m hm c cs hmt hca
            pre rest h1
          refine ⟨pre'', e2, ?_⟩
          intro pre' rest' h3
          have := h2 (special.take m ++ c :: pre') rest' (by rw [h3]; simp)
          rw [e1] at this
          simp only [List.length_append, List.length_cons] at this
          omega
      · rw [ih2]
        constructor
        · rintro h ⟨pre, rest, h1⟩
          obtain ⟨pre'', _, e2⟩ := occurrence_after_mismatch special a as hs hrec m hm c cs hmt hca
            pre rest h1.symm
          exact h ⟨pre'', rest, e2.symm⟩
        · rintro h ⟨pre, rest, h1⟩
          exact h ⟨special.take m ++ c :: pre, rest, by rw [← h1]; simp⟩

/-- **C48.** For every terminator the function accepts (non-empty, first byte not recurring) and
every input in which no partial match is directly followed by the terminator's first byte: the
input is consumed exactly up to the end of the terminator's first occurrence, and "not found" is
reported exactly if there is none.  Missing: inputs with such a false start, where the claim is
false (`C48_false_start_misses`). -/
theorem C48_first_occurrence_partial (a : Byte) (as input : List Byte) (hrec : a ∉ as)
    (hno : NoRestart (a :: as) input) :
    (∀ rest, scanSpecial (a :: as) input = .found rest ↔ AfterFirst (a :: as) input rest) ∧
    (scanSpecial (a :: as) input = .notFound ↔ ¬ (a :: as) <:+: input) := by
  obtain ⟨h1, h2⟩ := scanLoop_exact (a :: as) a as rfl hrec input 0 (by simp) (by simpa using hno)
  rw [List.take_zero, List.nil_append] at h1 h2
  unfold scanSpecial
  simp only [hrec, ↓reduceIte]
  cases hsc : scanLoop (a :: as) 0 input with
  | none =>
    rw [hsc] at h1 h2
    refine ⟨fun rest => ?_, ?_⟩
    · rw [← h1 rest]; simp
    · rw [← h2]; simp
  | some r =>
    rw [hsc] at h1 h2
    refine ⟨fun rest => ?_, ?_⟩
    · rw [← h1 rest]; simp
    · rw [← h2]; simp

example : scanSpecial [42, 47] [97, 42, 98, 42, 47, 99] = .found [99] := by decide

/-- A one-byte terminator (such as the end of a line) cannot have a false start, so the claim holds
without restriction. -/
theorem C48_single_byte (a : Byte) (input : List Byte) :
    (∀ rest, scanSpecial [a] input = .found rest ↔ AfterFirst [a] input rest) ∧
    (scanSpecial [a] input = .notFound ↔ ¬ [a] <:+: input) := by
  refine C48_first_occurrence_partial a [] input (by simp) ?_
  intro m _ _ h0 h1
  simp only [List.length_cons, List.length_nil] at h1
  omega

example : scanSpecial [10] [97, 10, 98] = .found [98] := by decide

/-- **C48**, soundness on all inputs: if the terminator is reported found, the consumed input ends
with it. -/
theorem C48_found_sound (special input rest : List Byte) (h : scanSpecial special input = .found rest) :
    ∃ pre, input = pre ++ special ++ rest := by
  unfold scanSpecial at h
  cases special with
  | nil => simp at h
  | cons a as =>
    dsimp only at h
    split at h
    · simp at h
    · rename_i hrec
      have key : ∀ (input : List Byte) m, m < (a :: as).length → ∀ r,
          scanLoop (a :: as) m input = some r →
          ∃ pre, (a :: as).take m ++ input = pre ++ (a :: as) ++ r := by
        intro input
        induction input with
        | nil => intro m _ r h; simp [scanLoop] at h
        | cons c cs ih =>
          intro m hm r h
          by_cases hmt : (a :: as)[m]? = some c
          · have htake : (a :: as).take m ++ c :: cs = (a :: as).take (m + 1) ++ cs := by
              rw [List.take_succ, hmt]
              simp
            simp only [scanLoop, hmt, ↓reduceIte] at h
            split at h
            · rename_i hend
              have hfull : (a :: as).take (m + 1) = a :: as := List.take_of_length_le hend
              refine ⟨[], ?_⟩
              rw [htake, hfull, Option.some.inj h]
              simp
            · obtain ⟨pre, hp⟩ := ih (m + 1) (by omega) r h
              exact ⟨pre, by rw [htake, hp]⟩
          · simp only [scanLoop, hmt, ↓reduceIte] at h
            obtain ⟨pre, hp⟩ := ih 0 (by simp) r h
            rw [List.take_zero, List.nil_append] at hp
            exact ⟨(a :: as).take m ++ c :: pre, by rw [hp]; simp⟩
      cases hsc : scanLoop (a :: as) 0 input with
      | none => rw [hsc] at h; simp at h
      | some r =>
        rw [hsc] at h
        obtain ⟨pre, hp⟩ := key input 0 (by simp) r hsc
        rw [List.take_zero, List.nil_append] at hp
        simp only [ScanResult.found.injEq] at h
        exact ⟨pre, by rw [hp, h]⟩

example : scanSpecial [42, 47] [42, 47, 120] = .found [120] := by decide

/-- **C48** fails after a false start: in `**/` the terminator `*/` is not found. -/
theorem C48_false_start_misses :
    scanSpecial [42, 47] [42, 42, 47, 120] = .notFound ∧ [42, 47] <:+: [(42 : Byte), 42, 47, 120] :=
  ⟨by decide, ⟨[42], [120], rfl⟩⟩

/-! ## C51 -/

theorem identLoop_rest (dollar dash : Bool) (s : List Byte) :
    identLoop dollar dash false s = (s.dropWhile (identByte dollar dash false), false) := by
  induction s with
  | nil => rfl
  | cons c cs ih =>
    unfold identLoop
    by_cases h : identByte dollar dash false c = true
    · rw [if_pos h, ih, List.dropWhile_cons_of_pos h]
    · rw [if_neg h, List.dropWhile_cons_of_neg h]

/-- **C51.** With no flags, reading an identifier succeeds exactly if the input starts with a
letter, underscore or non-ASCII byte, and consumes exactly the longest run of letters, digits,
underscores and non-ASCII bytes; otherwise nothing is consumed. -/
theorem C51_identifier_exact (input : List Byte) :
    parseIdentifier false false input =
      match input with
      | [] => (false, [])
      | c :: cs =>
        if Str.isAsciiLetter c ∨ c = 95 ∨ 128 ≤ c.toNat then
          (true, cs.dropWhile fun d => Str.isAsciiLetter d || Str.isDecimalDigit d || d == 95 ||
            decide (128 ≤ d.toNat))
        else (false, c :: cs) := by
  unfold parseIdentifier
  cases input with
  | nil => rfl
  | cons c cs =>
    unfold identLoop
    have e : identByte false false false = fun d => Str.isAsciiLetter d || Str.isDecimalDigit d ||
        d == 95 || decide (128 ≤ d.toNat) := by
      funext d
      unfold identByte
      cases Str.isAsciiLetter d <;> cases Str.isDecimalDigit d <;> simp
    by_cases h : identByte false false true c = true
    · have h' : Str.isAsciiLetter c ∨ c = 95 ∨ 128 ≤ c.toNat := by
        simpa [identByte, or_assoc] using h
      rw [if_pos h, identLoop_rest, e]
      simp only [if_pos h']
      rfl
    · have h' : ¬ (Str.isAsciiLetter c ∨ c = 95 ∨ 128 ≤ c.toNat) := by
        simpa [identByte, or_assoc] using h
      rw [if_neg h]
      simp only [if_neg h']
      rfl

example : parseIdentifier false false [97, 49, 45, 98] = (true, [45, 98]) ∧
    parseIdentifier false false [49, 97] = (false, [49, 97]) := by decide

/-- **C51**, disagreement: with the `$` or `-` flag set, an empty identifier is reported as a
success. -/
theorem C51_empty_identifier_accepted :
    parseIdentifier true false [49] = (true, [49]) ∧ parseIdentifier false true [] = (true, []) := by
  decide

/-- **C51.** Skipping whitespace consumes exactly the longest run of whitespace, and reading
non-whitespace exactly the longest run without. -/
theorem C51_whitespace (input : List Byte) :
    scanWhite false input = input.dropWhile Str.isWhite ∧
    scanWhite true input = input.dropWhile (fun c => !Str.isWhite c) := by
  induction input with
  | nil => exact ⟨rfl, rfl⟩
  | cons c cs ih =>
    unfold scanWhite
    cases h : Str.isWhite c with
    | false => simp [h, ih.2]
    | true => simp [h, ih.1]

example : scanWhite false [32, 9, 97, 32] = [97, 32] ∧ scanWhite true [97, 32] = [32] := by decide

end Verif.Esc
