import Verif.Crowbar.LemmasLex

/-!
# The tokenizer — properties
-/

namespace Verif.Crowbar
open Verif

theorem skipLine_spec (r : List Byte) : ∃ body, r = body ++ skipLine r ∧ 10 ∉ body ∧
    (skipLine r = [] ∨ StartsWith (· = 10) (skipLine r)) := by
  induction r with
  | nil => exact ⟨[], rfl, by simp, .inl rfl⟩
  | cons c r ih =>
    rw [skipLine]
    by_cases h : c = 10
    · rw [if_pos h]
      exact ⟨[], rfl, by simp, .inr ⟨c, r, rfl, h⟩⟩
    · rw [if_neg h]
      obtain ⟨body, h1, h2, h3⟩ := ih
      refine ⟨c :: body, by rw [List.cons_append, ← h1], ?_, h3⟩
      simp only [List.mem_cons, not_or]
      exact ⟨fun e => h e.symm, h2⟩

theorem infix_end (c d : Byte) (r : List Byte) :
    [42, 47] <:+: c :: d :: r ↔ (c = 42 ∧ d = 47) ∨ [42, 47] <:+: d :: r := by
  rw [List.infix_cons_iff]
  constructor
  · rintro (h | h)
    · left
      rw [List.cons_prefix_cons, List.cons_prefix_cons] at h
      exact ⟨h.1.symm, h.2.1.symm⟩
    · exact .inr h
  · rintro (⟨h1, h2⟩ | h)
    · left; subst h1 h2; exact ⟨r, rfl⟩
    · exact .inr h

theorem infix_one (c : Byte) : ¬ [42, 47] <:+: ([c] : List Byte) := by
  intro h
  have := h.length_le
  simp at this

theorem infix_zero : ¬ ([42, 47] : List Byte) <:+: [] := by
  intro h
  have := h.length_le
  simp at this

theorem skipC_spec (n : Nat) : ∀ r : List Byte, r.length ≤ n →
    (∃ body, r = body ++ [42, 47] ++ skipC r ∧ ¬ [42, 47] <:+: body ++ [42]) ∨
    (skipC r = [] ∧ ¬ [42, 47] <:+: r) := by
  induction n with
  | zero =>
    intro r hr
    cases r with
    | nil => exact .inr ⟨rfl, infix_zero⟩
    | cons _ _ => simp at hr
  | succ n ih =>
    intro r hr
    cases r with
    | nil => exact .inr ⟨rfl, infix_zero⟩
    | cons c r =>
      have hr' : r.length ≤ n := by simpa using hr
      by_cases hend : ∃ r', c = 42 ∧ r = 47 :: r'
      · obtain ⟨r', h1, h2⟩ := hend
        subst h1 h2
        refine .inl ⟨[], ?_, infix_one _⟩
        rw [skipC.eq_def]; rfl
      · have hsk : skipC (c :: r) = skipC r := by
          rw [skipC.eq_def]
          dsimp only
          by_cases h : c = 42
          · rw [if_pos h]
            cases r with
            | nil => rfl
            | cons d r' =>
              dsimp only
              rw [if_neg (fun e => hend ⟨r', h, by rw [e]⟩)]
          · rw [if_neg h]
        rw [hsk]
        rcases ih r hr' with ⟨body, h1, h2⟩ | ⟨h1, h2⟩
        · left
          refine ⟨c :: body, by rw [List.cons_append, List.cons_append, ← h1], ?_⟩
          cases body with
          | nil =>
            rw [List.cons_append, List.nil_append, infix_end]
            rintro (h | h)
            · exact absurd h.2 (by decide)
            · exact infix_one _ h
          | cons d body =>
            rw [List.cons_append, List.cons_append, infix_end]
            rintro (⟨h3, h4⟩ | h)
            · rw [h4] at h1
              exact hend ⟨_, h3, h1⟩
            · exact h2 h
        · right
          refine ⟨h1, ?_⟩
          cases r with
          | nil => exact infix_one _
          | cons d r' =>
            rw [infix_end]
            rintro (⟨h3, h4⟩ | h)
            · exact hend ⟨r', h3, by rw [h4]⟩
            · exact h2 h

theorem blanks_gap {nl : Bool} (bl gap rest : List Byte) (h : ∀ c ∈ bl, isBlank c = true) (hg : Gap nl gap rest) :
    Gap nl (bl ++ gap) rest := by
  induction bl with
  | nil => exact hg
  | cons c bl ih =>
    refine .blank c _ _ ?_ (ih fun x hx => h x (List.mem_cons_of_mem _ hx))
    have := h c (List.mem_cons_self ..)
    clear ih h
    revert this; revert c; apply forall_byte; decide +kernel

theorem not_starts {k : Byte → Prop} {f : Byte → Bool} (hk : ∀ c, k c → f c = true) (r : List Byte) :
    ¬ StartsWith k (r.dropWhile f) := by
  rintro ⟨c, q, h, hc⟩
  have := List.head?_dropWhile_not f r
  rw [h] at this
  simp only [List.head?_cons] at this
  rw [hk c hc] at this
  simp at this

theorem mem_takeWhile {f : Byte → Bool} {r : List Byte} {c : Byte} (h : c ∈ r.takeWhile f) : f c = true := by
  induction r with
  | nil => cases h
  | cons d r ih =>
    rw [List.takeWhile_cons] at h
    split at h
    · rcases List.mem_cons.mp h with e | h
      · subst e; assumption
      · exact ih h
    · cases h

theorem idChar_iff (c : Byte) : isIdChar c = true ↔ nameStart c ∨ digitByte c := by
  unfold isIdChar
  rw [Bool.or_eq_true, nameStart_iff, digitByte_iff]

theorem not_starts_cons {k : Byte → Prop} {d : Byte} {r : List Byte} (h : ¬ k d) : ¬ StartsWith k (d :: r) := by
  rintro ⟨c, q, he, hk⟩
  cases he
  exact h hk

theorem not_starts_nil {k : Byte → Prop} : ¬ StartsWith k [] := by
  rintro ⟨c, q, he, -⟩
  cases he

theorem punct_shape (c : Byte) : isIdStart c = false → isDig c = false → c ≠ 10 → isBlank c = false → c ≠ 47 →
    twoByte c = none → ∀ r, Shape (punct c) [c] r := by
  intro h1 h2 h3 h4 h5 h6 r
  by_cases hp : punct c = .invalid
  · rw [hp]
    refine ⟨c, rfl, ?_, ?_, ?_⟩
    · rw [← nameStart_iff, h1]; simp
    · rw [← digitByte_iff, h2]; simp
    · have hall : (isIdStart c || isDig c || c == 10 || isBlank c || c == 47 || (twoByte c).isSome ||
          punct c != .invalid) = true ∨ c ∉ ([10, 32, 9, 13, 34, 123, 125, 40, 41, 59, 46, 44, 61, 47, 60, 62, 43, 45,
            42, 37, 33, 126, 124, 38] : List Byte) := by
        clear hp h1 h2 h3 h4 h5 h6 r
        revert c; apply forall_byte; decide +kernel
      rcases hall with h | h
      · simp [h1, h2, h3, h4, h5, h6, hp] at h
      · exact h
  · have hall : (c, punct c) ∈ ([(59, .semicolon), (34, .beginString), (37, .percent), (33, .bang), (126, .tilde),
        (123, .openCurly), (125, .closeCurly), (40, .openParen), (41, .closeParen), (46, .dot), (44, .comma),
        (43, .plus), (45, .minus), (42, .asterisk)] : List (Byte × TokTy)) ∨ punct c = .invalid := by
      clear hp h1 h2 h3 h4 h5 h6 r
      revert c; apply forall_byte; decide +kernel
    rcases hall with h | h
    · simp only [List.mem_cons, Prod.mk.injEq, List.not_mem_nil, or_false] at h
      rcases h with h | h | h | h | h | h | h | h | h | h | h | h | h | h <;>
        (rw [h.2, h.1]; exact rfl)
    · exact absurd h hp

/-- The conclusion of `C63_token`. -/
def TokenAt (total : Nat) (nl : Bool) (src : List Byte) (t : Tok) (rest : List Byte) : Prop :=
  ∃ gap, src = gap ++ (t.text ++ rest) ∧ Gap nl gap (t.text ++ rest) ∧ Shape t.ty t.text rest ∧
    t.off = total - (t.text ++ rest).length ∧ (t.ty = .newLine → nl = true)

theorem TokenAt.skip {total : Nat} {nl : Bool} {src x : List Byte} {t : Tok} {rest : List Byte}
    (h : TokenAt total nl src t rest)
    (hx : ∀ gap rest, src = gap ++ rest → Gap nl gap rest → ∃ g, x = g ++ rest ∧ Gap nl g rest) :
    TokenAt total nl x t rest := by
  obtain ⟨gap, h1, h2, h3⟩ := h
  obtain ⟨g, h4, h5⟩ := hx gap _ h1 h2
  exact ⟨g, h4, h5, h3⟩

theorem lexF_token (total : Nat) (nl : Bool) (k : Nat) : ∀ src : List Byte, src.length < k →
    TokenAt total nl src (lexF total nl k src).1 (lexF total nl k src).2 := by
  induction k with
  | zero => intro src h; omega
  | succ k ih =>
    intro src hl
    cases src with
    | nil => exact ⟨[], rfl, .none _, ⟨rfl, rfl⟩, rfl, by simp [lexF]⟩
    | cons c r =>
      have hlr : r.length < k := by simpa using hl
      have now : ∀ (ty : TokTy) (text rest : List Byte), ty ≠ .newLine → c :: r = text ++ rest → Shape ty text rest →
          TokenAt total nl (c :: r) ⟨ty, total - (r.length + 1), text⟩ rest := by
        intro ty text rest h0 h1 h2
        refine ⟨[], h1, .none _, h2, ?_, fun h => absurd h h0⟩
        rw [← h1]; rfl
      rw [lexF.eq_def]
      dsimp only
      by_cases e1 : isIdStart c = true
      · rw [if_pos e1]
        refine now _ _ _ (by simp) (by simp) ⟨⟨c, _, rfl, (nameStart_iff c).mp e1, fun d hd => ?_⟩, ?_⟩
        · exact (idChar_iff d).mp (mem_takeWhile hd)
        · exact not_starts (fun c hc => (idChar_iff c).mpr hc) r
      rw [if_neg e1]
      by_cases e2 : isDig c = true
      · rw [if_pos e2]
        refine now _ _ _ (by simp) (by simp) ⟨by simp, fun d hd => ?_, not_starts (fun c hc => (digitByte_iff c).mpr hc) r⟩
        rcases List.mem_cons.mp hd with e | hd
        · subst e; exact (digitByte_iff d).mp e2
        · exact (digitByte_iff d).mp (mem_takeWhile hd)
      rw [if_neg e2]
      by_cases e3 : c = 10
      · rw [if_pos e3]
        subst e3
        cases nl with
        | true =>
          exact ⟨[], rfl, .none _, rfl, rfl, fun _ => rfl⟩
        | false =>
          simp only [Bool.false_eq_true, if_false]
          exact (ih r hlr).skip fun gap rest h1 h2 => ⟨10 :: gap, by rw [h1]; rfl, .line _ _ rfl h2⟩
      rw [if_neg e3]
      by_cases e4 : isBlank c = true
      · rw [if_pos e4]
        have hdl : (r.dropWhile isBlank).length ≤ r.length := (List.dropWhile_suffix (l := r) isBlank).length_le
        refine (ih _ (by omega)).skip fun gap rest h1 h2 => ⟨c :: r.takeWhile isBlank ++ gap, ?_, ?_⟩
        · rw [List.append_assoc, ← h1]; simp
        · refine blanks_gap _ _ _ ?_ h2
          intro d hd
          rcases List.mem_cons.mp hd with e | hd
          · subst e; exact e4
          · exact mem_takeWhile hd
      rw [if_neg e4]
      by_cases e5 : c = 47
      · rw [if_pos e5]
        subst e5
        cases r with
        | nil => exact now _ _ _ (by simp) rfl ⟨rfl, not_starts_nil⟩
        | cons d r' =>
          simp only [List.length_cons] at hlr
          dsimp only
          by_cases f1 : d = 47
          · rw [if_pos f1]
            subst f1
            obtain ⟨body, b1, b2, b3⟩ := skipLine_spec r'
            have := congrArg List.length b1
            rw [List.length_append] at this
            refine (ih (skipLine r') (by omega)).skip fun gap rest h1 h2 => ⟨[47, 47] ++ body ++ gap, ?_, ?_⟩
            · rw [List.append_assoc, ← h1]; simp [← b1]
            · refine .lineComment body gap rest b2 ?_ h2
              rw [← h1]; exact b3
          rw [if_neg f1]
          by_cases f2 : d = 42
          · rw [if_pos f2]
            subst f2
            have hlen : (skipC r').length ≤ r'.length := by
              rcases skipC_spec r'.length r' (Nat.le_refl _) with ⟨body, b1, -⟩ | ⟨b1, -⟩
              · have := congrArg List.length b1
                simp only [List.length_append] at this
                omega
              · rw [b1]; simp
            refine (ih (skipC r') (by omega)).skip fun gap rest h1 h2 => ?_
            rcases skipC_spec r'.length r' (Nat.le_refl _) with ⟨body, b1, b2⟩ | ⟨b1, b2⟩
            · refine ⟨[47, 42] ++ body ++ [42, 47] ++ gap, ?_, .comment body gap rest b2 h2⟩
              rw [List.append_assoc, ← h1]; simp [b1.symm]
            · rw [b1] at h1
              have h1' := List.append_eq_nil_iff.mp h1.symm
              rw [h1'.2]
              exact ⟨[47, 42] ++ r', by simp, .openComment r' b2⟩
          rw [if_neg f2]
          by_cases f3 : d = 61
          · rw [if_pos f3]
            subst f3
            exact now _ _ _ (by simp) rfl rfl
          · rw [if_neg f3]
            exact now _ _ _ (by simp) rfl ⟨rfl, not_starts_cons (by rintro (h | h | h) <;> contradiction)⟩
      rw [if_neg e5]
      cases hx : twoByte c with
      | none =>
        dsimp only
        have hp : ∀ c, punct c ≠ .newLine := by intro c; revert c; apply forall_byte; decide +kernel
        exact now _ _ _ (hp c) rfl (punct_shape c (by simpa using e1) (by simpa using e2) e3 (by simpa using e4) e5 hx r)
      | some x =>
        obtain ⟨sec, both, single⟩ := x
        dsimp only
        have hboth : Shape both [c, sec] = fun _ => True := by
          funext rest
          unfold twoByte at hx
          split at hx
          · cases hx; subst c; simp [Shape]
          split at hx
          · cases hx; subst c; simp [Shape]
          split at hx
          · cases hx; subst c; simp [Shape]
          split at hx
          · cases hx; subst c; simp [Shape]
          split at hx
          · cases hx; subst c; simp [Shape]
          · cases hx
        have hsingle : ∀ rest, ¬ StartsWith (· = sec) rest → Shape single [c] rest := by
          intro rest hr
          unfold twoByte at hx
          split at hx
          · cases hx; subst c; exact ⟨rfl, hr⟩
          split at hx
          · cases hx; subst c; exact ⟨rfl, hr⟩
          split at hx
          · cases hx; subst c; exact ⟨rfl, hr⟩
          split at hx
          · cases hx; subst c; exact ⟨rfl, hr⟩
          split at hx
          · cases hx; subst c; exact ⟨rfl, hr⟩
          · cases hx
        have ht : ∀ c, ∀ x, twoByte c = some x → x.2.1 ≠ .newLine ∧ x.2.2 ≠ .newLine := by
          intro c; revert c; apply forall_byte; decide +kernel
        cases r with
        | nil => exact now _ _ _ (ht c _ hx).2 rfl (hsingle _ not_starts_nil)
        | cons d r' =>
          dsimp only
          by_cases g : d = sec
          · rw [if_pos g]
            subst g
            exact now _ _ _ (ht c _ hx).1 rfl (by rw [hboth]; trivial)
          · rw [if_neg g]
            exact now _ _ _ (ht c _ hx).2 rfl (hsingle _ (not_starts_cons g))

/-- **C63**: the next token.  Whatever the source, it is a gap of blanks and comments, then the spelling of the
token, then what is left; words, numbers and operators are as long as they can be, and the offset reported for
the token is the place of its first byte in the file. -/
theorem C63_token (total : Nat) (nl : Bool) (src : List Byte) (t : Tok) (rest : List Byte)
    (h : lex total nl src = (t, rest)) :
    ∃ gap, src = gap ++ (t.text ++ rest) ∧ Gap nl gap (t.text ++ rest) ∧ Shape t.ty t.text rest ∧
      t.off = total - (t.text ++ rest).length ∧ (t.ty = .newLine → nl = true) := by
  have := lexF_token total nl (src.length + 1) src (Nat.lt_succ_self _)
  unfold lex at h
  rw [h] at this
  exact this

/-- The tokens of a text up to its end. -/
inductive Tokens (total : Nat) (nl : Bool) : List Byte → List Tok → Prop
  | eof {src rest : List Byte} {t : Tok} : lex total nl src = (t, rest) → t.ty = .endOfFile → Tokens total nl src [t]
  | more {src rest : List Byte} {t : Tok} {ts : List Tok} : lex total nl src = (t, rest) → t.ty ≠ .endOfFile →
      Tokens total nl rest ts → Tokens total nl src (t :: ts)

/-- The tokens with the gaps before them. -/
def joined : List (List Byte × Tok) → List Byte
  | [] => []
  | (gap, t) :: r => gap ++ (t.text ++ joined r)

/-- **C63**: the tokens of a file cover it: put together with the gaps between them they are the file, and each
is found at the offset reported for it. -/
theorem C63_cover (total : Nat) (nl : Bool) (src : List Byte) (ts : List Tok) (h : Tokens total nl src ts)
    (hl : src.length ≤ total) :
    ∃ parts : List (List Byte × Tok), parts.map (·.2) = ts ∧ joined parts = src ∧
      (∀ p ∈ parts, ∃ rest, Gap nl p.1 rest) ∧
      ∀ t ∈ ts, ((src.drop (t.off - (total - src.length))).take t.text.length) = t.text ∧
        total - src.length ≤ t.off ∧ t.off + t.text.length ≤ total := by
  induction h with
  | @eof src rest t h he =>
    obtain ⟨gap, h1, h2, h3, h4, -⟩ := C63_token total nl src t rest h
    rw [he] at h3
    obtain ⟨h5, h6⟩ := h3
    rw [h5, h6] at h1 h2 h4
    refine ⟨[(gap, t)], rfl, ?_, ?_, ?_⟩
    · simp [joined, h1, h5]
    · intro p hp; simp only [List.mem_singleton] at hp; subst hp; exact ⟨_, h2⟩
    · intro t' ht'
      simp only [List.mem_singleton] at ht'
      subst ht'
      rw [h5, h4]
      simp
  | @more src rest t ts h he hts ih =>
    obtain ⟨gap, h1, h2, h3, h4, -⟩ := C63_token total nl src t rest h
    have hlen := congrArg List.length h1
    simp only [List.length_append] at hlen
    obtain ⟨parts, p1, p2, p3, p4⟩ := ih (by omega)
    refine ⟨(gap, t) :: parts, by simp [p1], by rw [joined, p2, ← h1], ?_, ?_⟩
    · intro p hp
      rcases List.mem_cons.mp hp with e | hp
      · subst e; exact ⟨_, h2⟩
      · exact p3 p hp
    · intro t' ht'
      simp only [List.length_append] at h4
      rcases List.mem_cons.mp ht' with e | ht'
      · subst e
        refine ⟨?_, by omega, by omega⟩
        rw [show t'.off - (total - src.length) = gap.length by omega, h1, List.drop_left, List.take_left]
      · obtain ⟨q1, q2, q3⟩ := p4 t' ht'
        refine ⟨?_, by omega, q3⟩
        rw [show t'.off - (total - src.length) =
          (gap ++ t.text).length + (t'.off - (total - rest.length)) by rw [List.length_append]; omega, h1,
          ← List.append_assoc, ← List.drop_drop, List.drop_left]
        exact q1

/-- **C63**: every source has its tokens; reading comes to the end. -/
theorem C63_total (total : Nat) (nl : Bool) : ∀ src : List Byte, ∃ ts, Tokens total nl src ts := by
  have key : ∀ n, ∀ src : List Byte, src.length ≤ n → ∃ ts, Tokens total nl src ts := by
    intro n
    induction n with
    | zero =>
      intro src h
      have : src = [] := List.length_eq_zero_iff.mp (by omega)
      subst this
      exact ⟨_, .eof rfl rfl⟩
    | succ n ih =>
      intro src h
      by_cases he : (lex total nl src).1.ty = .endOfFile
      · exact ⟨_, .eof (t := (lex total nl src).1) (rest := (lex total nl src).2) rfl he⟩
      · obtain ⟨gap, h1, h2, h3, -, -⟩ := C63_token total nl src (lex total nl src).1 (lex total nl src).2 rfl
        have hne : (lex total nl src).1.text ≠ [] := by
          intro e
          rw [e] at h3
          generalize (lex total nl src).1.ty = ty at h3 he
          cases ty <;> simp [Shape, Word] at h3 he
        have := congrArg List.length h1
        simp only [List.length_append] at this
        have hp : 0 < (lex total nl src).1.text.length := List.length_pos_iff.mpr hne
        obtain ⟨ts, hts⟩ := ih (lex total nl src).2 (by omega)
        exact ⟨_, .more rfl he hts⟩
  exact fun src => key src.length src (Nat.le_refl _)

/-- ` x1<= /* c */ 10 // z`. -/
example : Tokens 21 false [32, 120, 49, 60, 61, 32, 47, 42, 32, 99, 32, 42, 47, 32, 49, 48, 32, 47, 47, 32, 122]
    [⟨.identifier, 1, [120, 49]⟩, ⟨.lessThanOrEqual, 3, [60, 61]⟩, ⟨.numericLiteral, 14, [49, 48]⟩,
      ⟨.endOfFile, 21, []⟩] := by
  refine .more (rest := [60, 61, 32, 47, 42, 32, 99, 32, 42, 47, 32, 49, 48, 32, 47, 47, 32, 122]) (by decide +kernel)
    (by decide) (.more (rest := [32, 47, 42, 32, 99, 32, 42, 47, 32, 49, 48, 32, 47, 47, 32, 122]) (by decide +kernel)
    (by decide) (.more (rest := [32, 47, 47, 32, 122]) (by decide +kernel) (by decide)
    (.eof (rest := []) (by decide +kernel) (by decide))))

/-- What a byte after a backslash stands for, and when a string part ends: the contents of a string as a
reader understands it. -/
inductive StrPart : List Byte → List Byte → List Byte → Prop
  | quote (r : List Byte) : StrPart (34 :: r) [] (34 :: r)
  | embed (r : List Byte) : StrPart (36 :: 123 :: r) [] (36 :: 123 :: r)
  | escaped (d : Byte) {x c r : List Byte} : StrPart x c r → StrPart (92 :: d :: x) (d :: c) r
  | plain (d : Byte) {x c r : List Byte} : d ≠ 92 → d ≠ 34 → (d = 36 → ¬ StartsWith (· = 123) x) → StrPart x c r →
      StrPart (d :: x) (d :: c) r

theorem readStr_part {x c r : List Byte} (h : StrPart x c r) : ∀ acc, acc ++ c ≠ [] →
    readStr acc x = some (.stringLiteral, acc ++ c, r) := by
  induction h with
  | quote r =>
    intro acc h
    rw [List.append_nil] at h
    rw [readStr.eq_def]
    dsimp only
    rw [if_neg (by decide), if_pos rfl, if_neg h, List.append_nil]
  | embed r =>
    intro acc h
    rw [List.append_nil] at h
    rw [readStr.eq_def]
    dsimp only
    rw [if_neg (by decide), if_neg (by decide), if_pos rfl, if_pos rfl, if_neg h, List.append_nil]
  | @escaped d x c r h ih =>
    intro acc _
    rw [readStr.eq_def]
    dsimp only
    rw [if_pos rfl, ih (acc ++ [d]) (by simp)]
    simp
  | @plain d x c r h1 h2 h3 h ih =>
    intro acc _
    have key := ih (acc ++ [d]) (by simp)
    rw [List.append_assoc] at key
    rw [readStr.eq_def]
    dsimp only
    rw [if_neg h1, if_neg h2]
    by_cases h4 : d = 36
    · rw [if_pos h4]
      subst h4
      cases x with
      | nil => exact key
      | cons e x' =>
        dsimp only
        rw [if_neg (fun he => h3 rfl ⟨e, x', rfl, he⟩)]
        exact key
    · rw [if_neg h4]
      exact key

theorem strPart_of (n : Nat) : ∀ (x acc : List Byte) (ty : TokTy) (t r : List Byte), x.length ≤ n →
    readStr acc x = some (ty, t, r) →
    ∃ c q, StrPart x c q ∧ (acc ++ c = [] → t = [] ∧ ((ty = .endString ∧ q = 34 :: r) ∨
      (ty = .beginStringEmbed ∧ q = 36 :: 123 :: r))) ∧
      (acc ++ c ≠ [] → ty = .stringLiteral ∧ t = acc ++ c ∧ q = r) := by
  induction n with
  | zero =>
    intro x acc ty t r hl h
    have : x = [] := List.length_eq_zero_iff.mp (by omega)
    subst this
    rw [readStr.eq_def] at h; cases h
  | succ n ih =>
    intro x acc ty t r hl h
    cases x with
    | nil => rw [readStr.eq_def] at h; cases h
    | cons c x =>
      rw [readStr.eq_def] at h
      dsimp only at h
      have hl' : x.length ≤ n := by simpa using hl
      have lift : ∀ (d : Byte) (y : List Byte), y.length ≤ n → readStr (acc ++ [d]) y = some (ty, t, r) →
          ∃ c q, StrPart y c q ∧ ty = .stringLiteral ∧ t = acc ++ d :: c ∧ q = r := by
        intro d y hy hr
        obtain ⟨c, q, h1, -, h3⟩ := ih y (acc ++ [d]) ty t r hy hr
        obtain ⟨h4, h5, h6⟩ := h3 (by simp)
        exact ⟨c, q, h1, h4, by rw [h5]; simp, h6⟩
      by_cases e1 : c = 92
      · rw [if_pos e1] at h
        subst e1
        cases x with
        | nil => cases h
        | cons d x' =>
          dsimp only at h
          simp only [List.length_cons] at hl'
          obtain ⟨c, q, h1, h2, h3, h4⟩ := lift d x' (by omega) h
          exact ⟨d :: c, q, .escaped d h1, fun h => absurd h (by simp), fun _ => ⟨h2, h3, h4⟩⟩
      rw [if_neg e1] at h
      by_cases e2 : c = 34
      · rw [if_pos e2] at h
        subst e2
        refine ⟨[], 34 :: x, .quote x, ?_, ?_⟩
        · intro ha
          rw [List.append_nil] at ha
          rw [if_pos ha] at h
          simp only [Option.some.injEq, Prod.mk.injEq] at h
          obtain ⟨h1, h2, h3⟩ := h
          exact ⟨h2.symm, .inl ⟨h1.symm, by rw [h3]⟩⟩
        · intro ha
          rw [List.append_nil] at ha
          rw [if_neg ha] at h
          simp only [Option.some.injEq, Prod.mk.injEq] at h
          obtain ⟨h1, h2, h3⟩ := h
          exact ⟨h1.symm, by rw [List.append_nil, h2], h3⟩
      rw [if_neg e2] at h
      by_cases e3 : c = 36
      · rw [if_pos e3] at h
        subst e3
        cases x with
        | nil =>
          dsimp only at h
          rw [readStr.eq_def] at h; cases h
        | cons d x' =>
          dsimp only at h
          by_cases e4 : d = 123
          · rw [if_pos e4] at h
            subst e4
            refine ⟨[], 36 :: 123 :: x', .embed x', ?_, ?_⟩
            · intro ha
              rw [List.append_nil] at ha
              rw [if_pos ha] at h
              simp only [Option.some.injEq, Prod.mk.injEq] at h
              obtain ⟨h1, h2, h3⟩ := h
              exact ⟨h2.symm, .inr ⟨h1.symm, by rw [h3]⟩⟩
            · intro ha
              rw [List.append_nil] at ha
              rw [if_neg ha] at h
              simp only [Option.some.injEq, Prod.mk.injEq] at h
              obtain ⟨h1, h2, h3⟩ := h
              exact ⟨h1.symm, by rw [List.append_nil, h2], h3⟩
          · rw [if_neg e4] at h
            obtain ⟨c, q, h1, h2, h3, h4⟩ := lift 36 (d :: x') hl' h
            exact ⟨36 :: c, q, .plain 36 (by decide) (by decide) (fun _ => not_starts_cons e4) h1,
              fun h => absurd h (by simp), fun _ => ⟨h2, h3, h4⟩⟩
      · rw [if_neg e3] at h
        obtain ⟨c', q, h1, h2, h3, h4⟩ := lift c x hl' h
        exact ⟨c :: c', q, .plain c e1 e2 (fun e => absurd e e3) h1, fun h => absurd h (by simp), fun _ => ⟨h2, h3, h4⟩⟩

/-- **C63**: inside a string, the bytes up to the closing quote or the next `${` are the text of a token, every
byte after a backslash standing for itself; this describes exactly the literal tokens. -/
theorem C63_string_text (x c r : List Byte) (hc : c ≠ []) :
    readStr [] x = some (.stringLiteral, c, r) ↔ StrPart x c r := by
  constructor
  · intro h
    obtain ⟨c', q, h1, h2, h3⟩ := strPart_of x.length x [] _ _ _ (Nat.le_refl _) h
    rw [List.nil_append] at h2 h3
    by_cases hc' : c' = []
    · rcases (h2 hc').2 with ⟨h, -⟩ | ⟨h, -⟩ <;> cases h
    · obtain ⟨-, h4, h5⟩ := h3 hc'
      rw [h4, ← h5]
      exact h1
  · intro h
    exact readStr_part h [] (by simpa using hc)

/-- **C63**: the string ends at the first quote, an embedded expression begins at the first `${`. -/
theorem C63_string_ends (x r : List Byte) :
    (readStr [] x = some (.endString, [], r) ↔ x = 34 :: r) ∧
    (readStr [] x = some (.beginStringEmbed, [], r) ↔ x = 36 :: 123 :: r) := by
  have key : ∀ ty, ty ≠ .stringLiteral → readStr [] x = some (ty, [], r) →
      (ty = .endString ∧ x = 34 :: r) ∨ (ty = .beginStringEmbed ∧ x = 36 :: 123 :: r) := by
    intro ty hty h
    obtain ⟨c', q, h1, h2, h3⟩ := strPart_of x.length x [] _ _ _ (Nat.le_refl _) h
    rw [List.nil_append] at h2 h3
    by_cases hc' : c' = []
    · have h4 := (h2 hc').2
      subst hc'
      cases h1 with
      | quote r' => exact h4
      | embed r' => exact h4
    · exact absurd (h3 hc').1 hty
  refine ⟨⟨fun h => ?_, fun h => ?_⟩, ⟨fun h => ?_, fun h => ?_⟩⟩
  · rcases key _ (by decide) h with ⟨-, h⟩ | ⟨h, -⟩
    · exact h
    · cases h
  · subst h; rw [readStr.eq_def]; rfl
  · rcases key _ (by decide) h with ⟨h, -⟩ | ⟨-, h⟩
    · cases h
    · exact h
  · subst h; rw [readStr.eq_def]; rfl

/-- `a\"$b"`. -/
example : StrPart [97, 92, 34, 36, 98, 34] [97, 34, 36, 98] [34] :=
  .plain 97 (by decide) (by decide) (fun h => absurd h (by decide)) (.escaped 34 (.plain 36 (by decide) (by decide)
    (fun _ => not_starts_cons (by decide)) (.plain 98 (by decide) (by decide) (fun h => absurd h (by decide)) (.quote []))))

end Verif.Crowbar
