import Verif.Cpp.Lemmas
import Verif.Cpp.Spec
/-!
# The tokenizer for C++ — what one pass reads
-/
namespace Verif.Cpp
open Verif

theorem locAt_mono {e : Int} {r s : List Byte} (h : r <:+ s) : locAt e s ≤ locAt e r := by
  have := h.length_le
  unfold locAt
  omega

/-- The bytes from `s` up to `r`. -/
def upTo (s r : List Byte) : List Byte := s.take (s.length - r.length)

theorem upTo_append {s r : List Byte} (h : r <:+ s) : upTo s r ++ r = s := by
  obtain ⟨t, rfl⟩ := h
  simp [upTo]

theorem upTo_length {s r : List Byte} (h : r <:+ s) : (upTo s r).length = s.length - r.length := by
  simp [upTo]

/-- What is left. -/
def Lex.rest : Lex → List Byte
  | .skip r _ _ => r
  | .tok _ r _ _ _ => r
  | .ident r _ => r

/-- The errors. -/
def Lex.errs : Lex → List Err
  | .skip _ x _ => x
  | .tok _ _ x _ _ => x
  | .ident _ x => x

theorem identLoop_spec (e loc : Int) (b : Byte) : ∀ (fuel n : Nat) (errs : List Err) (s : List Byte)
    (t : TT) (r : List Byte) (errs' : List Err),
    identLoop e loc b fuel n errs s = some (t, r, errs') → loc ≤ locAt e s →
    (∀ x ∈ errs, loc ≤ x.loc ∧ x.loc ≤ locAt e s) →
    r <:+ s ∧ (n = 0 → r.length < s.length) ∧ (∀ x ∈ errs', loc ≤ x.loc ∧ x.loc ≤ locAt e r) ∧
      (t = .identifier ∨ t = .stringLiteral ∨ (t = .invalid ∧ errs' ≠ [])) := by
  intro fuel
  induction fuel with
  | zero => intro n errs s t r errs' h; cases h
  | succ fuel ih =>
    intro n errs s t r errs' h hl hx
    cases s with
    | nil =>
      unfold identLoop at h
      by_cases hn : n = 0
      · rw [if_pos hn] at h; cases h
      · rw [if_neg hn] at h
        cases h
        exact ⟨List.suffix_rfl, fun h => absurd h hn, hx, Or.inl rfl⟩
    | cons c cs =>
      have hcs : cs <:+ c :: cs := List.suffix_cons _ _
      have up : ∀ {r : List Byte}, r <:+ c :: cs → ∀ x ∈ errs, loc ≤ x.loc ∧ x.loc ≤ locAt e r := by
        intro r hr x hm
        exact ⟨(hx x hm).1, Int.le_trans (hx x hm).2 (locAt_mono hr)⟩
      unfold identLoop at h
      by_cases h1 : Esc.identByte true false false c = true
      · rw [if_pos h1] at h
        have := ih _ _ _ _ _ _ h (Int.le_trans hl (locAt_mono hcs)) (up hcs)
        have hle := this.1.length_le
        exact ⟨suf_cons this.1, fun _ => by simp only [List.length_cons]; omega, this.2.2.1, this.2.2.2⟩
      · rw [if_neg h1] at h
        by_cases h2 : c = 34
        · rw [if_pos h2] at h
          by_cases h3 : n = 1 ∧ b = 82
          · rw [if_pos h3] at h
            cases hr : readRaw cs with
            | ok r' =>
              rw [hr] at h
              cases h
              have hs := readRaw_ok hr
              exact ⟨suf_cons hs, fun h => by omega, up (suf_cons hs), Or.inr (Or.inl rfl)⟩
            | error p =>
              obtain ⟨ty, l⟩ := p
              have hs := readRaw_error hr
              rw [hr] at h
              cases l with
              | nil => cases h
              | cons x l =>
                dsimp only at h
                have hl' : l <:+ c :: cs := suf_cons ((List.suffix_cons _ _).trans hs)
                have := ih _ _ _ _ _ _ h (Int.le_trans hl (locAt_mono hl')) (by
                  intro y hy
                  rcases List.mem_append.mp hy with hy | hy
                  · exact up hl' y hy
                  · cases List.mem_singleton.mp hy
                    exact ⟨Int.le_trans hl (locAt_mono (suf_cons hs)), locAt_mono (List.suffix_cons _ _)⟩)
                exact ⟨this.1.trans hl', fun h => by omega, this.2.2.1, this.2.2.2⟩
          · rw [if_neg h3] at h
            cases hr : readString c cs with
            | none =>
              rw [hr] at h
              cases h
              refine ⟨List.nil_suffix, fun _ => by simp, ?_, Or.inr (Or.inr ⟨rfl, by simp⟩)⟩
              intro y hy
              rcases List.mem_append.mp hy with hy | hy
              · exact up List.nil_suffix y hy
              · cases List.mem_singleton.mp hy
                exact ⟨Int.le_trans hl (locAt_mono List.nil_suffix), Int.le_refl _⟩
            | some r' =>
              rw [hr] at h
              cases h
              have hs := readString_suf _ _ _ _ (Nat.le_refl _) hr
              exact ⟨suf_cons hs.1, fun _ => by simp only [List.length_cons]; omega, up (suf_cons hs.1),
                Or.inr (Or.inl rfl)⟩
        · rw [if_neg h2] at h
          by_cases h3 : n = 0
          · rw [if_pos h3] at h
            cases h
            refine ⟨hcs, fun _ => by simp, ?_, Or.inr (Or.inr ⟨rfl, by simp⟩)⟩
            intro y hy
            rcases List.mem_append.mp hy with hy | hy
            · exact up hcs y hy
            · cases List.mem_singleton.mp hy
              exact ⟨Int.le_refl _, Int.le_trans hl (locAt_mono hcs)⟩
          · rw [if_neg h3] at h
            cases h
            exact ⟨List.suffix_rfl, fun h => absurd h h3, hx, Or.inl rfl⟩

theorem skipWhite_blank : ∀ (s : List Byte) (b : Bool), ∃ w, s = w ++ (skipWhite b s).1 ∧ Blank w := by
  intro s
  induction s with
  | nil => intro b; exact ⟨[], rfl, fun _ h => by cases h⟩
  | cons c cs ih =>
    intro b
    unfold skipWhite
    by_cases h1 : c = 10
    · rw [if_pos h1]
      obtain ⟨w, hw, hb⟩ := ih true
      refine ⟨c :: w, by rw [List.cons_append, ← hw], ?_⟩
      intro x hx
      rcases List.mem_cons.mp hx with rfl | hx
      · exact Or.inr (Or.inr (Or.inl h1))
      · exact hb x hx
    · rw [if_neg h1]
      by_cases h2 : c = 13 ∨ c = 9 ∨ c = 32
      · rw [if_pos h2]
        obtain ⟨w, hw, hb⟩ := ih b
        refine ⟨c :: w, by rw [List.cons_append, ← hw], ?_⟩
        intro x hx
        rcases List.mem_cons.mp hx with rfl | hx
        · rcases h2 with h | h | h
          · exact Or.inr (Or.inr (Or.inr h))
          · exact Or.inr (Or.inl h)
          · exact Or.inl h
        · exact hb x hx
      · rw [if_neg h2]
        exact ⟨[], rfl, fun _ h => by cases h⟩

theorem skipWhite_lt {c : Byte} {cs : List Byte} {b : Bool} (h : c = 10 ∨ c = 13 ∨ c = 9 ∨ c = 32) :
    (skipWhite b (c :: cs)).1 <:+ cs := by
  unfold skipWhite
  by_cases h1 : c = 10
  · rw [if_pos h1]; exact skipWhite_suf _ _
  · rw [if_neg h1, if_pos (h.resolve_left h1)]; exact skipWhite_suf _ _

theorem readDirective_errs (e : Int) (s : List Byte) :
    ∀ x ∈ (readDirective e s).errs, locAt e s ≤ x.loc ∧ x.loc ≤ locAt e (readDirective e s).rest := by
  unfold readDirective
  cases h : directiveWhite s with
  | none => intro x hx; cases hx
  | some s1 =>
    have h1 := directiveWhite_suf _ _ h
    have h2 := (parseIdentifier_suf true false s1)
    dsimp only
    split
    · intro x hx
      cases List.mem_singleton.mp hx
      exact ⟨locAt_mono (h2.trans h1), locAt_mono (skipLine_suf _)⟩
    · split
      · intro x hx; cases hx
      · split
        · intro x hx; cases hx
        · split
          · intro x hx; cases hx
          · intro x hx
            cases List.mem_singleton.mp hx
            exact ⟨locAt_mono h1, locAt_mono ((skipLine_suf _).trans h2)⟩

/-- All that starts with one byte and is punctuation is one to three bytes that are there. -/
theorem punct_len {angles : Bool} {c : Byte} {s : List Byte} {t : TT} {n : Nat}
    (h : punct angles c s = some (t, n)) :
    punctuationString t = some ((c :: s).take n) ∧ 1 ≤ n ∧ n ≤ (c :: s).length ∧ t ≠ .macro ∧
      t ≠ .endOfFile ∧ t ≠ .identifier := by
  have hn : ∀ {b : Byte} {s : List Byte}, nextIs b s = true → ∃ s', s = b :: s' := by
    intro b s h
    cases s with
    | nil => simp [nextIs] at h
    | cons x xs => simp [nextIs] at h; exact ⟨xs, by rw [h]⟩
  unfold punct at h
  by_cases h123 : c = 123
  · rw [if_pos h123] at h; subst h123
    cases h; refine ⟨rfl, by omega, by simp, ?_, ?_, ?_⟩ <;> (intro h; cases h)
  rw [if_neg h123] at h
  by_cases h125 : c = 125
  · rw [if_pos h125] at h; subst h125
    cases h; refine ⟨rfl, by omega, by simp, ?_, ?_, ?_⟩ <;> (intro h; cases h)
  rw [if_neg h125] at h
  by_cases h59 : c = 59
  · rw [if_pos h59] at h; subst h59
    cases h; refine ⟨rfl, by omega, by simp, ?_, ?_, ?_⟩ <;> (intro h; cases h)
  rw [if_neg h59] at h
  by_cases h40 : c = 40
  · rw [if_pos h40] at h; subst h40
    cases h; refine ⟨rfl, by omega, by simp, ?_, ?_, ?_⟩ <;> (intro h; cases h)
  rw [if_neg h40] at h
  by_cases h41 : c = 41
  · rw [if_pos h41] at h; subst h41
    cases h; refine ⟨rfl, by omega, by simp, ?_, ?_, ?_⟩ <;> (intro h; cases h)
  rw [if_neg h41] at h
  by_cases h60 : c = 60
  · rw [if_pos h60] at h; subst h60
    by_cases hx : nextIs 60 s = true
    · rw [if_pos hx] at h
      obtain ⟨s', rfl⟩ := hn hx
      cases h; refine ⟨rfl, by omega, by simp, ?_, ?_, ?_⟩ <;> (intro h; cases h)
    rw [if_neg hx] at h; clear hx
    by_cases hx : nextIs 61 s = true
    · rw [if_pos hx] at h
      obtain ⟨s', rfl⟩ := hn hx
      cases h; refine ⟨rfl, by omega, by simp, ?_, ?_, ?_⟩ <;> (intro h; cases h)
    rw [if_neg hx] at h; clear hx
    cases h; refine ⟨rfl, by omega, by simp, ?_, ?_, ?_⟩ <;> (intro h; cases h)
  rw [if_neg h60] at h
  by_cases h62 : c = 62
  · rw [if_pos h62] at h; subst h62
    by_cases hx : angles = false ∧ nextIs 62 s = true
    · rw [if_pos hx] at h
      obtain ⟨s', rfl⟩ := hn hx.2
      cases h; refine ⟨rfl, by omega, by simp, ?_, ?_, ?_⟩ <;> (intro h; cases h)
    rw [if_neg hx] at h; clear hx
    by_cases hx : angles = false ∧ nextIs 61 s = true
    · rw [if_pos hx] at h
      obtain ⟨s', rfl⟩ := hn hx.2
      cases h; refine ⟨rfl, by omega, by simp, ?_, ?_, ?_⟩ <;> (intro h; cases h)
    rw [if_neg hx] at h; clear hx
    cases h; refine ⟨rfl, by omega, by simp, ?_, ?_, ?_⟩ <;> (intro h; cases h)
  rw [if_neg h62] at h
  by_cases h91 : c = 91
  · rw [if_pos h91] at h; subst h91
    cases h; refine ⟨rfl, by omega, by simp, ?_, ?_, ?_⟩ <;> (intro h; cases h)
  rw [if_neg h91] at h
  by_cases h93 : c = 93
  · rw [if_pos h93] at h; subst h93
    cases h; refine ⟨rfl, by omega, by simp, ?_, ?_, ?_⟩ <;> (intro h; cases h)
  rw [if_neg h93] at h
  by_cases h58 : c = 58
  · rw [if_pos h58] at h; subst h58
    by_cases hx : nextIs 58 s = true
    · rw [if_pos hx] at h
      obtain ⟨s', rfl⟩ := hn hx
      cases h; refine ⟨rfl, by omega, by simp, ?_, ?_, ?_⟩ <;> (intro h; cases h)
    rw [if_neg hx] at h; clear hx
    cases h; refine ⟨rfl, by omega, by simp, ?_, ?_, ?_⟩ <;> (intro h; cases h)
  rw [if_neg h58] at h
  by_cases h44 : c = 44
  · rw [if_pos h44] at h; subst h44
    cases h; refine ⟨rfl, by omega, by simp, ?_, ?_, ?_⟩ <;> (intro h; cases h)
  rw [if_neg h44] at h
  by_cases h63 : c = 63
  · rw [if_pos h63] at h; subst h63
    cases h; refine ⟨rfl, by omega, by simp, ?_, ?_, ?_⟩ <;> (intro h; cases h)
  rw [if_neg h63] at h
  by_cases h61 : c = 61
  · rw [if_pos h61] at h; subst h61
    by_cases hx : nextIs 61 s = true
    · rw [if_pos hx] at h
      obtain ⟨s', rfl⟩ := hn hx
      cases h; refine ⟨rfl, by omega, by simp, ?_, ?_, ?_⟩ <;> (intro h; cases h)
    rw [if_neg hx] at h; clear hx
    cases h; refine ⟨rfl, by omega, by simp, ?_, ?_, ?_⟩ <;> (intro h; cases h)
  rw [if_neg h61] at h
  by_cases h42 : c = 42
  · rw [if_pos h42] at h; subst h42
    by_cases hx : nextIs 61 s = true
    · rw [if_pos hx] at h
      obtain ⟨s', rfl⟩ := hn hx
      cases h; refine ⟨rfl, by omega, by simp, ?_, ?_, ?_⟩ <;> (intro h; cases h)
    rw [if_neg hx] at h; clear hx
    cases h; refine ⟨rfl, by omega, by simp, ?_, ?_, ?_⟩ <;> (intro h; cases h)
  rw [if_neg h42] at h
  by_cases h37 : c = 37
  · rw [if_pos h37] at h; subst h37
    cases h; refine ⟨rfl, by omega, by simp, ?_, ?_, ?_⟩ <;> (intro h; cases h)
  rw [if_neg h37] at h
  by_cases h38 : c = 38
  · rw [if_pos h38] at h; subst h38
    by_cases hx : nextIs 38 s = true
    · rw [if_pos hx] at h
      obtain ⟨s', rfl⟩ := hn hx
      cases h; refine ⟨rfl, by omega, by simp, ?_, ?_, ?_⟩ <;> (intro h; cases h)
    rw [if_neg hx] at h; clear hx
    cases h; refine ⟨rfl, by omega, by simp, ?_, ?_, ?_⟩ <;> (intro h; cases h)
  rw [if_neg h38] at h
  by_cases h124 : c = 124
  · rw [if_pos h124] at h; subst h124
    by_cases hx : nextIs 124 s = true
    · rw [if_pos hx] at h
      obtain ⟨s', rfl⟩ := hn hx
      cases h; refine ⟨rfl, by omega, by simp, ?_, ?_, ?_⟩ <;> (intro h; cases h)
    rw [if_neg hx] at h; clear hx
    cases h; refine ⟨rfl, by omega, by simp, ?_, ?_, ?_⟩ <;> (intro h; cases h)
  rw [if_neg h124] at h
  by_cases h43 : c = 43
  · rw [if_pos h43] at h; subst h43
    by_cases hx : nextIs 43 s = true
    · rw [if_pos hx] at h
      obtain ⟨s', rfl⟩ := hn hx
      cases h; refine ⟨rfl, by omega, by simp, ?_, ?_, ?_⟩ <;> (intro h; cases h)
    rw [if_neg hx] at h; clear hx
    by_cases hx : nextIs 61 s = true
    · rw [if_pos hx] at h
      obtain ⟨s', rfl⟩ := hn hx
      cases h; refine ⟨rfl, by omega, by simp, ?_, ?_, ?_⟩ <;> (intro h; cases h)
    rw [if_neg hx] at h; clear hx
    cases h; refine ⟨rfl, by omega, by simp, ?_, ?_, ?_⟩ <;> (intro h; cases h)
  rw [if_neg h43] at h
  by_cases h45 : c = 45
  · rw [if_pos h45] at h; subst h45
    by_cases hx : nextIs 45 s = true
    · rw [if_pos hx] at h
      obtain ⟨s', rfl⟩ := hn hx
      cases h; refine ⟨rfl, by omega, by simp, ?_, ?_, ?_⟩ <;> (intro h; cases h)
    rw [if_neg hx] at h; clear hx
    by_cases hx : nextIs 61 s = true
    · rw [if_pos hx] at h
      obtain ⟨s', rfl⟩ := hn hx
      cases h; refine ⟨rfl, by omega, by simp, ?_, ?_, ?_⟩ <;> (intro h; cases h)
    rw [if_neg hx] at h; clear hx
    by_cases hx : nextIs 62 s = true
    · rw [if_pos hx] at h
      obtain ⟨s', rfl⟩ := hn hx
      cases h; refine ⟨rfl, by omega, by simp, ?_, ?_, ?_⟩ <;> (intro h; cases h)
    rw [if_neg hx] at h; clear hx
    cases h; refine ⟨rfl, by omega, by simp, ?_, ?_, ?_⟩ <;> (intro h; cases h)
  rw [if_neg h45] at h
  by_cases h46 : c = 46
  · rw [if_pos h46] at h; subst h46
    by_cases hx : nextIs 46 s = true ∧ nextIs 46 (s.drop 1) = true
    · rw [if_pos hx] at h
      obtain ⟨s', rfl⟩ := hn hx.1
      obtain ⟨s'', hs⟩ := hn hx.2
      rw [List.drop_one, List.tail_cons] at hs; subst hs
      cases h; refine ⟨rfl, by omega, by simp, ?_, ?_, ?_⟩ <;> (intro h; cases h)
    rw [if_neg hx] at h; clear hx
    cases h; refine ⟨rfl, by omega, by simp, ?_, ?_, ?_⟩ <;> (intro h; cases h)
  rw [if_neg h46] at h
  by_cases h126 : c = 126
  · rw [if_pos h126] at h; subst h126
    cases h; refine ⟨rfl, by omega, by simp, ?_, ?_, ?_⟩ <;> (intro h; cases h)
  rw [if_neg h126] at h
  by_cases h94 : c = 94
  · rw [if_pos h94] at h; subst h94
    cases h; refine ⟨rfl, by omega, by simp, ?_, ?_, ?_⟩ <;> (intro h; cases h)
  rw [if_neg h94] at h
  by_cases h33 : c = 33
  · rw [if_pos h33] at h; subst h33
    by_cases hx : nextIs 61 s = true
    · rw [if_pos hx] at h
      obtain ⟨s', rfl⟩ := hn hx
      cases h; refine ⟨rfl, by omega, by simp, ?_, ?_, ?_⟩ <;> (intro h; cases h)
    rw [if_neg hx] at h; clear hx
    cases h; refine ⟨rfl, by omega, by simp, ?_, ?_, ?_⟩ <;> (intro h; cases h)
  rw [if_neg h33] at h
  cases h

/-- What one pass reads: at least one byte; errors are inside of it; what is skipped without an error is
white space; and the types of tokens. -/
theorem lex_spec {angles : Bool} {e : Int} {start : Bool} {s : List Byte} {L : Lex}
    (h : lex angles e start s = some L) :
    L.rest <:+ s ∧ L.rest.length < s.length ∧
      (∀ x ∈ L.errs, locAt e s ≤ x.loc ∧ x.loc ≤ locAt e L.rest) ∧
      (∀ r errs st, L = .skip r errs st → errs = [] → Blank (upTo s r)) ∧
      (∀ t r errs st i, L = .tok t r errs st i → t ≠ .macro ∧ t ≠ .endOfFile ∧ t ≠ .identifier) := by
  cases s with
  | nil => cases h
  | cons c cs =>
  have hcs : cs <:+ c :: cs := List.suffix_cons _ _
  unfold lex at h
  dsimp only at h
  by_cases h1 : c = 10 ∨ c = 13 ∨ c = 9 ∨ c = 32
  · rw [if_pos h1] at h
    cases h
    refine ⟨skipWhite_suf _ _, ?_, fun x hx => (by cases hx), ?_, by intro t r errs st i h; cases h⟩
    · have := (skipWhite_lt (b := start) (cs := cs) h1).length_le
      simp only [Lex.rest, List.length_cons]
      omega
    · intro r errs st h _
      cases h
      obtain ⟨w, hw, hb⟩ := skipWhite_blank (c :: cs) start
      have : upTo (c :: cs) (skipWhite start (c :: cs)).1 = w := by
        have := upTo_append (skipWhite_suf (c :: cs) start)
        exact List.append_cancel_right (this.trans hw)
      rw [this]; exact hb
  rw [if_neg h1] at h
  by_cases h2 : c = 35
  · rw [if_pos h2] at h
    by_cases hst : start = true
    · rw [if_pos hst] at h
      cases h
      have hs := readDirective_suf e cs
      refine ⟨suf_cons hs, ?_, ?_, (by intro r errs st h; cases h), ?_⟩
      · have := hs.length_le
        simp only [Lex.rest, List.length_cons]; omega
      · intro x hx
        have := readDirective_errs e cs x hx
        exact ⟨Int.le_trans (locAt_mono hcs) this.1, this.2⟩
      · intro t r errs st i h
        cases h
        refine ⟨?_, ?_, ?_⟩ <;> (intro h; cases h)
    · rw [if_neg hst] at h
      cases h
      refine ⟨hcs, by simp [Lex.rest], ?_, ?_, by intro t r errs st i h; cases h⟩
      · intro x hx
        cases List.mem_singleton.mp hx
        exact ⟨Int.le_refl _, locAt_mono hcs⟩
      · intro r errs st h he
        cases h
        cases he
  rw [if_neg h2] at h
  by_cases h3 : c = 47
  · rw [if_pos h3] at h
    cases cs with
    | nil =>
      cases h
      refine ⟨List.nil_suffix, by simp [Lex.rest], fun x hx => (by cases hx), (by intro r errs st h; cases h), ?_⟩
      intro t r errs st i h
      cases h
      refine ⟨?_, ?_, ?_⟩ <;> (intro h; cases h)
    | cons d ds =>
      dsimp only at h
      by_cases h4 : d = 47
      · rw [if_pos h4] at h
        cases h
        have hs := skipLine_suf ds
        refine ⟨suf_cons (suf_cons hs), ?_, fun x hx => (by cases hx), (by intro r errs st h; cases h), ?_⟩
        · have := hs.length_le
          simp only [Lex.rest, List.length_cons]; omega
        · intro t r errs st i h
          cases h
          refine ⟨?_, ?_, ?_⟩ <;> (intro h; cases h)
      rw [if_neg h4] at h
      by_cases h5 : d = 42
      · rw [if_pos h5] at h
        cases hs : Esc.scanLoop [42, 47] 0 ds with
        | none =>
          rw [hs] at h
          cases h
          refine ⟨List.nil_suffix, by simp [Lex.rest], ?_, ?_, by intro t r errs st i h; cases h⟩
          · intro x hx
            cases List.mem_singleton.mp hx
            exact ⟨locAt_mono List.nil_suffix, Int.le_refl _⟩
          · intro r errs st h he
            cases h
            cases he
        | some r =>
          rw [hs] at h
          cases h
          have hr := scanLoop_suf _ _ _ _ hs
          refine ⟨suf_cons (suf_cons hr.1), ?_, fun x hx => (by cases hx), (by intro r errs st h; cases h), ?_⟩
          · simp only [Lex.rest, List.length_cons]; omega
          · intro t r errs st i h
            cases h
            refine ⟨?_, ?_, ?_⟩ <;> (intro h; cases h)
      rw [if_neg h5] at h
      by_cases h6 : d = 61
      · rw [if_pos h6] at h
        cases h
        refine ⟨suf_cons (List.suffix_cons _ _), ?_, fun x hx => (by cases hx), (by intro r errs st h; cases h), ?_⟩
        · simp only [Lex.rest, List.length_cons]; omega
        · intro t r errs st i h
          cases h
          refine ⟨?_, ?_, ?_⟩ <;> (intro h; cases h)
      rw [if_neg h6] at h
      cases h
      refine ⟨hcs, by simp [Lex.rest], fun x hx => (by cases hx), (by intro r errs st h; cases h), ?_⟩
      intro t r errs st i h
      cases h
      refine ⟨?_, ?_, ?_⟩ <;> (intro h; cases h)
  rw [if_neg h3] at h
  cases hp : punct angles c cs with
  | some q =>
    obtain ⟨t, n⟩ := q
    rw [hp] at h
    cases h
    obtain ⟨_, hn1, hn2, hm, he, hi⟩ := punct_len hp
    refine ⟨List.drop_suffix _ _, ?_, fun x hx => (by cases hx), (by intro r errs st h; cases h), ?_⟩
    · simp only [Lex.rest, List.length_drop]; omega
    · intro t r errs st i h
      cases h
      exact ⟨hm, he, hi⟩
  | none =>
    rw [hp] at h
    dsimp only at h
    by_cases h7 : c = 39 ∨ c = 34
    · rw [if_pos h7] at h
      cases hr : readString c cs with
      | none =>
        rw [hr] at h
        cases h
        refine ⟨List.nil_suffix, by simp [Lex.rest], ?_, ?_, by intro t r errs st i h; cases h⟩
        · intro x hx
          cases List.mem_singleton.mp hx
          exact ⟨locAt_mono List.nil_suffix, Int.le_refl _⟩
        · intro r errs st h he
          cases h
          cases he
      | some r =>
        rw [hr] at h
        cases h
        have hs := readString_suf _ _ _ _ (Nat.le_refl _) hr
        refine ⟨suf_cons hs.1, ?_, fun x hx => (by cases hx), (by intro r errs st h; cases h), ?_⟩
        · simp only [Lex.rest, List.length_cons]; omega
        · intro t r errs st i h
          cases h
          refine ⟨?_, ?_, ?_⟩ <;> (intro h; cases h)
    rw [if_neg h7] at h
    unfold readIdentifierOrLiteral at h
    dsimp only at h
    by_cases h8 : 48 ≤ c ∧ c ≤ 57
    · rw [if_pos h8] at h
      simp only [reduceCtorEq, if_false] at h
      cases h
      have hs := numeric_suf (cs := cs) h8
      refine ⟨suf_cons hs, ?_, fun x hx => (by cases hx), (by intro r errs st h; cases h), ?_⟩
      · have := hs.length_le
        simp only [Lex.rest, List.length_cons]; omega
      · intro t r errs st i h
        cases h
        refine ⟨?_, ?_, ?_⟩ <;> (intro h; cases h)
    rw [if_neg h8] at h
    cases hi : identLoop e (locAt e (c :: cs)) c ((c :: cs).length + 1) 0 [] (c :: cs) with
    | none => rw [hi] at h; cases h
    | some q =>
      obtain ⟨t, r, errs⟩ := q
      rw [hi] at h
      obtain ⟨i1, i2, i3, i4⟩ := identLoop_spec _ _ _ _ _ _ _ _ _ _ hi (Int.le_refl _)
        (fun x hx => by cases hx)
      have hlt := i2 rfl
      dsimp only at h
      rcases i4 with rfl | rfl | ⟨rfl, hne⟩
      · rw [if_pos rfl] at h
        cases h
        exact ⟨i1, hlt, i3, (by intro r errs st h; cases h), (by intro t r errs st i h; cases h)⟩
      · simp only [reduceCtorEq, if_false] at h
        cases h
        refine ⟨i1, hlt, i3, (by intro r errs st h; cases h), ?_⟩
        intro t r errs st i h
        cases h
        refine ⟨?_, ?_, ?_⟩ <;> (intro h; cases h)
      · simp only [reduceCtorEq, if_false, if_true] at h
        cases h
        refine ⟨i1, hlt, i3, ?_, (by intro t r errs st i h; cases h)⟩
        intro r errs st h he
        cases h
        exact absurd he hne

end Verif.Cpp
