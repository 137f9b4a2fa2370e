import Verif.Crowbar.PropsTok
import Verif.Crowbar.LemmasMono

/-!
# Parsing ends: lemmas
-/

namespace Verif.Crowbar
open Verif

/-- From `s`, `m` does not run out of nested calls, and if it returns then as described. -/
def wp (m : P α) (s : PS) (Q : α → PS → Prop) : Prop :=
  match m s with
  | .ok (a, s') => Q a s'
  | .assert => True
  | .deep => False

theorem wp_pure {a : α} {s : PS} {Q : α → PS → Prop} (h : Q a s) : wp (pure a) s Q := h

theorem wp_assert {s : PS} {Q : α → PS → Prop} : wp failAssert s Q := trivial

theorem wp_bind {m : P α} {f : α → P β} {s : PS} {Q : β → PS → Prop} (h : wp m s fun a s' => wp (f a) s' Q) :
    wp (m >>= f) s Q := by
  change match P.bind m f s with | .ok (a, s') => Q a s' | .assert => True | .deep => False
  unfold wp at h
  unfold P.bind
  cases hm : m s with
  | ok r => rw [hm] at h; exact h
  | assert => trivial
  | deep => rw [hm] at h; exact h

theorem wp_mono {m : P α} {s : PS} {Q R : α → PS → Prop} (h : wp m s Q) (hqr : ∀ a s', Q a s' → R a s') : wp m s R := by
  unfold wp at h ⊢
  split
  · rename_i e; rw [e] at h; exact hqr _ _ h
  · trivial
  · rename_i e; rw [e] at h; exact h

theorem wp_ite {c : Prop} [Decidable c] {a b : P α} {s : PS} {Q : α → PS → Prop} (h : c → wp a s Q) (h' : ¬ c → wp b s Q) :
    wp (if c then a else b) s Q := by
  split
  · exact h ‹_›
  · exact h' ‹_›

theorem wp_withNl {b : Bool} {m : P α} {s : PS} {Q : α → PS → Prop}
    (h : wp m { s with nl := b } fun a s' => Q a { s' with nl := s.nl }) : wp (withNl b m) s Q := by
  unfold wp at h ⊢
  unfold withNl
  cases hm : m { s with nl := b } with
  | ok r => rw [hm] at h; exact h
  | assert => trivial
  | deep => rw [hm] at h; exact h

theorem wp_withInStr {b : Bool} {m : P α} {s : PS} {Q : α → PS → Prop}
    (h : wp m { s with inStr := b } fun a s' => Q a { s' with inStr := s.inStr }) : wp (withInStr b m) s Q := by
  unfold wp at h ⊢
  unfold withInStr
  cases hm : m { s with inStr := b } with
  | ok r => rw [hm] at h; exact h
  | assert => trivial
  | deep => rw [hm] at h; exact h

theorem wp_withAccept {f : Accept → Accept} {m : P α} {s : PS} {Q : α → PS → Prop}
    (h : wp m { s with acc := f s.acc } fun a s' => Q a { s' with acc := s.acc }) : wp (withAccept f m) s Q := by
  unfold wp at h ⊢
  unfold withAccept
  cases hm : m { s with acc := f s.acc } with
  | ok r => rw [hm] at h; exact h
  | assert => trivial
  | deep => rw [hm] at h; exact h

/-- What is left to read: bytes count twice, a token that was pushed back once. -/
def left (s : PS) : Nat := 2 * s.src.length + (match s.back with | some _ => 1 | none => 0)

/-- Reading goes on, the switches are as before. -/
structure Step (s s' : PS) : Prop where
  le : left s' ≤ left s
  suf : s'.src <:+ s.src
  nl : s'.nl = s.nl
  inStr : s'.inStr = s.inStr
  acc : s'.acc = s.acc

theorem Step.refl (s : PS) : Step s s := ⟨Nat.le_refl _, List.suffix_refl _, rfl, rfl, rfl⟩

theorem Step.trans {a b c : PS} (h : Step a b) (h' : Step b c) : Step a c :=
  ⟨Nat.le_trans h'.le h.le, h'.suf.trans h.suf, h'.nl.trans h.nl, h'.inStr.trans h.inStr, h'.acc.trans h.acc⟩

theorem Step.unNl {s s' : PS} {b : Bool} (h : Step { s with nl := b } s') : Step s { s' with nl := s.nl } :=
  ⟨h.le, h.suf, rfl, h.inStr, h.acc⟩

theorem Step.unInStr {s s' : PS} {b : Bool} (h : Step { s with inStr := b } s') : Step s { s' with inStr := s.inStr } :=
  ⟨h.le, h.suf, h.nl, rfl, h.acc⟩

theorem Step.unAcc {s s' : PS} {b : Accept} (h : Step { s with acc := b } s') : Step s { s' with acc := s.acc } :=
  ⟨h.le, h.suf, h.nl, h.inStr, rfl⟩

theorem wp_mute {b : Bool} {s : PS} {Q : Unit → PS → Prop} (h : ∀ s', Step s s' → left s' = left s → s'.back = s.back → Q () s') :
    wp (setMute b) s Q := h _ ⟨Nat.le_refl _, List.suffix_refl _, rfl, rfl, rfl⟩ rfl rfl

theorem strPart_suffix {x c q : List Byte} (h : StrPart x c q) : q <:+ x ∧ (c ≠ [] → q.length < x.length) := by
  induction h with
  | quote r => exact ⟨List.suffix_refl _, fun h => absurd rfl h⟩
  | embed r => exact ⟨List.suffix_refl _, fun h => absurd rfl h⟩
  | escaped d h ih =>
    refine ⟨ih.1.trans ((List.suffix_cons ..).trans (List.suffix_cons ..)), fun _ => ?_⟩
    have := ih.1.length_le
    simp only [List.length_cons]; omega
  | plain d _ _ _ _ ih =>
    refine ⟨ih.1.trans (List.suffix_cons ..), fun _ => ?_⟩
    have := ih.1.length_le
    simp only [List.length_cons]; omega

theorem readStr_rest {x : List Byte} {ty : TokTy} {t r : List Byte} (h : readStr [] x = some (ty, t, r)) :
    r <:+ x ∧ r.length < x.length := by
  obtain ⟨c, q, h1, h2, h3⟩ := strPart_of _ _ _ _ _ _ (Nat.le_refl _) h
  rw [List.nil_append] at h2 h3
  obtain ⟨hs, hl⟩ := strPart_suffix h1
  by_cases hc : c = []
  · rcases (h2 hc).2 with ⟨-, e⟩ | ⟨-, e⟩
    · subst e
      have := hs.length_le
      exact ⟨(List.suffix_cons ..).trans hs, by simp only [List.length_cons] at this; omega⟩
    · subst e
      have := hs.length_le
      exact ⟨((List.suffix_cons ..).trans (List.suffix_cons ..)).trans hs, by simp only [List.length_cons] at this; omega⟩
  · obtain ⟨-, -, e⟩ := h3 hc
    subst e
    exact ⟨hs, hl hc⟩

theorem shape_text {ty : TokTy} {text rest : List Byte} (h : Shape ty text rest) (ht : ty ≠ .endOfFile) : text ≠ [] := by
  intro e
  subst e
  cases ty <;> simp_all [Shape, Word]

theorem lex_rest (total : Nat) (nl : Bool) (src : List Byte) : (lex total nl src).2 <:+ src ∧
    ((lex total nl src).1.ty ≠ .endOfFile → (lex total nl src).2.length < src.length) := by
  obtain ⟨gap, h1, -, h3, -⟩ := C63_token total nl src (lex total nl src).1 (lex total nl src).2 rfl
  constructor
  · exact ⟨gap ++ (lex total nl src).1.text, by rw [List.append_assoc]; exact h1.symm⟩
  · intro h
    have := shape_text h3 h
    have h2 := congrArg List.length h1
    simp only [List.length_append] at h2
    have : 0 < (lex total nl src).1.text.length := List.length_pos_iff.mpr this
    omega

/-- What reading a token does. -/
structure Got (s : PS) (t : Tok) (s' : PS) : Prop where
  step : Step s s'
  back : s'.back = none
  less : t.ty ≠ .endOfFile → left s' < left s
  same : ∀ t', s.back = some t' → t'.ty ≠ .newLine → t = t'

theorem fresh_got {s s' : PS} {t : Tok} (hb : s.back = none) (h : freshTok s = .ok (t, s')) : Got s t s' := by
  have hl : left s = 2 * s.src.length := by unfold left; rw [hb]; rfl
  unfold freshTok at h
  split at h
  · split at h
    · cases h
      exact ⟨Step.refl _, hb, fun h => absurd rfl h, fun t' ht => by rw [hb] at ht; cases ht⟩
    · split at h
      · cases h
      · rename_i e
        cases h
        have := readStr_rest e
        have hl' : ∀ r, left { s with src := r } = 2 * r.length := fun r => by unfold left; dsimp only; rw [hb]; rfl
        exact ⟨⟨by rw [hl, hl']; omega, this.1, rfl, rfl, rfl⟩, hb, fun _ => by rw [hl, hl']; omega,
          fun t' ht => by rw [hb] at ht; cases ht⟩
  · have := lex_rest s.total s.nl s.src
    have hl' : ∀ r, left { s with src := r } = 2 * r.length := fun r => by unfold left; dsimp only; rw [hb]; rfl
    have e1 : t = (lex s.total s.nl s.src).1 := by cases h; rfl
    have e2 : s' = { s with src := (lex s.total s.nl s.src).2 } := by cases h; rfl
    subst e1 e2
    have := this.1.length_le
    exact ⟨⟨by rw [hl, hl']; omega, (lex_rest s.total s.nl s.src).1, rfl, rfl, rfl⟩, hb,
      fun h => by have := (lex_rest s.total s.nl s.src).2 h; rw [hl, hl']; omega,
      fun t' ht => by rw [hb] at ht; cases ht⟩

theorem fresh_notDeep (s : PS) : freshTok s ≠ .deep := by
  unfold freshTok
  split
  · split
    · simp
    · split <;> simp
  · simp

theorem wp_read {s : PS} {Q : Tok → PS → Prop} (h : ∀ t s', Got s t s' → Q t s') : wp read s Q := by
  unfold wp
  cases hr : read s with
  | ok r =>
    obtain ⟨t, s'⟩ := r
    refine h t s' ?_
    unfold read at hr
    split at hr
    · rename_i t0 hb
      have hl : left s = 2 * s.src.length + 1 := by unfold left; rw [hb]
      split at hr
      · rename_i hc
        obtain ⟨g1, g2, g3, -⟩ := fresh_got rfl hr
        have hl0 : left { s with back := none } = 2 * s.src.length := rfl
        refine ⟨⟨?_, g1.suf, g1.nl, g1.inStr, g1.acc⟩, g2, fun _ => ?_, fun t' ht' hn => ?_⟩
        · have := g1.le; omega
        · have := g1.le; omega
        · rw [hb] at ht'; cases ht'; exact absurd hc.1 hn
      · cases hr
        have hl0 : left { s with back := none } = 2 * s.src.length := rfl
        exact ⟨⟨by omega, List.suffix_refl _, rfl, rfl, rfl⟩, rfl, fun _ => by omega,
          fun t' ht' _ => by rw [hb] at ht'; cases ht'; rfl⟩
    · rename_i hb
      exact fresh_got hb hr
  | assert => trivial
  | deep =>
    unfold read at hr
    split at hr
    · split at hr
      · exact absurd hr (fresh_notDeep _)
      · cases hr
    · exact absurd hr (fresh_notDeep _)

/-- Pushing a token back after reading it: nothing more is left than before. -/
theorem wp_rewind {s : PS} {t : Tok} {Q : Unit → PS → Prop}
    (h : ∀ s', (t.ty = .endOfFile → s' = s) → (t.ty ≠ .endOfFile → s' = { s with back := some t }) → Q () s') :
    wp (rewind t) s Q := by
  unfold wp rewind
  split <;> rename_i e
  · split at e
    · rename_i ht; cases e; exact h _ (fun _ => rfl) (fun h => absurd ht h)
    · rename_i ht; cases e; exact h _ (fun h => absurd h ht) (fun _ => rfl)
  · trivial
  · split at e <;> cases e

theorem back_le (s : PS) (t : Tok) : left { s with back := some t } ≤ left s + 1 := by
  unfold left
  dsimp only
  omega

/-- Reading a token and pushing it back. -/
theorem rewound {s s1 s' : PS} {t : Tok} (g : Got s t s1) (h1 : t.ty = .endOfFile → s' = s1)
    (h2 : t.ty ≠ .endOfFile → s' = { s1 with back := some t }) : Step s s' := by
  by_cases ht : t.ty = .endOfFile
  · rw [h1 ht]; exact g.step
  · rw [h2 ht]
    have := g.less ht
    have := back_le s1 t
    exact ⟨by omega, g.step.suf, g.step.nl, g.step.inStr, g.step.acc⟩

/-- Going from `s` to `s'` took something, or the token `t` is still the next one. -/
structure Stay (s : PS) (t : Tok) (go : Bool) (s' : PS) : Prop where
  le : left s' ≤ left s + (if go then 0 else 1)
  eof : t.ty = .endOfFile → s' = s ∧ go = false
  suf : s'.src <:+ s.src
  nl : s'.nl = s.nl
  inStr : s'.inStr = s.inStr
  acc : s'.acc = s.acc
  free : s.acc = ⟨false, false, false⟩ → left s' ≤ left s

theorem wp_okToStay {s : PS} {t : Tok} {Q : Bool → PS → Prop} (h : ∀ b s', Stay s t b s' → (b = true → s' = s) → Q b s') :
    wp (okToStay t) s Q := by
  have hb := back_le s t
  have e1 : ∀ P : Prop, t.ty = .closeCurly ∨ t.ty = .closeParen ∨ t.ty = .closeSquare → t.ty = .endOfFile → P := by
    intro P h h'
    rw [h'] at h
    rcases h with h | h | h <;> cases h
  unfold wp okToStay
  by_cases h1 : t.ty = .closeCurly ∧ s.acc.curly = true
  · rw [if_pos h1]
    exact h _ _ ⟨by simpa using hb, e1 _ (.inl h1.1), List.suffix_refl _, rfl, rfl, rfl,
      fun h => by rw [h] at h1; exact absurd h1.2 (by simp)⟩ (by simp)
  rw [if_neg h1]
  by_cases h2 : t.ty = .closeParen ∧ s.acc.paren = true
  · rw [if_pos h2]
    exact h _ _ ⟨by simpa using hb, e1 _ (.inr (.inl h2.1)), List.suffix_refl _, rfl, rfl, rfl,
      fun h => by rw [h] at h2; exact absurd h2.2 (by simp)⟩ (by simp)
  rw [if_neg h2]
  by_cases h3 : t.ty = .closeSquare ∧ s.acc.square = true
  · rw [if_pos h3]
    exact h _ _ ⟨by simpa using hb, e1 _ (.inr (.inr h3.1)), List.suffix_refl _, rfl, rfl, rfl,
      fun h => by rw [h] at h3; exact absurd h3.2 (by simp)⟩ (by simp)
  rw [if_neg h3]
  by_cases h4 : t.ty = .endOfFile
  · rw [if_pos h4]
    exact h _ _ ⟨by simp, fun _ => ⟨rfl, rfl⟩, List.suffix_refl _, rfl, rfl, rfl, fun _ => Nat.le_refl _⟩ (by simp)
  · rw [if_neg h4]
    exact h _ _ ⟨by simp, fun h => absurd h h4, List.suffix_refl _, rfl, rfl, rfl, fun _ => Nat.le_refl _⟩ (fun _ => rfl)

theorem ends_skip (n : Nat) :
    (∀ t s, 4 * left s + 2 ≤ n → wp (skipAnyScope n t) s fun _ s' => Step s s') ∧
    (∀ t s, 4 * left s + 1 ≤ n → wp (skipLoop n t) s fun _ s' => Step s s') := by
  induction n with
  | zero => exact ⟨fun t s h => by omega, fun t s h => by omega⟩
  | succ n ih =>
    obtain ⟨h1, h2⟩ := ih
    constructor
    · intro t s hn
      rw [skipAnyScope]
      refine wp_withAccept (wp_mono (h2 _ _ (show 4 * left s + 1 ≤ n by omega)) fun _ s' h => h.unAcc)
    · intro t s hn
      rw [skipLoop]
      refine wp_bind (wp_read fun tk s1 g => ?_)
      refine wp_ite (fun _ => wp_pure g.step) fun _ => ?_
      refine wp_bind (wp_okToStay fun b s2 st hs => ?_)
      refine wp_ite (fun hb => ?_) fun hb => ?_
      · refine wp_bind (wp_mute fun s3 h3 _ _ => wp_pure (Step.trans ?_ h3))
        refine ⟨?_, st.suf.trans g.step.suf, st.nl.trans g.step.nl, st.inStr.trans g.step.inStr, st.acc.trans g.step.acc⟩
        by_cases he : tk.ty = .endOfFile
        · rw [(st.eof he).1]; exact g.step.le
        · have := g.less he
          have := st.le
          rw [hb] at this
          simp at this
          omega
      · have hb : b = true := by simpa using hb
        have hs := hs hb
        subst hs
        have he : tk.ty ≠ .endOfFile := fun he => by rw [(st.eof he).2] at hb; cases hb
        have := g.less he
        refine wp_ite (fun _ => ?_) fun _ => ?_
        · refine wp_bind (wp_mono (h1 _ _ (by omega)) fun _ s3 h3 => ?_)
          have := h3.le
          exact wp_mono (h2 _ _ (by omega)) fun _ s4 h4 => (g.step.trans h3).trans h4
        · exact wp_mono (h2 _ _ (by omega)) fun _ s4 h4 => g.step.trans h4

/-- An error at the token read last, `s` is the state before reading it. -/
theorem ends_error (n : Nat) (t : Tok) (a : Action) (k : ErrKind) (s s1 : PS) (g : Got s t s1) (hn : 4 * left s ≤ n + 2) :
    wp (error n t a k) s1 fun go s' => Step s s' ∧ (a = .doNothing → left s' = left s1 ∧ s'.back = s1.back ∧ Step s1 s') ∧
      (a = .handle → t.ty = .endOfFile → Step s1 s' ∧ s'.src = s1.src ∧ s'.back = s1.back ∧ go = false) ∧
      (a = .handle → (s1.acc = ⟨false, false, false⟩ ∨ go = true) → Step s1 s') := by
  unfold error
  refine wp_bind ?_
  have key : ∀ s2 : PS, left s2 = left s1 → s2.src = s1.src → s2.back = s1.back → s2.nl = s1.nl → s2.inStr = s1.inStr → s2.acc = s1.acc →
      wp (match a with
        | .handle => handleUnexpected n t
        | .pushBack => do
          rewind t
          pure false
        | .doNothing => pure false) s2 fun go s' => Step s s' ∧ (a = .doNothing → left s' = left s1 ∧ s'.back = s1.back ∧ Step s1 s') ∧
      (a = .handle → t.ty = .endOfFile → Step s1 s' ∧ s'.src = s1.src ∧ s'.back = s1.back ∧ go = false) ∧
      (a = .handle → (s1.acc = ⟨false, false, false⟩ ∨ go = true) → Step s1 s') := by
    intro s2 el es eb en ei ea
    have st2 : Step s1 s2 := ⟨by omega, by rw [es]; exact List.suffix_refl _, en, ei, ea⟩
    cases a with
    | doNothing =>
      exact wp_pure ⟨g.step.trans st2, fun _ => ⟨el, eb, st2⟩, (nomatch ·), (nomatch ·)⟩
    | pushBack =>
      dsimp only
      refine wp_bind (wp_rewind fun s' e1 e2 => wp_pure ⟨?_, (nomatch ·), (nomatch ·), (nomatch ·)⟩)
      by_cases ht : t.ty = .endOfFile
      · rw [e1 ht]; exact g.step.trans st2
      · rw [e2 ht]
        have := g.less ht
        have := back_le s2 t
        have h2 := g.step.trans st2
        exact ⟨by omega, h2.suf, h2.nl, h2.inStr, h2.acc⟩
    | handle =>
      dsimp only
      unfold handleUnexpected
      refine wp_bind (wp_okToStay fun b s3 st hs => ?_)
      refine wp_ite (fun hb => ?_) fun hb => ?_
      · subst hb
        have hle : left s3 ≤ left s := by
          by_cases ht : t.ty = .endOfFile
          · rw [(st.eof ht).1]; have := g.step.le; omega
          · have := g.less ht
            have := st.le
            simp at this
            omega
        have h2 := g.step.trans st2
        refine wp_pure ⟨⟨hle, st.suf.trans h2.suf, st.nl.trans h2.nl, st.inStr.trans h2.inStr, st.acc.trans h2.acc⟩,
          (nomatch ·), fun _ ht => ?_, fun _ hf => ?_⟩
        · rw [(st.eof ht).1]
          exact ⟨st2, es, eb, rfl⟩
        · have hf : s1.acc = _ := hf.resolve_right (by simp)
          have := st.free (ea.trans hf)
          exact ⟨by omega, st.suf.trans st2.suf, st.nl.trans en, st.inStr.trans ei, st.acc.trans ea⟩
      · have hb : b = true := by simpa using hb
        have hs := hs hb
        subst hs
        have ht : t.ty ≠ .endOfFile := fun he => by rw [(st.eof he).2] at hb; cases hb
        refine wp_ite (fun _ => ?_) fun _ => ?_
        · have := g.less ht
          refine wp_bind (wp_mono ((ends_skip n).1 _ _ (by omega)) fun _ s4 h4 => wp_pure ?_)
          exact ⟨(g.step.trans st2).trans h4, (nomatch ·), fun _ h => absurd h ht, fun _ _ => st2.trans h4⟩
        · exact wp_pure ⟨g.step.trans st2, (nomatch ·), fun _ h => absurd h ht, fun _ _ => st2⟩
  exact key _ rfl rfl rfl rfl rfl rfl

theorem toUn_eof {ty : TokTy} {op : UnOp} (h : toUn ty = some op) : ty ≠ .endOfFile := by
  intro e; rw [e] at h; cases h

theorem toBin_eof {ty : TokTy} {op : BinOp} (h : toBin ty = some op) : ty ≠ .endOfFile := by
  intro e; rw [e] at h; cases h

/-- What is true after parsing an expression. -/
structure After (s : PS) (e : Expr) (s' : PS) : Prop where
  step : Step s s'
  full : e.isNull = false → left s' < left s
  stay : ∀ t, s.back = some t → t.ty ≠ .newLine → t.ty ≠ .endOfFile → left s' < left s ∨ s'.back = some t

theorem After.of_less {s s1 s' : PS} {e : Expr} (h1 : Step s s1) (h2 : left s1 < left s) (h : Step s1 s') : After s e s' := by
  have := h.le
  exact ⟨h1.trans h, fun _ => by omega, fun _ _ _ _ => .inl (by omega)⟩

theorem ends_expr (n : Nat) :
    (∀ o a s, 4 * left s + 1 ≤ n → wp (parseExpr n o a) s (After s)) ∧
    (∀ o e s, 4 * left s + 1 ≤ n → wp (extend n o e) s fun _ s' => Step s s') ∧
    (∀ c s, 4 * left s + 3 ≤ n → wp (parseArgs n c) s fun _ s' => Step s s') ∧
    (∀ c as s, 4 * left s + 2 ≤ n → wp (argLoop n c as) s fun _ s' => Step s s') ∧
    (∀ ps s, 4 * left s + 1 ≤ n → wp (parseString n ps) s fun _ s' => Step s s') := by
  induction n with
  | zero => refine ⟨?_, ?_, ?_, ?_, ?_⟩ <;> intros <;> omega
  | succ n ih =>
    obtain ⟨h1, h2, h3, h4, h5⟩ := ih
    refine ⟨?_, ?_, ?_, ?_, ?_⟩
    · intro o a s hn
      rw [parseExpr]
      refine wp_bind (wp_read fun t s1 g => ?_)
      have fin : ∀ e s2, t.ty ≠ .endOfFile → Step s1 s2 → wp (setMute false >>= fun _ => extend n o e) s2 (After s) := by
        intro e s2 ht h12
        have := g.less ht
        have := h12.le
        refine wp_bind (wp_mute fun s3 h3 _ _ => ?_)
        have := h3.le
        exact wp_mono (h2 _ _ _ (by omega)) fun _ s4 h4 => After.of_less g.step (g.less ht) ((h12.trans h3).trans h4)
      refine wp_ite (fun ht => ?_) fun _ => wp_ite (fun ht => ?_) fun _ => wp_ite (fun ht => ?_) fun _ => wp_ite (fun ht => ?_) fun _ => ?_
      · have he : t.ty ≠ .endOfFile := by rw [ht]; simp
        have := g.less he
        refine wp_bind (wp_withAccept (wp_withNl ?_))
        refine wp_bind (wp_mono (h1 _ _ _ (show 4 * left s1 + 1 ≤ n by omega)) fun e s2 h2 => ?_)
        have hl2 : left s2 ≤ left s1 := h2.step.le
        refine wp_bind (wp_read fun c s3 g3 => ?_)
        refine wp_ite (fun _ => ?_) fun _ => ?_
        · refine wp_bind (wp_mute fun s4 h4 _ _ => wp_pure (fin _ _ he ?_))
          exact ((h2.step.trans g3.step).trans h4).unNl.unAcc
        · refine wp_bind (wp_mono (ends_error n c _ _ _ _ g3 (by omega)) fun _ s4 h4 => wp_pure (fin _ _ he ?_))
          exact (h2.step.trans h4.1).unNl.unAcc
      · exact fin _ _ (by rw [ht]; simp) (Step.refl _)
      · exact fin _ _ (by rw [ht]; simp) (Step.refl _)
      · have he : t.ty ≠ .endOfFile := by rw [ht]; simp
        have := g.less he
        refine wp_bind (wp_withInStr ?_)
        refine wp_mono (h5 _ _ (show 4 * left s1 + 1 ≤ n by omega)) fun ps s2 h2 => fin _ _ he h2.unInStr
      · cases hu : toUn t.ty with
        | some op =>
          dsimp only
          have he := toUn_eof hu
          have := g.less he
          refine wp_bind (wp_mono (h1 _ _ _ (show 4 * left s1 + 1 ≤ n by omega)) fun e s2 h2 => fin _ _ he h2.step)
        | none =>
          dsimp only
          refine wp_bind (wp_rewind fun s2 e1 e2 => ?_)
          have st := rewound g e1 e2
          have stay : ∀ s', s'.back = s2.back → ∀ t', s.back = some t' → t'.ty ≠ .newLine → t'.ty ≠ .endOfFile →
              left s' < left s ∨ s'.back = some t' := by
            intro s' hs' t' hb hn he
            have := g.same t' hb hn
            subst this
            right
            rw [hs', e2 he]
          refine wp_ite (fun _ => wp_pure ⟨st, (fun h => by cases h), stay _ rfl⟩) fun _ => ?_
          unfold error
          refine wp_bind (wp_bind ?_)
          exact ⟨⟨st.le, st.suf, st.nl, st.inStr, st.acc⟩, (fun h => by cases h), stay _ rfl⟩
    · intro o e s hn
      rw [extend]
      refine wp_bind (wp_read fun t s1 g => ?_)
      refine wp_ite (fun ht => ?_) fun _ => wp_ite (fun ht => ?_) fun _ => ?_
      · have := g.less (by rw [ht]; simp)
        refine wp_bind (wp_mono (h3 _ _ (by omega)) fun e s2 h => ?_)
        have := h.le
        exact wp_mono (h2 _ _ _ (by omega)) fun _ _ h' => (g.step.trans h).trans h'
      · have := g.less (by rw [ht]; simp)
        refine wp_bind (wp_read fun p s2 g2 => ?_)
        have := g2.step.le
        refine wp_ite (fun _ => ?_) fun _ => ?_
        · exact wp_mono (h2 _ _ _ (by omega)) fun _ _ h' => (g.step.trans g2.step).trans h'
        · refine wp_bind (wp_mono (ends_error n p _ _ _ _ g2 (by omega)) fun _ s3 h => ?_)
          have := h.1.le
          exact wp_mono (h2 _ _ _ (by omega)) fun _ _ h' => (g.step.trans h.1).trans h'
      · cases hb : toBin t.ty with
        | some op =>
          dsimp only
          have := g.less (toBin_eof hb)
          refine wp_ite (fun _ => ?_) fun _ => ?_
          · exact wp_bind (wp_rewind fun s2 e1 e2 => wp_pure (rewound g e1 e2))
          · refine wp_bind (wp_mono (h1 _ _ _ (by omega)) fun r s2 h => ?_)
            have := h.step.le
            refine wp_ite (fun _ => wp_pure (g.step.trans h.step)) fun _ => ?_
            exact wp_mono (h2 _ _ _ (by omega)) fun _ _ h' => (g.step.trans h.step).trans h'
        | none =>
          dsimp only
          exact wp_bind (wp_rewind fun s2 e1 e2 => wp_pure (rewound g e1 e2))
    · intro c s hn
      rw [parseArgs]
      refine wp_withAccept (wp_withNl ?_)
      refine wp_bind (wp_read fun t s1 g => ?_)
      refine wp_ite (fun _ => wp_pure g.step.unNl.unAcc) fun _ => ?_
      refine wp_bind (wp_rewind fun s2 e1 e2 => ?_)
      have h := rewound g e1 e2
      have hl : left s2 ≤ left s := h.le
      exact wp_mono (h4 _ _ _ (by omega)) fun _ _ h' => (h.trans h').unNl.unAcc
    · intro c as s hn
      rw [argLoop]
      refine wp_bind (wp_mono (h1 _ _ _ (by omega)) fun a s1 h => ?_)
      have := h.step.le
      refine wp_bind (wp_read fun t s2 g => ?_)
      have hs := h.step.trans g.step
      refine wp_ite (fun _ => ?_) fun _ => wp_ite (fun ht => ?_) fun _ => ?_
      · exact wp_bind (wp_mute fun s3 h3 _ _ => wp_pure (hs.trans h3))
      · have := g.less (by rw [ht]; simp)
        refine wp_bind (wp_mute fun s3 h3 _ _ => ?_)
        have := h3.le
        exact wp_mono (h4 _ _ _ (by omega)) fun _ _ h' => (hs.trans h3).trans h'
      · refine wp_bind (wp_mono (ends_error n t _ _ _ _ g (by omega)) fun go s3 hg => ?_)
        obtain ⟨e1, -, e3, e4⟩ := hg
        refine wp_ite (fun hgo => ?_) fun _ => wp_pure (h.step.trans e1)
        have ht : t.ty ≠ .endOfFile := fun ht => by
          have := (e3 rfl ht).2.2.2
          rw [hgo] at this; cases this
        have := g.less ht
        have st := e4 rfl (.inr hgo)
        have := st.le
        exact wp_mono (h4 _ _ _ (by omega)) fun _ _ h' => (hs.trans st).trans h'
    · intro ps s hn
      rw [parseString]
      refine wp_bind (wp_read fun t s1 g => ?_)
      refine wp_ite (fun ht => ?_) fun _ => wp_ite (fun ht => ?_) fun _ => wp_ite (fun _ => wp_pure g.step) fun _ => wp_assert
      · have := g.less (by rw [ht]; simp)
        exact wp_mono (h5 _ _ (by omega)) fun _ _ h' => g.step.trans h'
      · have := g.less (by rw [ht]; simp)
        have fin : ∀ e s2, Step s1 s2 → wp (parseString n (putEmbed ps e)) s2 fun _ s' => Step s s' := by
          intro e s2 h
          have := h.le
          exact wp_mono (h5 _ _ (by omega)) fun _ _ h' => (g.step.trans h).trans h'
        refine wp_bind (wp_withAccept (wp_withInStr (wp_withNl ?_)))
        refine wp_bind (wp_mono (h1 _ _ _ (show 4 * left s1 + 1 ≤ n by omega)) fun e s2 h2 => ?_)
        have hl2 : left s2 ≤ left s1 := h2.step.le
        refine wp_bind (wp_read fun c s3 g3 => ?_)
        refine wp_ite (fun _ => ?_) fun _ => ?_
        · refine wp_bind (wp_mute fun s4 h4 _ _ => wp_pure (fin _ _ ?_))
          exact ((h2.step.trans g3.step).trans h4).unNl.unInStr.unAcc
        · refine wp_bind (wp_mono (ends_error n c _ _ _ _ g3 (by omega)) fun _ s4 h4 => ?_)
          have := h4.1.le
          refine wp_bind (wp_mono ((ends_skip n).1 _ _ (by omega)) fun _ s5 h5 => ?_)
          refine wp_bind (wp_mute fun s6 h6 _ _ => wp_pure (fin _ _ ?_))
          exact (((h2.step.trans h4.1).trans h5).trans h6).unNl.unInStr.unAcc

theorem ends_endStmt (n : Nat) {t : Tok} {s s1 : PS} (g : Got s t s1) : wp (endStmt n t) s1 fun _ s' => Step s s' := by
  unfold endStmt
  refine wp_ite (fun _ => wp_pure g.step) fun _ => ?_
  refine wp_bind (wp_rewind fun s2 e1 e2 => ?_)
  have st := rewound g e1 e2
  refine wp_ite (fun _ => wp_pure st) fun _ => ?_
  unfold error
  refine wp_bind (wp_bind ?_)
  exact ⟨st.le, st.suf, st.nl, st.inStr, st.acc⟩

/-- What is true after parsing a statement outside brackets. -/
structure AfterStmt (s : PS) (s' : PS) : Prop where
  step : Step s s'
  less : ∀ t, s.back = some t → t.ty ≠ .newLine → t.ty ≠ .endOfFile → left s' < left s

theorem ends_stmt (n : Nat) :
    (∀ s, s.acc = ⟨false, false, false⟩ → 4 * left s + 2 ≤ n → wp (parseStmt n) s fun _ s' => AfterStmt s s') ∧
    (∀ o s, s.acc = ⟨false, false, false⟩ → 4 * left s + 3 ≤ n → wp (parseBlock n o) s fun _ s' => Step s s') ∧
    (∀ b s, s.acc = ⟨false, false, false⟩ → 4 * left s + 3 ≤ n → wp (blockLoop n b) s fun _ s' => Step s s') := by
  induction n with
  | zero => refine ⟨?_, ?_, ?_⟩ <;> intros <;> omega
  | succ n ih =>
    obtain ⟨h1, h2, h3⟩ := ih
    have hx := (ends_expr n).1
    refine ⟨?_, ?_, ?_⟩
    · intro s ha hn
      rw [parseStmt]
      refine wp_bind (wp_read fun t s1 g => ?_)
      have key : ∀ k, isKey t k = true → t.ty ≠ .endOfFile := by
        intro k hk he
        simp [isKey, he] at hk
      have fin : ∀ {s2}, t.ty ≠ .endOfFile → Step s1 s2 → AfterStmt s s2 := by
        intro s2 ht h
        have := g.less ht
        have := h.le
        exact ⟨g.step.trans h, fun _ _ _ _ => by omega⟩
      refine wp_ite (fun hk => ?_) fun _ => wp_ite (fun hk => ?_) fun _ => wp_ite (fun hk => ?_) fun _ => ?_
      · have he := key _ hk
        have := g.less he
        refine wp_bind (wp_mono (hx _ _ _ (by omega)) fun c s2 a2 => ?_)
        have := a2.step.le
        have c2 := g.step.trans a2.step
        refine wp_bind (wp_mono (h2 _ _ (c2.acc.trans ha) (by omega)) fun tb s3 st3 => ?_)
        have := st3.le
        have c3 := c2.trans st3
        refine wp_bind (wp_withNl ?_)
        refine wp_bind (wp_read fun t2 s4 g4 => ?_)
        have hl4 : left s4 ≤ left s3 := g4.step.le
        refine wp_ite (fun _ => ?_) fun _ => ?_
        · refine wp_mono (h2 _ _ (g4.step.acc.trans (c3.acc.trans ha)) (by omega)) fun fb s5 st5 => wp_pure (fin he ?_)
          exact (a2.step.trans st3).trans (g4.step.trans st5).unNl
        · refine wp_bind (wp_rewind fun s5 e1 e2 => wp_pure (wp_pure (fin he ?_)))
          exact (a2.step.trans st3).trans (rewound g4 e1 e2).unNl
      · have he := key _ hk
        have := g.less he
        refine wp_bind (wp_mono (hx _ _ _ (by omega)) fun c s2 a2 => ?_)
        have := a2.step.le
        have c2 := g.step.trans a2.step
        refine wp_bind (wp_withNl ?_)
        exact wp_mono (h2 _ { s2 with nl := false } (c2.acc.trans ha) (show 4 * left s2 + 3 ≤ n by omega)) fun b s3 st3 =>
          wp_pure (fin he (a2.step.trans st3.unNl))
      · have he := key _ hk
        have := g.less he
        refine wp_bind (wp_mono (hx _ _ _ (by omega)) fun c s2 a2 => wp_pure (fin he a2.step))
      · refine wp_bind (wp_rewind fun s2 e1 e2 => ?_)
        have c2 := rewound g e1 e2
        have := c2.le
        refine wp_bind (wp_mono (hx _ _ _ (by omega)) fun e s3 a3 => ?_)
        have := a3.step.le
        have c3 := c2.trans a3.step
        refine wp_bind (wp_read fun t2 s4 g4 => ?_)
        have := g4.step.le
        refine wp_ite (fun hnull => ?_) fun hn' => ?_
        · refine wp_bind (wp_mono (ends_error n t2 _ _ _ _ g4 (by omega)) fun go s5 h5 => wp_pure ?_)
          obtain ⟨e5, -, e6, e7⟩ := h5
          refine ⟨c3.trans e5, fun t' hb hnl he => ?_⟩
          have := g.same t' hb hnl
          subst this
          have hb2 : s2.back = some t := by rw [e2 he]
          rcases a3.stay t hb2 hnl he with h | h
          · have := e5.le; omega
          · have := g4.same t h hnl
            subst this
            have := g4.less he
            have := (e7 rfl (.inl ((g4.step.acc.trans c3.acc).trans ha))).le
            omega
        · have hne : e.isNull = false := by simpa using hn'
          have hlt := a3.full hne
          refine wp_ite (fun _ => ?_) fun _ => ?_
          · refine wp_bind (wp_mono (hx _ _ _ (by omega)) fun r s5 a5 => ?_)
            refine wp_bind (wp_read fun t3 s6 g6 => ?_)
            refine wp_bind (wp_mono (ends_endStmt n g6) fun _ s7 st7 => wp_pure ?_)
            have st := (g4.step.trans a5.step).trans st7
            have := st.le
            exact ⟨c3.trans st, fun _ _ _ _ => by omega⟩
          · refine wp_bind (wp_mono (ends_endStmt n g4) fun _ s7 st7 => wp_pure ?_)
            have := st7.le
            exact ⟨c3.trans st7, fun _ _ _ _ => by omega⟩
    · intro o s ha hn
      rw [parseBlock]
      refine wp_withNl (wp_bind (wp_read fun t s1 g => wp_bind ?_))
      have fin : ∀ {s2}, Step { s1 with nl := true } s2 → Step s { s2 with nl := s.nl } := fun h =>
        ⟨Nat.le_trans h.le g.step.le, h.suf.trans g.step.suf, rfl, h.inStr.trans g.step.inStr, h.acc.trans g.step.acc⟩
      have hl1 : left s1 ≤ left s := g.step.le
      have ha1 : s1.acc = _ := g.step.acc.trans ha
      change wp _ { s1 with nl := true } _
      refine wp_ite (fun ht => ?_) fun _ => wp_ite (fun _ => ?_) fun _ => ?_
      · have : left s1 < left s := g.less (by rw [ht]; simp)
        exact wp_bind (wp_mono (h3 _ _ ha1 (show 4 * left s1 + 3 ≤ n by omega)) fun b s2 h => wp_pure (fin h))
      · refine wp_bind (wp_rewind fun s2 e1 e2 => ?_)
        have hs2 : left s2 ≤ left s ∧ s2.src = s1.src ∧ s2.nl = true ∧ s2.inStr = s1.inStr ∧ s2.acc = s1.acc := by
          by_cases ht : t.ty = .endOfFile
          · rw [e1 ht]; exact ⟨hl1, rfl, rfl, rfl, rfl⟩
          · rw [e2 ht]
            have := g.less ht
            have h2 : left s1 < left s := this
            have := back_le s1 t
            exact ⟨show left { s1 with back := some t } ≤ left s by omega, rfl, rfl, rfl, rfl⟩
        obtain ⟨q1, q2, q3, q4, q5⟩ := hs2
        have fin2 : ∀ {s3}, Step s2 s3 → Step s { s3 with nl := s.nl } := fun h =>
          ⟨Nat.le_trans h.le q1, (q2 ▸ h.suf).trans g.step.suf, rfl, (h.inStr.trans q4).trans g.step.inStr,
            (h.acc.trans q5).trans g.step.acc⟩
        refine wp_bind (wp_mono (h1 _ (q5.trans ha1) (by omega)) fun st s3 h => ?_)
        refine wp_ite (fun _ => wp_pure (fin2 h.step)) fun _ => ?_
        unfold error
        refine wp_bind (wp_bind ?_)
        exact fin2 ⟨h.step.le, h.step.suf, h.step.nl, h.step.inStr, h.step.acc⟩
      · refine wp_bind (wp_mono (ends_error n t _ _ { s with nl := true } { s1 with nl := true } ?_ (show 4 * left s ≤ n + 2 by omega))
          fun _ s2 h => wp_pure ?_)
        · exact ⟨⟨g.step.le, g.step.suf, rfl, g.step.inStr, g.step.acc⟩, g.back, g.less, g.same⟩
        · exact ⟨h.1.le, h.1.suf, rfl, h.1.inStr, h.1.acc⟩
    · intro b s ha hn
      rw [blockLoop]
      refine wp_bind (wp_read fun t s1 g => ?_)
      have ha1 : s1.acc = _ := g.step.acc.trans ha
      refine wp_ite (fun ht => ?_) fun hnl => wp_ite (fun _ => wp_pure g.step) fun _ => wp_ite (fun ht => ?_) fun ht => ?_
      · have := g.less (by rcases ht with h | h <;> rw [h] <;> simp)
        exact wp_mono (h3 _ _ ha1 (by omega)) fun _ _ h => g.step.trans h
      · exact wp_bind (wp_mono (ends_error n t _ _ _ _ g (by omega)) fun _ s2 h => wp_pure h.1)
      · refine wp_bind (wp_rewind fun s2 e1 e2 => ?_)
        have c2 := rewound g e1 e2
        have := c2.le
        refine wp_bind (wp_mono (h1 _ (c2.acc.trans ha) (by omega)) fun st s3 h => ?_)
        have := h.less t (by rw [e2 ht]) (fun h => hnl (.inl h)) ht
        exact wp_mono (h3 _ _ ((c2.trans h.step).acc.trans ha) (by omega)) fun _ _ h' => (c2.trans h.step).trans h'

end Verif.Crowbar
