import Verif.Crowbar.PropsTok
import Verif.Crowbar.SpecWhole

/-!
# No error reported, nothing missing: lemmas
-/

namespace Verif.Crowbar
open Verif

/-! ## Errors stay reported -/

/-- Errors reported before `m` stay reported. -/
structure Keeps (m : P α) : Prop where
  at' : ∀ s a s', m s = .ok (a, s') → s.errs ≠ [] → s'.errs ≠ []

theorem keeps_pure (a : α) : Keeps (pure a : P α) := ⟨fun s _ _ h => by cases h; exact id⟩
theorem keeps_deep : Keeps (tooDeep : P α) := ⟨fun s _ _ h => by cases h⟩
theorem keeps_assert : Keeps (failAssert : P α) := ⟨fun s _ _ h => by cases h⟩
theorem keeps_mute (b : Bool) : Keeps (setMute b) := ⟨fun s _ _ h => by cases h; exact id⟩
theorem keeps_nl (b : Bool) : Keeps (setNl b) := ⟨fun s _ _ h => by cases h; exact id⟩

theorem freshTok_errs {s s' : PS} {t : Tok} (h : freshTok s = .ok (t, s')) : s'.errs = s.errs ∧ s'.mute = s.mute ∧
    s'.back = s.back := by
  unfold freshTok at h
  split at h
  · split at h
    · cases h; exact ⟨rfl, rfl, rfl⟩
    · split at h
      · cases h
      · cases h; exact ⟨rfl, rfl, rfl⟩
  · cases h; exact ⟨rfl, rfl, rfl⟩

theorem read_errs {s s' : PS} {t : Tok} (h : read s = .ok (t, s')) : s'.errs = s.errs ∧ s'.mute = s.mute := by
  unfold read at h
  split at h
  · split at h
    · have := freshTok_errs h; exact ⟨this.1, this.2.1⟩
    · cases h; exact ⟨rfl, rfl⟩
  · have := freshTok_errs h; exact ⟨this.1, this.2.1⟩

theorem keeps_read : Keeps read := ⟨fun s a s' h => by rw [(read_errs h).1]; exact id⟩

theorem keeps_rewind (t : Tok) : Keeps (rewind t) := ⟨fun s a s' h => by
  unfold rewind at h
  split at h <;> (cases h; exact id)⟩

theorem keeps_okToStay (t : Tok) : Keeps (okToStay t) := ⟨fun s a s' h => by
  unfold okToStay at h
  repeat' split at h
  all_goals (cases h; exact id)⟩

theorem keeps_report (t : Tok) (k : ErrKind) : Keeps (report t k) := ⟨fun s a s' h => by
  cases h
  intro hs
  dsimp only
  split
  · exact hs
  · simp⟩

theorem keeps_bind {m : P α} {f : α → P β} (h : Keeps m) (hf : ∀ a, Keeps (f a)) : Keeps (m >>= f) := by
  constructor
  intro s b s' hb
  change P.bind m f s = _ at hb
  unfold P.bind at hb
  split at hb
  · rename_i a s1 e
    intro hs
    exact (hf a).at' _ _ _ hb (h.at' _ _ _ e hs)
  · cases hb
  · cases hb

theorem keeps_withNl {b : Bool} {m : P α} (h : Keeps m) : Keeps (withNl b m) := by
  constructor
  intro s a s' ha
  unfold withNl at ha
  split at ha
  · rename_i e
    cases ha
    intro hs
    have := h.at' _ _ _ e
    exact this hs
  · cases ha
  · cases ha

theorem keeps_withInStr {b : Bool} {m : P α} (h : Keeps m) : Keeps (withInStr b m) := by
  constructor
  intro s a s' ha
  unfold withInStr at ha
  split at ha
  · rename_i e
    cases ha
    intro hs
    have := h.at' _ _ _ e
    exact this hs
  · cases ha
  · cases ha

theorem keeps_withAccept {f : Accept → Accept} {m : P α} (h : Keeps m) : Keeps (withAccept f m) := by
  constructor
  intro s a s' ha
  unfold withAccept at ha
  split at ha
  · rename_i e
    cases ha
    intro hs
    have := h.at' _ _ _ e
    exact this hs
  · cases ha
  · cases ha

theorem keeps_ite {c : Prop} [Decidable c] {a b : P α} (h : Keeps a) (h' : Keeps b) : Keeps (if c then a else b) := by
  split
  · exact h
  · exact h'

/-- One step of showing that errors stay reported. -/
macro "keep" : tactic => `(tactic| repeat' first
  | with_reducible exact keeps_pure _
  | with_reducible exact keeps_read
  | with_reducible exact keeps_rewind _
  | with_reducible exact keeps_mute _
  | with_reducible exact keeps_nl _
  | with_reducible exact keeps_assert
  | with_reducible assumption
  | with_reducible apply keeps_bind
  | with_reducible apply keeps_withNl
  | with_reducible apply keeps_withInStr
  | with_reducible apply keeps_withAccept
  | with_reducible apply keeps_ite
  | intro _)

theorem keeps_skip (n : Nat) : (∀ t, Keeps (skipAnyScope n t)) ∧ ∀ t, Keeps (skipLoop n t) := by
  induction n with
  | zero => exact ⟨fun t => by rw [skipAnyScope]; exact keeps_deep, fun t => by rw [skipLoop]; exact keeps_deep⟩
  | succ n ih =>
    obtain ⟨h1, h2⟩ := ih
    constructor
    · intro t
      rw [skipAnyScope]
      exact keeps_withAccept (h2 _)
    · intro t
      rw [skipLoop]
      keep
      · exact keeps_okToStay _
      · exact h1 _
      · exact h2 _
      · exact h2 _

theorem keeps_error (n : Nat) (t : Tok) (a : Action) (k : ErrKind) : Keeps (error n t a k) := by
  unfold error
  refine keeps_bind (keeps_report t k) fun _ => ?_
  cases a with
  | doNothing => exact keeps_pure _
  | pushBack => dsimp only; keep
  | handle =>
    dsimp only
    unfold handleUnexpected
    keep
    · exact keeps_okToStay _
    · exact (keeps_skip n).1 _

theorem keeps_expr (n : Nat) :
    (∀ o a, Keeps (parseExpr n o a)) ∧ (∀ o e, Keeps (extend n o e)) ∧ (∀ c, Keeps (parseArgs n c)) ∧
    (∀ c as, Keeps (argLoop n c as)) ∧ (∀ ps, Keeps (parseString n ps)) := by
  induction n with
  | zero =>
    refine ⟨?_, ?_, ?_, ?_, ?_⟩
    · intro o a; rw [parseExpr]; exact keeps_deep
    · intro o a; rw [extend]; exact keeps_deep
    · intro o; rw [parseArgs]; exact keeps_deep
    · intro o a; rw [argLoop]; exact keeps_deep
    · intro o; rw [parseString]; exact keeps_deep
  | succ n ih =>
    obtain ⟨h1, h2, h3, h4, h5⟩ := ih
    have he := keeps_error n
    have hs := (keeps_skip n).1
    refine ⟨?_, ?_, ?_, ?_, ?_⟩
    · intro o a
      rw [parseExpr]
      refine keeps_bind keeps_read fun t => ?_
      refine keeps_ite ?_ (keeps_ite ?_ (keeps_ite ?_ (keeps_ite ?_ ?_)))
      · keep
        all_goals first | exact h1 _ _ | exact h2 _ _ | exact he _ _ _
      · keep
        all_goals first | exact h1 _ _ | exact h2 _ _ | exact he _ _ _
      · keep
        all_goals first | exact h1 _ _ | exact h2 _ _ | exact he _ _ _
      · keep
        all_goals first | exact h5 _ | exact h2 _ _ | exact he _ _ _
      · cases toUn t.ty with
        | some op =>
          dsimp only
          keep
          all_goals first | exact h1 _ _ | exact h2 _ _
        | none =>
          dsimp only
          keep
          all_goals first | exact he _ _ _
    · intro o e
      rw [extend]
      refine keeps_bind keeps_read fun t => ?_
      refine keeps_ite ?_ (keeps_ite ?_ ?_)
      · keep
        all_goals first | exact h3 _ | exact h2 _ _
      · keep
        all_goals first | exact h2 _ _ | exact he _ _ _
      · cases toBin t.ty with
        | some op =>
          dsimp only
          keep
          all_goals first | exact h1 _ _ | exact h2 _ _
        | none => dsimp only; keep
    · intro c
      rw [parseArgs]
      keep
      exact h4 _ _
    · intro c as
      rw [argLoop]
      keep
      all_goals first | exact h1 _ _ | exact h4 _ _ | exact he _ _ _
    · intro ps
      rw [parseString]
      keep
      all_goals first | exact h1 _ _ | exact h5 _ | exact he _ _ _ | exact hs _

theorem keeps_endStmt (n : Nat) (t : Tok) : Keeps (endStmt n t) := by
  have he := keeps_error n
  unfold endStmt
  keep
  exact he _ _ _

theorem keeps_stmt (n : Nat) : Keeps (parseStmt n) ∧ (∀ o, Keeps (parseBlock n o)) ∧ ∀ b, Keeps (blockLoop n b) := by
  induction n with
  | zero =>
    refine ⟨?_, ?_, ?_⟩
    · rw [parseStmt]; exact keeps_deep
    · intro o; rw [parseBlock]; exact keeps_deep
    · intro b; rw [blockLoop]; exact keeps_deep
  | succ n ih =>
    obtain ⟨h1, h2, h3⟩ := ih
    have he := keeps_error n
    have hx := (keeps_expr n).1
    have hs := keeps_endStmt n
    refine ⟨?_, ?_, ?_⟩
    · rw [parseStmt]
      keep
      all_goals first | exact hx _ _ | exact h2 _ | exact he _ _ _ | exact hs _
    · intro o
      rw [parseBlock]
      keep
      all_goals first | exact h3 _ | exact h1 | exact he _ _ _
    · intro b
      rw [blockLoop]
      keep
      all_goals first | exact h3 _ | exact h1 | exact he _ _ _

theorem keeps_paramLoop (n : Nat) : ∀ ps p, Keeps (paramLoop n ps p) := by
  induction n with
  | zero => intro ps p; rw [paramLoop]; exact keeps_deep
  | succ n ih =>
    intro ps p
    have he := keeps_error n
    rw [paramLoop]
    keep
    all_goals first | exact he _ _ _ | exact ih _ _

theorem keeps_func (n : Nat) : Keeps (parseFunc n) := by
  have he := keeps_error n
  have hb := (keeps_stmt n).2.1
  unfold parseFunc parseParams
  keep
  all_goals first | exact he _ _ _ | exact hb _ | exact keeps_paramLoop n _ _

theorem keeps_file (n : Nat) : ∀ b, Keeps (fileLoop n b) := by
  induction n with
  | zero => intro b; rw [fileLoop]; exact keeps_deep
  | succ n ih =>
    intro b
    have he := keeps_error n
    have hf := keeps_func n
    rw [fileLoop]
    keep
    all_goals first | exact he _ _ _ | exact ih _

/-! ## What holds as long as no error is reported -/

/-- What the texts of tokens look like. -/
def TokOk (t : Tok) : Prop := (t.ty = .identifier → Word t.text) ∧ (t.ty = .stringLiteral → t.text ≠ [])

/-- No error so far. -/
structure Fine (s : PS) : Prop where
  errs : s.errs = []
  mute : s.mute = false
  back : ∀ t, s.back = some t → TokOk t

/-- Starting without errors, `m` has reported one or its result is as described. -/
structure Tri (m : P α) (Q : α → Prop) : Prop where
  at' : ∀ s a s', m s = .ok (a, s') → Fine s → s'.errs ≠ [] ∨ (Fine s' ∧ Q a)

theorem tri_pure {a : α} {Q : α → Prop} (h : Q a) : Tri (pure a : P α) Q := ⟨fun s _ _ e hf => by
  cases e; exact .inr ⟨hf, h⟩⟩

theorem tri_deep {Q : α → Prop} : Tri (tooDeep : P α) Q := ⟨fun _ _ _ h => by cases h⟩
theorem tri_assert {Q : α → Prop} : Tri (failAssert : P α) Q := ⟨fun _ _ _ h => by cases h⟩

theorem tri_mute : Tri (setMute false) (fun _ => True) := ⟨fun s _ _ e hf => by
  cases e; exact .inr ⟨⟨hf.errs, rfl, hf.back⟩, trivial⟩⟩

theorem tri_nl (b : Bool) : Tri (setNl b) (fun _ => True) := ⟨fun s _ _ e hf => by
  cases e; exact .inr ⟨⟨hf.errs, hf.mute, hf.back⟩, trivial⟩⟩

theorem tri_rewind {t : Tok} (h : TokOk t) : Tri (rewind t) (fun _ => True) := ⟨fun s _ _ e hf => by
  unfold rewind at e
  split at e
  · cases e; exact .inr ⟨hf, trivial⟩
  · cases e; exact .inr ⟨⟨hf.errs, hf.mute, fun t' ht' => by cases ht'; exact h⟩, trivial⟩⟩

theorem freshTok_ok {s s' : PS} {t : Tok} (h : freshTok s = .ok (t, s')) : TokOk t := by
  unfold freshTok at h
  split at h
  · split at h
    · cases h; exact ⟨(nomatch ·), (nomatch ·)⟩
    · split at h
      · cases h
      · rename_i ty text rest e
        cases h
        obtain ⟨c, q, h1, h2, h3⟩ := strPart_of _ _ _ _ _ _ (Nat.le_refl _) e
        rw [List.nil_append] at h2 h3
        by_cases hc : c = []
        · obtain ⟨-, h4⟩ := h2 hc
          refine ⟨fun h => ?_, fun h => ?_⟩ <;> rcases h4 with ⟨e, -⟩ | ⟨e, -⟩ <;> rw [e] at h <;> cases h
        · obtain ⟨h4, h5, -⟩ := h3 hc
          refine ⟨fun h => ?_, fun h => ?_⟩
          · rw [h4] at h; cases h
          · rw [h5]; exact hc
  · obtain ⟨gap, -, -, h3, -⟩ := C63_token s.total s.nl s.src (lex s.total s.nl s.src).1 (lex s.total s.nl s.src).2 rfl
    have ht : t = (lex s.total s.nl s.src).1 := by cases h; rfl
    rw [← ht] at h3
    refine ⟨fun h => ?_, fun h => ?_⟩
    · rw [h] at h3; exact h3.1
    · rw [h] at h3; exact h3.elim

theorem tri_read : Tri read TokOk := by
  constructor
  intro s t s' h hf
  right
  obtain ⟨h1, h2⟩ := read_errs h
  unfold read at h
  split at h
  · rename_i t0 hb
    split at h
    · have hb' := (freshTok_errs h).2.2
      exact ⟨⟨h1.trans hf.errs, h2.trans hf.mute, fun t ht => by rw [hb'] at ht; cases ht⟩, freshTok_ok h⟩
    · cases h
      exact ⟨⟨hf.errs, hf.mute, fun t ht => by cases ht⟩, hf.back _ hb⟩
  · rename_i hb
    have hb' := (freshTok_errs h).2.2
    exact ⟨⟨h1.trans hf.errs, h2.trans hf.mute, fun t ht => by rw [hb', hb] at ht; cases ht⟩, freshTok_ok h⟩

theorem tri_error (n : Nat) (t : Tok) (a : Action) (k : ErrKind) {Q : Bool → Prop} : Tri (error n t a k) Q := by
  constructor
  intro s b s' h hf
  left
  unfold error at h
  change P.bind (report t k) _ s = _ at h
  unfold P.bind at h
  dsimp only [report] at h
  rw [hf.mute] at h
  have hk : ∀ m : P Bool, Keeps m → m { s with mute := true, errs := s.errs ++ [(t.off, k)] } = .ok (b, s') → s'.errs ≠ [] :=
    fun m hm h => hm.at' _ _ _ h (by simp)
  simp only [Bool.false_eq_true, if_false] at h
  cases a with
  | doNothing => exact hk _ (keeps_pure _) h
  | pushBack => exact hk _ (by keep) h
  | handle =>
    refine hk _ ?_ h
    unfold handleUnexpected
    keep
    · exact keeps_okToStay _
    · exact (keeps_skip n).1 _

theorem tri_bind {m : P α} {f : α → P β} {Q : α → Prop} {R : β → Prop} (h : Tri m Q) (hk : ∀ a, Keeps (f a))
    (hf : ∀ a, Q a → Tri (f a) R) : Tri (m >>= f) R := by
  constructor
  intro s b s' hb hs
  change P.bind m f s = _ at hb
  unfold P.bind at hb
  split at hb
  · rename_i a s1 e
    rcases h.at' _ _ _ e hs with h1 | ⟨h1, h2⟩
    · exact .inl ((hk a).at' _ _ _ hb h1)
    · exact (hf a h2).at' _ _ _ hb h1
  · cases hb
  · cases hb

theorem tri_withNl {b : Bool} {m : P α} {Q : α → Prop} (h : Tri m Q) : Tri (withNl b m) Q := by
  constructor
  intro s a s' ha hf
  unfold withNl at ha
  split at ha
  · rename_i e
    cases ha
    rcases h.at' _ _ _ e ⟨hf.errs, hf.mute, hf.back⟩ with h | ⟨h, h'⟩
    · exact .inl h
    · exact .inr ⟨⟨h.errs, h.mute, h.back⟩, h'⟩
  · cases ha
  · cases ha

theorem tri_withInStr {b : Bool} {m : P α} {Q : α → Prop} (h : Tri m Q) : Tri (withInStr b m) Q := by
  constructor
  intro s a s' ha hf
  unfold withInStr at ha
  split at ha
  · rename_i e
    cases ha
    rcases h.at' _ _ _ e ⟨hf.errs, hf.mute, hf.back⟩ with h | ⟨h, h'⟩
    · exact .inl h
    · exact .inr ⟨⟨h.errs, h.mute, h.back⟩, h'⟩
  · cases ha
  · cases ha

theorem tri_withAccept {f : Accept → Accept} {m : P α} {Q : α → Prop} (h : Tri m Q) : Tri (withAccept f m) Q := by
  constructor
  intro s a s' ha hf
  unfold withAccept at ha
  split at ha
  · rename_i e
    cases ha
    rcases h.at' _ _ _ e ⟨hf.errs, hf.mute, hf.back⟩ with h | ⟨h, h'⟩
    · exact .inl h
    · exact .inr ⟨⟨h.errs, h.mute, h.back⟩, h'⟩
  · cases ha
  · cases ha

theorem tri_ite {c : Prop} [Decidable c] {a b : P α} {Q : α → Prop} (h : c → Tri a Q) (h' : ¬ c → Tri b Q) :
    Tri (if c then a else b) Q := by
  split
  · exact h ‹_›
  · exact h' ‹_›

theorem Tri.weaken {m : P α} {Q R : α → Prop} (h : Tri m Q) (hqr : ∀ a, Q a → R a) : Tri m R :=
  ⟨fun s a s' e hf => (h.at' s a s' e hf).imp id fun ⟨h1, h2⟩ => ⟨h1, hqr a h2⟩⟩

theorem whole_notNull {e : Expr} (h : ExprWhole e) : e.isNull = false := by
  cases e <;> first | rfl | (rw [ExprWhole] at h; exact h.elim)

theorem args_append {as : List Expr} {a : Expr} (h : ArgsWhole as) (ha : ExprWhole a) : ArgsWhole (as ++ [a]) := by
  induction as with
  | nil => simp only [List.nil_append, ArgsWhole]; exact ⟨ha, trivial⟩
  | cons b as ih =>
    rw [ArgsWhole] at h
    rw [List.cons_append, ArgsWhole]
    exact ⟨h.1, ih h.2⟩

theorem addArg_whole {as : List Expr} {a : Expr} (h : ArgsWhole as) (ha : ExprWhole a) : ArgsWhole (addArg as a) := by
  unfold addArg
  rw [whole_notNull ha]
  exact args_append h ha

theorem pieces_append {ps : List Piece} {lit : List Byte} {e : Expr} :
    PiecesWhole (ps ++ [.mk lit e]) ↔ PiecesWhole ps ∧ (ExprWhole e ∨ (e = .null ∧ lit ≠ [])) := by
  induction ps with
  | nil => simp [PiecesWhole]
  | cons p ps ih =>
    obtain ⟨l, x⟩ := p
    rw [List.cons_append, PiecesWhole, PiecesWhole, ih, and_assoc]

theorem putEmbed_whole {ps : List Piece} {e : Expr} (h : PiecesWhole ps) (he : ExprWhole e) :
    PiecesWhole (putEmbed ps e) := by
  rcases List.eq_nil_or_concat ps with hp | ⟨q, ⟨lit, x⟩, hp⟩
  · subst hp
    simp only [putEmbed, List.getLast?_nil, PiecesWhole]
    exact ⟨.inl he, trivial⟩
  · rw [List.concat_eq_append] at hp
    subst hp
    unfold putEmbed
    rw [List.getLast?_concat]
    dsimp only
    split
    · exact pieces_append.mpr ⟨h, .inl he⟩
    · rw [List.dropLast_concat]
      exact pieces_append.mpr ⟨(pieces_append.mp h).1, .inl he⟩

theorem parseUN_lt {w base : Nat} {input : List Byte} {p : Num.Parsed Nat} (h : Num.parseUN w base input = some p) :
    p.value < 2 ^ w := by
  unfold Num.parseUN at h
  split at h
  · cases h
  · dsimp only at h
    split at h
    · cases h; exact Nat.two_pow_pos w
    · cases h; exact Nat.mod_lt _ (Nat.two_pow_pos w)

theorem toU32_lt (t : List Byte) : toU32 t < 2 ^ 32 := by
  unfold toU32
  split
  · rename_i p hp
    split
    · exact parseUN_lt hp
    · decide
  · decide

end Verif.Crowbar
