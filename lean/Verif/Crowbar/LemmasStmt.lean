import Verif.Crowbar.LemmasRound

/-!
# Parsing printed statements and programs
-/

namespace Verif.Crowbar

theorem lex_newLine (total : Nat) (r : List Byte) :
    lex total true (10 :: r) = (⟨.newLine, total - (r.length + 1), [10]⟩, r) := rfl

theorem lex_skipNewLine (total : Nat) (r : List Byte) : lex total false (10 :: r) = lex total false r := by
  unfold lex
  rw [lexF.eq_def]
  rfl

theorem isWord {n : List Byte} (h : (match n with
    | [] => false
    | b :: r => isIdStart b && r.all (fun c => isIdStart c || isDig c)) = true) :
    ∃ b r, n = b :: r ∧ nameStart b ∧ ∀ c ∈ r, nameStart c ∨ digitByte c := by
  cases n with
  | nil => cases h
  | cons b r =>
    simp only [Bool.and_eq_true, List.all_eq_true, Bool.or_eq_true] at h
    refine ⟨b, r, rfl, (nameStart_iff b).mp h.1, fun c hc => ?_⟩
    rcases h.2 c hc with h | h
    · exact .inl ((nameStart_iff c).mp h)
    · exact .inr ((digitByte_iff c).mp h)

theorem lex_key (total : Nat) (nl : Bool) (n r : List Byte) (h : n ∈ [kwIf, kwWhile, kwElse, kwReturn, kwFn])
    (hr : Sep r) : lex total nl (32 :: n ++ r) = (⟨.identifier, total - (n ++ r).length, n⟩, r) := by
  refine lex_word total nl n r (isWord ?_) hr
  simp only [List.mem_cons, List.not_mem_nil, or_false] at h
  rcases h with h | h | h | h | h <;> subst h <;> decide

theorem parseStmt_congr {s s' : PS} (h : read s = read s') (n : Nat) : parseStmt n s = parseStmt n s' := by
  cases n with
  | zero => rfl
  | succ n =>
    rw [parseStmt]
    show P.bind read _ s = P.bind read _ s'
    unfold P.bind
    rw [h]

theorem blockLoop_congr {s s' : PS} (h : read s = read s') (n : Nat) (b : List Stmt) :
    blockLoop n b s = blockLoop n b s' := by
  cases n with
  | zero => rfl
  | succ n =>
    rw [blockLoop]
    show P.bind read _ s = P.bind read _ s'
    unfold P.bind
    rw [h]

theorem stmt_up {s : PS} {r : Option Stmt × PS} {n m : Nat} (hnm : n ≤ m) (h : parseStmt n s = .ok r) :
    parseStmt m s = .ok r :=
  mono_ok (f := parseStmt) (fun n => (stmt_mono n).1) hnm h

theorem block_up {o : Bool} {s : PS} {r : Option (List Stmt) × PS} {n m : Nat} (hnm : n ≤ m)
    (h : parseBlock n o s = .ok r) : parseBlock m o s = .ok r :=
  mono_ok (f := fun n => parseBlock n o) (fun n => (stmt_mono n).2.1 o) hnm h

theorem loop_up {b : List Stmt} {s : PS} {r : List Stmt × PS} {n m : Nat} (hnm : n ≤ m)
    (h : blockLoop n b s = .ok r) : blockLoop m b s = .ok r :=
  mono_ok (f := fun n => blockLoop n b) (fun n => (stmt_mono n).2.2 b) hnm h

/-- What comes next is a token that continues neither the statement before nor the block loop. -/
structure First (total : Nat) (rest : List Byte) (t : Tok) (r : List Byte) : Prop where
  lex : ∀ nl, lex total nl rest = (t, r)
  newLine : t.ty ≠ .newLine
  semicolon : t.ty ≠ .semicolon
  eof : t.ty ≠ .endOfFile
  notElse : isKey t kwElse = false

/-- The token begins a statement. -/
structure Begins (total : Nat) (rest : List Byte) (t : Tok) (r : List Byte) : Prop extends First total rest t r where
  curly : t.ty ≠ .closeCurly

theorem textSep (e : Expr) (h : ExprOk e) (x : List Byte) : Sep (text levelBelow e ++ x) := text_sep e h x

theorem block_sep (b : Option (List Stmt)) (hb : b.isSome = true) (x : List Byte) :
    Sep (textBlock levelBelow b ++ x) := by
  cases b with
  | none => cases hb
  | some b => rw [textBlock]; exact .inr (.inl ⟨_, rfl⟩)

theorem begins_of_text {total : Nat} {e : Expr} (h : ExprOk e) {x : List Byte} (hx : Sep x) :
    ∃ t r, Begins total (text levelBelow e ++ x) t r ∧ isKey t kwIf = false ∧ isKey t kwWhile = false ∧
      isKey t kwReturn = false := by
  obtain ⟨t, r, h1, h2, h3⟩ := text_first total e h x hx
  have hk : ∀ k : List Byte, (NameOk t.text → t.text ≠ k) → isKey t k = false := by
    intro k hk
    unfold isKey
    by_cases hty : t.ty = .identifier
    · have := hk (h3 hty)
      simp [hty, this]
    · simp [hty]
  refine ⟨t, r, ⟨⟨h1, ?_, ?_, ?_, hk _ fun h => h.2.2.2.1⟩, ?_⟩, hk _ fun h => h.2.1, hk _ fun h => h.2.2.1,
    hk _ fun h => h.2.2.2.2⟩ <;>
    (intro e; rw [e] at h2; cases h2)

theorem begins_of_key {total : Nat} {k x : List Byte} (h : k ∈ [kwIf, kwWhile, kwReturn]) (hx : Sep x) :
    Begins total (32 :: k ++ x) ⟨.identifier, total - (k ++ x).length, k⟩ x := by
  have hl : ∀ nl, lex total nl (32 :: k ++ x) = (⟨.identifier, total - (k ++ x).length, k⟩, x) := fun nl =>
    lex_key total nl k x (by
      simp only [List.mem_cons, List.not_mem_nil, or_false] at h ⊢
      rcases h with h | h | h <;> simp [h]) hx
  refine ⟨⟨hl, by simp, by simp, by simp, ?_⟩, by simp⟩
  simp only [List.mem_cons, List.not_mem_nil, or_false] at h
  rcases h with h | h | h <;> subst h <;> rfl

theorem stmt_begins (total : Nat) (st : Stmt) (h : StmtOk st) (x : List Byte) :
    ∃ t r, Begins total (textStmt levelBelow st ++ x) t r := by
  cases st with
  | if_ c t f =>
    rw [StmtOk] at h
    rw [textStmt]
    have := begins_of_key (total := total) (k := kwIf) (by simp)
      (textSep c h.1 (textBlock levelBelow t ++ (textElse levelBelow f ++ ([10] ++ x))))
    exact ⟨_, _, by simpa [kwIf, List.append_assoc] using this⟩
  | while_ c b =>
    rw [StmtOk] at h
    rw [textStmt]
    have := begins_of_key (total := total) (k := kwWhile) (by simp)
      (textSep c h.1 (textBlock levelBelow b ++ ([10] ++ x)))
    exact ⟨_, _, by simpa [kwWhile, List.append_assoc] using this⟩
  | assign l r =>
    rw [StmtOk] at h
    rw [textStmt, List.append_assoc]
    obtain ⟨t, r', h1, -⟩ := begins_of_text (total := total) h.1
      (x := [32, 61] ++ (text levelBelow r ++ [10]) ++ x) (.inr (.inl ⟨_, rfl⟩))
    exact ⟨t, r', h1⟩
  | eval e =>
    rw [StmtOk] at h
    rw [textStmt, List.append_assoc]
    obtain ⟨t, r', h1, -⟩ := begins_of_text (total := total) h (x := [10] ++ x) (.inr (.inr ⟨_, rfl⟩))
    exact ⟨t, r', h1⟩
  | ret e =>
    rw [StmtOk] at h
    rw [textStmt]
    have := begins_of_key (total := total) (k := kwReturn) (by simp) (textSep e h ([10] ++ x))
    exact ⟨_, _, by simpa [kwReturn, List.append_assoc] using this⟩
  | func n ps b => rw [StmtOk] at h; exact h.elim

theorem stmts_first (total : Nat) (b : List Stmt) (h : StmtsOk b) (rest : List Byte) :
    ∃ t r, First total (textStmts levelBelow b ++ 32 :: 125 :: rest) t r := by
  cases b with
  | nil =>
    rw [textStmts]
    exact ⟨_, _, fun nl => lex_closeCurly total nl rest, by simp, by simp, by simp, by simp [isKey]⟩
  | cons st b =>
    rw [StmtsOk] at h
    rw [textStmts, List.append_assoc]
    obtain ⟨t, r, hb⟩ := stmt_begins total st h.1 (textStmts levelBelow b ++ 32 :: 125 :: rest)
    exact ⟨t, r, hb.toFirst⟩

theorem peek_eq {s : PS} {t : Tok} {r : List Byte} (h : lex s.total s.nl s.src = (t, r)) (he : t.ty ≠ .endOfFile) :
    peek s = { s with src := r, back := some t } := by
  unfold peek nextTok
  rw [h, if_neg he]

theorem read_back {s : PS} {t : Tok} (h : s.back = some t) (hn : t.ty ≠ .newLine) :
    read s = .ok (t, { s with back := none }) := by
  unfold read
  rw [h]
  dsimp only
  rw [if_neg (fun h => hn h.1)]

/-- A statement, read where statements stand in a block, followed by the rest of the block. -/
def StmtClaim (st : Stmt) : Prop := ∀ (s : PS) (rest : List Byte) (t : Tok) (r : List Byte), Good s → s.nl = true →
  s.src = textStmt levelBelow st ++ rest → First s.total rest t r →
  ∃ n s', parseStmt n s = .ok (some st, s') ∧
    ∀ acc m res, blockLoop m acc { s with src := rest } = .ok res → blockLoop (m + 1) acc s' = .ok res

/-- The statements of a block up to its closing brace. -/
def BodyClaim (b : List Stmt) : Prop := ∀ (s : PS) (rest : List Byte) (acc : List Stmt), Good s → s.nl = true →
  s.src = textStmts levelBelow b ++ 32 :: 125 :: rest →
  ∃ n, blockLoop n acc s = .ok (acc ++ b, { s with src := rest })

theorem loop_newLine {s : PS} (hg : Good s) (hn : s.nl = true) (rest : List Byte) (m : Nat)
    (acc : List Stmt) : blockLoop (m + 1) acc { s with src := 10 :: rest } = blockLoop m acc { s with src := rest } := by
  have h : nextTok { s with src := 10 :: rest } = (⟨.newLine, s.total - (rest.length + 1), [10]⟩, rest) := by
    unfold nextTok; dsimp only; rw [hn, lex_newLine]
  rw [blockLoop, bind_ok (read_good (s := { s with src := 10 :: rest }) hg.back hg.inStr), h, if_pos (.inl rfl)]

theorem nl_self {q : PS} {v : Bool} (h : q.nl = v) : { q with nl := v } = q := by
  cases q; simp_all

theorem block_of {b : List Stmt} (h : BodyClaim b) (opt : Bool) {s s0 : PS} {t : Tok} {rest : List Byte} (hg : Good s0)
    (hr : read { s with nl := false } =
      .ok (t, { s0 with nl := false, src := 10 :: (textStmts levelBelow b ++ 32 :: 125 :: rest) }))
    (ht : t.ty = .openCurly) (hn : s.nl = s0.nl) :
    ∃ n, parseBlock n opt s = .ok (some b, { s0 with src := rest }) := by
  let s1 : PS := { s0 with nl := true, src := textStmts levelBelow b ++ 32 :: 125 :: rest }
  obtain ⟨n, hb⟩ := h s1 rest [] ⟨hg.back, hg.inStr, hg.mute⟩ rfl rfl
  refine ⟨n + 2, ?_⟩
  rw [parseBlock, withNl_ok (s' := { s0 with nl := true, src := rest }) (a := some b)]
  · rw [hn]
  rw [bind_ok hr]
  rw [bind_ok (show setNl true _ = .ok ((), _) from rfl), if_pos ht, bind_ok (a := b), pure_ok]
  exact (loop_newLine (s := { s0 with nl := true }) ⟨hg.back, hg.inStr, hg.mute⟩ rfl
    (textStmts levelBelow b ++ 32 :: 125 :: rest) n []).trans hb

/-- A block after an expression. -/
theorem block_peeked {b : List Stmt} (h : BodyClaim b) {s : PS} {rest : List Byte} (hg : Good s) (nl : Bool)
    (hs : s.src = textBlock levelBelow (some b) ++ rest) :
    ∃ n, parseBlock n true { peek s with nl := nl } = .ok (some b, { s with nl := nl, src := rest }) := by
  let tail := 10 :: (textStmts levelBelow b ++ 32 :: 125 :: rest)
  have hs' : s.src = 32 :: 123 :: tail := by rw [hs, textBlock]; simp [tail]
  have hl := lex_openCurly s.total s.nl tail
  rw [← hs'] at hl
  rw [peek_eq hl (by simp)]
  refine block_of h true (s := _) (s0 := { s with nl := nl }) (t := ⟨.openCurly, s.total - (tail.length + 1), [123]⟩)
    ⟨hg.back, hg.inStr, hg.mute⟩ ?_ rfl rfl
  rw [read_back (t := ⟨.openCurly, s.total - (tail.length + 1), [123]⟩) rfl (by simp)]
  have := hg.back
  cases s
  simp_all [tail]

theorem block_plain {b : List Stmt} (h : BodyClaim b) (opt : Bool) {s : PS} {rest : List Byte} (hg : Good s)
    (hs : s.src = textBlock levelBelow (some b) ++ rest) :
    ∃ n, parseBlock n opt s = .ok (some b, { s with src := rest }) := by
  let tail := 10 :: (textStmts levelBelow b ++ 32 :: 125 :: rest)
  have hs' : s.src = 32 :: 123 :: tail := by rw [hs, textBlock]; simp [tail]
  have hl : nextTok { s with nl := false } = _ := (congrArg _ hs').trans (lex_openCurly s.total false tail)
  refine block_of h opt (s := s) (s0 := s) (t := ⟨.openCurly, s.total - (tail.length + 1), [123]⟩) hg ?_ rfl rfl
  rw [read_good (s := { s with nl := false }) hg.back hg.inStr, hl]

theorem eval_claim {e : Expr} (h : ExprOk e) : StmtClaim (.eval e) := by
  intro s rest t r hg hnl hs hf
  rw [textStmt, List.append_assoc] at hs
  obtain ⟨t1, r1, hb, k1, k2, k3⟩ := begins_of_text (total := s.total) h (x := [10] ++ rest) (.inr (.inr ⟨_, rfl⟩))
  have hnt : nextTok s = (t1, r1) := by unfold nextTok; rw [hs]; exact hb.lex _
  have hl : lex s.total s.nl ([10] ++ rest) = (⟨.newLine, s.total - (rest.length + 1), [10]⟩, rest) := by
    rw [hnl]; exact lex_newLine _ _
  obtain ⟨n, hn⟩ := (claim_all e h).ends hg (o := maxPrec) true (rest := [10] ++ rest) hs (.inr (.inr ⟨_, rfl⟩))
    (level_lt e) (by rw [hl]; exact ends_of (ty := .newLine) (by decide) (by decide) rfl)
  refine ⟨n + 1, { s with src := rest }, ?_, fun acc m res h => loop_up (Nat.le_succ m) h⟩
  have hrw := rewind_next (s := s) hg.back
  rw [hnt] at hrw
  have hr2 : read (peek { s with src := [10] ++ rest }) =
      .ok (⟨.newLine, s.total - (rest.length + 1), [10]⟩, { s with src := rest }) := by
    rw [read_peek (s := { s with src := [10] ++ rest }) hg.back hg.inStr,
      read_good (s := { s with src := [10] ++ rest }) hg.back hg.inStr]
    unfold nextTok
    rw [show ({ s with src := [10] ++ rest } : PS).src = [10] ++ rest from rfl, hl]
  rw [parseStmt, bind_ok (read_good hg.back hg.inStr), hnt, k1, k2, k3]
  simp only [Bool.false_eq_true, if_false]
  rw [bind_ok hrw, bind_ok ((parseExpr_congr (read_peek hg.back hg.inStr) n maxPrec true).trans hn), bind_ok hr2,
    ok_notNull h]
  simp only [Bool.false_eq_true, if_false, reduceCtorEq]
  rw [bind_ok (show endStmt n _ _ = .ok ((), _) from by unfold endStmt; rw [if_pos (.inl rfl)]; rfl), pure_ok]

theorem assign_claim {e f : Expr} (h : ExprOk e) (h' : ExprOk f) : StmtClaim (.assign e f) := by
  intro s rest t r hg hnl hs hf
  let x := text levelBelow f ++ 10 :: rest
  have hs' : s.src = text levelBelow e ++ 32 :: 61 :: x := by rw [hs, textStmt]; simp [x]
  obtain ⟨t1, r1, hb, k1, k2, k3⟩ := begins_of_text (total := s.total) h (x := 32 :: 61 :: x) (.inr (.inl ⟨_, rfl⟩))
  have hnt : nextTok s = (t1, r1) := by unfold nextTok; rw [hs']; exact hb.lex _
  have hx : ∃ y, x = 32 :: y := by
    rcases textSep f h' (10 :: rest) with h | h | h
    · exact absurd h (by simp)
    · exact h
    · obtain ⟨c, q, hq, -⟩ := text_head f h'
      rw [hq] at h
      obtain ⟨_, h⟩ := h
      cases h
  have hl : lex s.total s.nl (32 :: 61 :: x) = (⟨.equal, s.total - (x.length + 1), [61]⟩, x) := by
    obtain ⟨y, hy⟩ := hx
    rw [hy]
    exact lex_solid s.total s.nl 61 (32 :: y) rfl
  obtain ⟨n, hn⟩ := (claim_all e h).ends hg (o := maxPrec) true (rest := 32 :: 61 :: x) hs' (.inr (.inl ⟨_, rfl⟩))
    (level_lt e) (by rw [hl]; exact ends_of (ty := .equal) (by decide) (by decide) rfl)
  have hl2 : lex s.total s.nl (10 :: rest) = (⟨.newLine, s.total - (rest.length + 1), [10]⟩, rest) := by
    rw [hnl]; exact lex_newLine _ _
  obtain ⟨m, hm⟩ := (claim_all f h').ends (s := { s with src := x }) ⟨hg.back, hg.inStr, hg.mute⟩ (o := maxPrec) false
    (rest := 10 :: rest) rfl (.inr (.inr ⟨_, rfl⟩))
    (level_lt f) (by
      rw [show lex ({ s with src := x } : PS).total ({ s with src := x } : PS).nl (10 :: rest) = _ from hl2]
      exact ends_of (ty := .newLine) (by decide) (by decide) rfl)
  refine ⟨max n m + 1, { s with src := rest }, ?_, fun acc m res h => loop_up (Nat.le_succ m) h⟩
  have hrw := rewind_next (s := s) hg.back
  rw [hnt] at hrw
  have hr2 : read (peek { s with src := 32 :: 61 :: x }) =
      .ok (⟨.equal, s.total - (x.length + 1), [61]⟩, { s with src := x }) := by
    rw [read_peek (s := { s with src := 32 :: 61 :: x }) hg.back hg.inStr,
      read_good (s := { s with src := 32 :: 61 :: x }) hg.back hg.inStr]
    unfold nextTok
    rw [show ({ s with src := 32 :: 61 :: x } : PS).src = 32 :: 61 :: x from rfl, hl]
  have hr3 : read (peek { s with src := 10 :: rest }) =
      .ok (⟨.newLine, s.total - (rest.length + 1), [10]⟩, { s with src := rest }) := by
    rw [read_peek (s := { s with src := 10 :: rest }) hg.back hg.inStr,
      read_good (s := { s with src := 10 :: rest }) hg.back hg.inStr]
    unfold nextTok
    rw [show ({ s with src := 10 :: rest } : PS).src = 10 :: rest from rfl, hl2]
  rw [parseStmt, bind_ok (read_good hg.back hg.inStr), hnt, k1, k2, k3]
  simp only [Bool.false_eq_true, if_false]
  rw [bind_ok hrw, bind_ok ((parseExpr_congr (read_peek hg.back hg.inStr) _ maxPrec true).trans
    (expr_up (Nat.le_max_left n m) hn)), bind_ok hr2, ok_notNull h]
  simp only [Bool.false_eq_true, if_false, if_true]
  rw [bind_ok (expr_up (Nat.le_max_right n m) hm), bind_ok hr3,
    bind_ok (show endStmt _ _ _ = .ok ((), _) from by unfold endStmt; rw [if_pos (.inl rfl)]; rfl), pure_ok]

theorem ret_claim {e : Expr} (h : ExprOk e) : StmtClaim (.ret e) := by
  intro s rest t r hg hnl hs hf
  let x := text levelBelow e ++ 10 :: rest
  have hs' : s.src = 32 :: kwReturn ++ x := by rw [hs, textStmt]; simp [x, kwReturn]
  have hnt : nextTok s = _ := (congrArg _ hs').trans
    (lex_key s.total s.nl kwReturn x (by simp) (textSep e h _))
  have hl2 : lex s.total s.nl (10 :: rest) = (⟨.newLine, s.total - (rest.length + 1), [10]⟩, rest) := by
    rw [hnl]; exact lex_newLine _ _
  obtain ⟨m, hm⟩ := (claim_all e h).ends (s := { s with src := x }) ⟨hg.back, hg.inStr, hg.mute⟩ (o := maxPrec) false
    (rest := 10 :: rest) rfl (.inr (.inr ⟨_, rfl⟩))
    (level_lt e) (by
      rw [show lex ({ s with src := x } : PS).total ({ s with src := x } : PS).nl (10 :: rest) = _ from hl2]
      exact ends_of (ty := .newLine) (by decide) (by decide) rfl)
  refine ⟨m + 1, peek { s with src := 10 :: rest }, ?_, ?_⟩
  · rw [parseStmt, bind_ok (read_good hg.back hg.inStr), hnt]
    dsimp only
    rw [if_neg (by simp [isKey]; decide), if_neg (by simp [isKey]; decide), if_pos (by simp [isKey]), bind_ok hm,
      pure_ok]
  · intro acc k res hk
    rw [blockLoop_congr (read_peek (s := { s with src := 10 :: rest }) hg.back hg.inStr)]
    rw [loop_newLine hg hnl rest]
    exact hk

theorem while_claim {e : Expr} {b : List Stmt} (h : ExprOk e) (hb : BodyClaim b) : StmtClaim (.while_ e (some b)) := by
  intro s rest t r hg hnl hs hf
  let y := textBlock levelBelow (some b) ++ 10 :: rest
  let x := text levelBelow e ++ y
  have hs' : s.src = 32 :: kwWhile ++ x := by rw [hs, textStmt]; simp [x, y, kwWhile]
  have hnt : nextTok s = _ := (congrArg _ hs').trans
    (lex_key s.total s.nl kwWhile x (by simp) (textSep e h _))
  have hy : ∃ z, y = 32 :: 123 :: z := ⟨_, rfl⟩
  have hl2 : ∃ z, lex s.total s.nl y = (⟨.openCurly, s.total - (z.length + 1), [123]⟩, z) := by
    obtain ⟨z, hz⟩ := hy
    exact ⟨z, by rw [hz]; exact lex_openCurly _ _ _⟩
  obtain ⟨z, hl2⟩ := hl2
  obtain ⟨m, hm⟩ := (claim_all e h).ends (s := { s with src := x }) ⟨hg.back, hg.inStr, hg.mute⟩ (o := maxPrec) false
    (rest := y) rfl (block_sep _ rfl _)
    (level_lt e) (by
      rw [show lex ({ s with src := x } : PS).total ({ s with src := x } : PS).nl y = _ from hl2]
      exact ends_of (ty := .openCurly) (by decide) (by decide) rfl)
  obtain ⟨k, hk⟩ := block_peeked hb (s := { s with src := y }) (rest := 10 :: rest) ⟨hg.back, hg.inStr, hg.mute⟩ false rfl
  refine ⟨max m k + 1, { s with src := 10 :: rest }, ?_, ?_⟩
  · rw [parseStmt, bind_ok (read_good hg.back hg.inStr), hnt]
    dsimp only
    rw [if_neg (by simp [isKey]; decide), if_pos (by simp [isKey]), bind_ok (expr_up (Nat.le_max_left m k) hm)]
    rw [bind_ok (withNl_ok (block_up (Nat.le_max_right m k) hk)), pure_ok]
    have : (peek { s with src := y }).nl = s.nl := by
      rw [peek_eq hl2 (by simp)]
    rw [this]
  · intro acc k res hk
    rw [loop_newLine hg hnl rest]
    exact hk

theorem if_claim {e : Expr} {b : List Stmt} (h : ExprOk e) (hb : BodyClaim b) : StmtClaim (.if_ e (some b) none) := by
  intro s rest t r hg hnl hs hf
  let y := textBlock levelBelow (some b) ++ 10 :: rest
  let x := text levelBelow e ++ y
  have hs' : s.src = 32 :: kwIf ++ x := by rw [hs, textStmt]; simp [x, y, kwIf, textElse]
  have hnt : nextTok s = _ := (congrArg _ hs').trans
    (lex_key s.total s.nl kwIf x (by simp) (textSep e h _))
  have hy : ∃ z, y = 32 :: 123 :: z := ⟨_, rfl⟩
  have hl2 : ∃ z, lex s.total s.nl y = (⟨.openCurly, s.total - (z.length + 1), [123]⟩, z) := by
    obtain ⟨z, hz⟩ := hy
    exact ⟨z, by rw [hz]; exact lex_openCurly _ _ _⟩
  obtain ⟨z, hl2⟩ := hl2
  obtain ⟨m, hm⟩ := (claim_all e h).ends (s := { s with src := x }) ⟨hg.back, hg.inStr, hg.mute⟩ (o := maxPrec) false
    (rest := y) rfl (block_sep _ rfl _)
    (level_lt e) (by
      rw [show lex ({ s with src := x } : PS).total ({ s with src := x } : PS).nl y = _ from hl2]
      exact ends_of (ty := .openCurly) (by decide) (by decide) rfl)
  obtain ⟨k, hk⟩ := block_peeked hb (s := { s with src := y }) (rest := 10 :: rest) ⟨hg.back, hg.inStr, hg.mute⟩ s.nl rfl
  have hpn : (peek { s with src := y }).nl = s.nl := by rw [peek_eq hl2 (by simp)]
  have hpk : { peek { s with src := y } with nl := s.nl } = peek { s with src := y } := nl_self hpn
  rw [hpk] at hk
  let s2 : PS := { s with src := 10 :: rest, nl := false }
  have hnt2 : nextTok s2 = (t, r) := by
    unfold nextTok
    exact (lex_skipNewLine s.total rest).trans (hf.lex false)
  have hrw := rewind_next (s := s2) hg.back
  rw [hnt2] at hrw
  refine ⟨max m k + 1, { s with src := r, back := some t }, ?_, ?_⟩
  · rw [parseStmt, bind_ok (read_good hg.back hg.inStr), hnt]
    dsimp only
    rw [if_pos (by simp [isKey]), bind_ok (expr_up (Nat.le_max_left m k) hm),
      bind_ok (block_up (Nat.le_max_right m k) hk)]
    rw [bind_ok (withNl_ok (s' := peek s2) (a := none) _), pure_ok]
    · rw [peek_eq (s := s2) hnt2 hf.eof]
    · rw [bind_ok (read_good (s := s2) hg.back hg.inStr), hnt2, hf.notElse]
      simp only [Bool.false_eq_true, if_false]
      rw [bind_ok hrw, pure_ok]
  · intro acc k res hk
    refine loop_up (Nat.le_succ k) ?_
    rw [← hk]
    refine blockLoop_congr ?_ _ _
    rw [read_back (t := t) rfl hf.newLine, read_good (s := { s with src := rest }) hg.back hg.inStr]
    have : nextTok { s with src := rest } = (t, r) := hf.lex _
    rw [this]
    have := hg.back
    cases s
    simp_all

theorem ifElse_claim {e : Expr} {b c : List Stmt} (h : ExprOk e) (hb : BodyClaim b) (hc : BodyClaim c) :
    StmtClaim (.if_ e (some b) (some c)) := by
  intro s rest t r hg hnl hs hf
  let w := textBlock levelBelow (some c) ++ 10 :: rest
  let v := 32 :: kwElse ++ w
  let y := textBlock levelBelow (some b) ++ v
  let x := text levelBelow e ++ y
  have hs' : s.src = 32 :: kwIf ++ x := by rw [hs, textStmt]; simp [x, y, v, w, kwIf, kwElse, textElse, textBlock]
  have hnt : nextTok s = _ := (congrArg _ hs').trans
    (lex_key s.total s.nl kwIf x (by simp) (textSep e h _))
  have hy : ∃ z, y = 32 :: 123 :: z := ⟨_, rfl⟩
  have hl2 : ∃ z, lex s.total s.nl y = (⟨.openCurly, s.total - (z.length + 1), [123]⟩, z) := by
    obtain ⟨z, hz⟩ := hy
    exact ⟨z, by rw [hz]; exact lex_openCurly _ _ _⟩
  obtain ⟨z, hl2⟩ := hl2
  obtain ⟨m, hm⟩ := (claim_all e h).ends (s := { s with src := x }) ⟨hg.back, hg.inStr, hg.mute⟩ (o := maxPrec) false
    (rest := y) rfl (block_sep _ rfl _)
    (level_lt e) (by
      rw [show lex ({ s with src := x } : PS).total ({ s with src := x } : PS).nl y = _ from hl2]
      exact ends_of (ty := .openCurly) (by decide) (by decide) rfl)
  obtain ⟨k, hk⟩ := block_peeked hb (s := { s with src := y }) (rest := v) ⟨hg.back, hg.inStr, hg.mute⟩ s.nl rfl
  have hpn : (peek { s with src := y }).nl = s.nl := by rw [peek_eq hl2 (by simp)]
  have hpk : { peek { s with src := y } with nl := s.nl } = peek { s with src := y } := nl_self hpn
  rw [hpk] at hk
  let s2 : PS := { s with src := v, nl := false }
  have hnt2 : nextTok s2 = _ := lex_key s.total false kwElse w (by simp) (block_sep _ rfl _)
  obtain ⟨q, hq⟩ := block_plain hc true (s := { s with src := w, nl := false }) (rest := 10 :: rest)
    ⟨hg.back, hg.inStr, hg.mute⟩ rfl
  refine ⟨max m (max k q) + 1, { s with src := 10 :: rest }, ?_, ?_⟩
  · rw [parseStmt, bind_ok (read_good hg.back hg.inStr), hnt]
    dsimp only
    rw [if_pos (by simp [isKey]), bind_ok (expr_up (Nat.le_max_left m _) hm),
      bind_ok (block_up (by omega) hk)]
    rw [bind_ok (withNl_ok (s' := { s with src := 10 :: rest, nl := false }) (a := some c) _), pure_ok]
    rw [bind_ok (read_good (s := s2) hg.back hg.inStr), hnt2]
    dsimp only
    rw [if_pos (by simp [isKey])]
    exact block_up (by omega) hq
  · intro acc k res hk
    rw [loop_newLine hg hnl rest]
    exact hk

mutual
theorem stmt_claim (st : Stmt) (h : StmtOk st) : StmtClaim st := by
  match st, h with
  | .eval e, h => rw [StmtOk] at h; exact eval_claim h
  | .assign l r, h => rw [StmtOk] at h; exact assign_claim h.1 h.2
  | .ret e, h => rw [StmtOk] at h; exact ret_claim h
  | .while_ c (some b), h =>
    rw [StmtOk, BlockOk] at h
    exact while_claim h.1 (body_claim b h.2.2)
  | .while_ c none, h => rw [StmtOk] at h; cases h.2.1
  | .if_ c none f, h => rw [StmtOk] at h; cases h.2.1
  | .if_ c (some b) none, h =>
    rw [StmtOk, BlockOk] at h
    exact if_claim h.1 (body_claim b h.2.2.1)
  | .if_ c (some b) (some f), h =>
    rw [StmtOk, BlockOk, BlockOk] at h
    exact ifElse_claim h.1 (body_claim b h.2.2.1) (body_claim f h.2.2.2)
  | .func n ps b, h => rw [StmtOk] at h; exact h.elim

theorem body_claim (b : List Stmt) (h : StmtsOk b) : BodyClaim b := by
  match b, h with
  | [], _ =>
    intro s rest acc hg hn hs
    rw [textStmts] at hs
    have : nextTok s = _ := (congrArg _ hs).trans (lex_closeCurly s.total s.nl rest)
    refine ⟨1, ?_⟩
    rw [blockLoop, bind_ok (read_good hg.back hg.inStr), this]
    dsimp only
    rw [if_neg (by simp), if_pos rfl, pure_ok, List.append_nil]
  | st :: b, h =>
    rw [StmtsOk] at h
    intro s rest acc hg hn hs
    let x := textStmts levelBelow b ++ 32 :: 125 :: rest
    have hs' : s.src = textStmt levelBelow st ++ x := by rw [hs, textStmts]; simp [x]
    obtain ⟨t, r, hf⟩ := stmts_first s.total b h.2 rest
    obtain ⟨t1, r1, hb⟩ := stmt_begins s.total st h.1 x
    obtain ⟨n, s', h1, h2⟩ := stmt_claim st h.1 s x t r hg hn hs' hf
    obtain ⟨m, h3⟩ := body_claim b h.2 { s with src := x } rest (acc ++ [st]) ⟨hg.back, hg.inStr, hg.mute⟩ hn rfl
    have hnt : nextTok s = (t1, r1) := (congrArg _ hs').trans (hb.lex _)
    have hrw := rewind_next (s := s) hg.back
    rw [hnt] at hrw
    refine ⟨max n (m + 1) + 1, ?_⟩
    rw [blockLoop, bind_ok (read_good hg.back hg.inStr), hnt]
    dsimp only
    rw [if_neg (by rintro (e | e); exact hb.newLine e; exact hb.semicolon e), if_neg hb.curly, if_neg hb.eof,
      bind_ok hrw, bind_ok ((parseStmt_congr (read_peek hg.back hg.inStr) _).trans (stmt_up (Nat.le_max_left ..) h1))]
    have := loop_up (Nat.le_max_right n (m + 1)) (h2 _ _ _ h3)
    rw [List.append_assoc] at this
    exact this
end

end Verif.Crowbar
