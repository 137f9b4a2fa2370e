import Verif.Crowbar.LemmasLex

/-!
# Parsing printed expressions
-/

namespace Verif.Crowbar

theorem bind_ok {m : P α} {f : α → P β} {s s' : PS} {a : α} (h : m s = .ok (a, s')) :
    (m >>= f) s = f a s' := by
  show P.bind m f s = _
  unfold P.bind
  rw [h]

theorem pure_ok (a : α) (s : PS) : (pure a : P α) s = .ok (a, s) := rfl

theorem withNl_ok {b : Bool} {m : P α} {s s' : PS} {a : α} (h : m { s with nl := b } = .ok (a, s')) :
    withNl b m s = .ok (a, { s' with nl := s.nl }) := by
  unfold withNl; rw [h]

theorem withInStr_ok {b : Bool} {m : P α} {s s' : PS} {a : α} (h : m { s with inStr := b } = .ok (a, s')) :
    withInStr b m s = .ok (a, { s' with inStr := s.inStr }) := by
  unfold withInStr; rw [h]

theorem withAccept_ok {f : Accept → Accept} {m : P α} {s s' : PS} {a : α}
    (h : m { s with acc := f s.acc } = .ok (a, s')) :
    withAccept f m s = .ok (a, { s' with acc := s.acc }) := by
  unfold withAccept; rw [h]

/-- Nothing pushed back, outside a string, no error being recovered from. -/
structure Good (s : PS) : Prop where
  back : s.back = none
  inStr : s.inStr = false
  mute : s.mute = false

/-- The next token and the rest. -/
def nextTok (s : PS) : Tok × List Byte := lex s.total s.nl s.src

theorem read_good {s : PS} (h : s.back = none) (hi : s.inStr = false) :
    read s = .ok ((nextTok s).1, { s with src := (nextTok s).2 }) := by
  unfold read freshTok nextTok
  rw [h]
  dsimp only
  rw [hi]
  simp

theorem lexF_eof (total : Nat) (nl : Bool) (k : Nat) : ∀ src : List Byte, src.length < k →
    (lexF total nl k src).1.ty = .endOfFile → lexF total nl k src = (⟨.endOfFile, total, []⟩, []) := by
  induction k with
  | zero => intro src h; omega
  | succ k ih =>
    intro src hl
    cases src with
    | nil => intro _; rfl
    | cons c r =>
      have hlr : r.length < k := by simpa using hl
      have hp : ∀ c, punct c ≠ .endOfFile := by intro c; revert c; apply forall_byte; decide +kernel
      have ht : ∀ c, ∀ x, twoByte c = some x → x.2.1 ≠ .endOfFile ∧ x.2.2 ≠ .endOfFile := by
        intro c; revert c; apply forall_byte; decide +kernel
      have hsl : ∀ r : List Byte, (skipLine r).length ≤ r.length := by
        intro r
        induction r with
        | nil => simp [skipLine]
        | cons c r ih => rw [skipLine]; split <;> simp; omega
      have hsc : ∀ n, ∀ r : List Byte, r.length ≤ n → (skipC r).length ≤ r.length := by
        intro n
        induction n with
        | zero => intro r hr; cases r with
          | nil => simp [skipC]
          | cons _ _ => simp at hr
        | succ n ih =>
          intro r hr
          cases r with
          | nil => simp [skipC]
          | cons c r =>
            have hr' : r.length ≤ n := by simpa using hr
            have := ih r hr'
            rw [skipC.eq_def]
            dsimp only
            split
            · cases r with
              | nil => simp
              | cons d r' =>
                dsimp only
                split
                · simp; omega
                · simp only [List.length_cons] at this ⊢; omega
            · simp only [List.length_cons]; omega
      have hdl : (r.dropWhile isBlank).length ≤ r.length := by
        have := List.dropWhile_suffix (l := r) isBlank
        exact this.length_le
      rw [lexF.eq_def]
      dsimp only
      split
      · intro h; exact absurd h (by simp)
      · split
        · intro h; exact absurd h (by simp)
        · split
          · split
            · intro h; exact absurd h (by simp)
            · exact ih r hlr
          · split
            · exact ih _ (by omega)
            · split
              · cases r with
                | nil => intro h; exact absurd h (by simp)
                | cons d r' =>
                  simp only [List.length_cons] at hlr
                  dsimp only
                  split
                  · exact ih _ (by have := hsl r'; omega)
                  · split
                    · exact ih _ (by have := hsc r'.length r' (Nat.le_refl _); omega)
                    · split
                      · intro h; exact absurd h (by simp)
                      · intro h; exact absurd h (by simp)
              · cases hx : twoByte c with
                | none =>
                  dsimp only
                  intro h; exact absurd h (hp c)
                | some x =>
                  obtain ⟨sec, both, single⟩ := x
                  dsimp only
                  cases r with
                  | nil => intro h; exact absurd h (ht c _ hx).2
                  | cons d r' =>
                    dsimp only
                    split
                    · intro h; exact absurd h (ht c _ hx).1
                    · intro h; exact absurd h (ht c _ hx).2

theorem lex_eof {total : Nat} {nl : Bool} {src : List Byte} (h : (lex total nl src).1.ty = .endOfFile) :
    lex total nl src = (⟨.endOfFile, total, []⟩, []) :=
  lexF_eof total nl _ src (Nat.lt_succ_self _) h

theorem lexF_noNl (total : Nat) (k : Nat) : ∀ src : List Byte, (lexF total false k src).1.ty ≠ .newLine := by
  induction k with
  | zero => intro src; simp [lexF]
  | succ k ih =>
    intro src
    cases src with
    | nil => simp [lexF]
    | cons c r =>
      have hp : ∀ c, punct c ≠ .newLine := by intro c; revert c; apply forall_byte; decide +kernel
      have ht : ∀ c, ∀ x, twoByte c = some x → x.2.1 ≠ .newLine ∧ x.2.2 ≠ .newLine := by
        intro c; revert c; apply forall_byte; decide +kernel
      rw [lexF.eq_def]
      dsimp only
      split
      · simp
      · split
        · simp
        · split
          · exact ih r
          · split
            · exact ih _
            · split
              · cases r with
                | nil => simp
                | cons d r' =>
                  dsimp only
                  split
                  · exact ih _
                  · split
                    · exact ih _
                    · split <;> simp
              · cases hx : twoByte c with
                | none => exact hp c
                | some x =>
                  obtain ⟨sec, both, single⟩ := x
                  dsimp only
                  cases r with
                  | nil => exact (ht c _ hx).2
                  | cons d r' =>
                    dsimp only
                    split
                    · exact (ht c _ hx).1
                    · exact (ht c _ hx).2

theorem lex_noNl {total : Nat} {src : List Byte} : (lex total false src).1.ty ≠ .newLine := lexF_noNl _ _ _

/-- The state after looking at the next token and pushing it back. -/
def peek (s : PS) : PS :=
  if (nextTok s).1.ty = .endOfFile then { s with src := (nextTok s).2 }
  else { s with src := (nextTok s).2, back := some (nextTok s).1 }

theorem read_peek {s : PS} (h : s.back = none) (hi : s.inStr = false) : read (peek s) = read s := by
  rw [read_good h hi]
  unfold peek
  by_cases he : (nextTok s).1.ty = .endOfFile
  · rw [if_pos he]
    have hx : nextTok s = _ := lex_eof he
    rw [read_good (by simpa using h) (by simpa using hi)]
    have h2 : nextTok { s with src := (nextTok s).2 } = (⟨.endOfFile, s.total, []⟩, []) := by
      rw [hx]; rfl
    rw [h2, hx]
  · rw [if_neg he]
    unfold read
    dsimp only
    have : ¬ ((nextTok s).1.ty = .newLine ∧ s.nl = false) := by
      rintro ⟨h1, h2⟩
      unfold nextTok at h1
      rw [h2] at h1
      exact lex_noNl h1
    rw [if_neg this]
    cases s
    simp_all

theorem rewind_next {s : PS} (h : s.back = none) :
    rewind (nextTok s).1 { s with src := (nextTok s).2 } = .ok ((), peek s) := by
  unfold rewind peek
  by_cases he : (nextTok s).1.ty = .endOfFile
  · rw [if_pos he, if_pos he]
  · rw [if_neg he, if_neg he]

theorem peek_mute (s : PS) : (peek s).mute = s.mute := by unfold peek; split <;> rfl

theorem setMute_peek {s : PS} (h : s.mute = false) : setMute false (peek s) = .ok ((), peek s) := by
  unfold setMute peek
  split <;> (cases s; simp_all)

theorem setMute_good {s : PS} (h : s.mute = false) : setMute false s = .ok ((), s) := by
  unfold setMute
  cases s; simp_all

theorem extend_congr {s s' : PS} (h : read s = read s') (n o : Nat) (e : Expr) :
    extend n o e s = extend n o e s' := by
  cases n with
  | zero => rfl
  | succ n =>
    rw [extend]
    show P.bind read _ s = P.bind read _ s'
    unfold P.bind
    rw [h]

/-- The next token does not extend an expression at this level. -/
def Ends (outer : Nat) (ty : TokTy) : Prop :=
  ty ≠ .openParen ∧ ty ≠ .dot ∧ ∀ op, toBin ty = some op → outer ≤ prec op

theorem extend_ends {s : PS} (h : s.back = none) (hi : s.inStr = false) {o : Nat}
    (he : Ends o (nextTok s).1.ty) (e : Expr) (n : Nat) : extend (n + 1) o e s = .ok (e, peek s) := by
  obtain ⟨h1, h2, h3⟩ := he
  rw [extend, bind_ok (read_good h hi), if_neg h1, if_neg h2]
  cases hb : toBin (nextTok s).1.ty with
  | some op =>
    dsimp only
    rw [if_pos (h3 op hb), bind_ok (rewind_next h), pure_ok]
  | none =>
    dsimp only
    rw [bind_ok (rewind_next h), pure_ok]

/-- The level of what may stand before the next token without brackets. -/
def Stops (l : Nat) (ty : TokTy) : Prop := 3 ≤ l → Ends l ty

theorem Ends.mono {l l' : Nat} {ty : TokTy} (h : Ends l ty) (hl : l' ≤ l) : Ends l' ty :=
  ⟨h.1, h.2.1, fun op hop => Nat.le_trans hl (h.2.2 op hop)⟩

theorem Stops.mono {l l' : Nat} {ty : TokTy} (h : Stops l ty) (hl : l' ≤ l) : Stops l' ty :=
  fun h3 => (h (Nat.le_trans h3 hl)).mono hl

/-- Reading a printed expression amounts to having it and going on with the rest. -/
def Claim (e : Expr) : Prop := ∀ (s : PS) (outer : Nat) (b : Bool) (rest : List Byte) (res : Expr × PS),
  Good s → s.src = text levelBelow e ++ rest → Sep rest →
  Stops (level levelBelow e) (lex s.total s.nl rest).1.ty → level levelBelow e < outer →
  (∃ n, extend n outer e { s with src := rest } = .ok res) → ∃ n, parseExpr n outer b s = .ok res

def ClaimB (e : Expr) (limit : Nat) : Prop :=
  ∀ (s : PS) (outer : Nat) (b : Bool) (rest : List Byte) (res : Expr × PS),
  Good s → s.src = bracket (level levelBelow e) limit (text levelBelow e) ++ rest → Sep rest →
  Stops limit (lex s.total s.nl rest).1.ty → limit < outer →
  (∃ n, extend n outer e { s with src := rest } = .ok res) → ∃ n, parseExpr n outer b s = .ok res

theorem expr_up {o : Nat} {b : Bool} {s : PS} {r : Expr × PS} {n m : Nat} (hnm : n ≤ m)
    (h : parseExpr n o b s = .ok r) : parseExpr m o b s = .ok r :=
  mono_ok (f := fun n => parseExpr n o b) (fun n => (expr_mono n).1 o b) hnm h

theorem extend_up {o : Nat} {e : Expr} {s : PS} {r : Expr × PS} {n m : Nat} (hnm : n ≤ m)
    (h : extend n o e s = .ok r) : extend m o e s = .ok r :=
  mono_ok (f := fun n => extend n o e) (fun n => (expr_mono n).2.1 o e) hnm h

theorem args_up {c : Expr} {s : PS} {r : Expr × PS} {n m : Nat} (hnm : n ≤ m)
    (h : parseArgs n c s = .ok r) : parseArgs m c s = .ok r :=
  mono_ok (f := fun n => parseArgs n c) (fun n => (expr_mono n).2.2.1 c) hnm h

theorem argLoop_up {c : Expr} {as : List Expr} {s : PS} {r : Expr × PS} {n m : Nat} (hnm : n ≤ m)
    (h : argLoop n c as s = .ok r) : argLoop m c as s = .ok r :=
  mono_ok (f := fun n => argLoop n c as) (fun n => (expr_mono n).2.2.2.1 c as) hnm h

theorem string_up {ps : List Piece} {s : PS} {r : List Piece × PS} {n m : Nat} (hnm : n ≤ m)
    (h : parseString n ps s = .ok r) : parseString m ps s = .ok r :=
  mono_ok (f := fun n => parseString n ps) (fun n => (expr_mono n).2.2.2.2 ps) hnm h

/-- Parsing an expression that is followed by a token that ends it. -/
theorem Claim.ends {e : Expr} (h : Claim e) {s : PS} (hg : Good s) {o : Nat} (b : Bool) {rest : List Byte}
    (hs : s.src = text levelBelow e ++ rest) (hr : Sep rest) (hl : level levelBelow e < o)
    (he : Ends (max o (level levelBelow e)) (lex s.total s.nl rest).1.ty) :
    ∃ n, parseExpr n o b s = .ok (e, peek { s with src := rest }) := by
  refine h s o b rest _ hg hs hr (fun _ => he.mono (Nat.le_max_right ..)) hl ⟨1, ?_⟩
  exact extend_ends (s := { s with src := rest }) hg.back hg.inStr (he.mono (Nat.le_max_left ..)) e 0

theorem lex_close (total : Nat) (nl : Bool) (r : List Byte) :
    lex total nl (32 :: 41 :: r) = (⟨.closeParen, total - (r.length + 1), [41]⟩, r) :=
  lex_solid total nl 41 r rfl
theorem lex_open (total : Nat) (nl : Bool) (r : List Byte) :
    lex total nl (32 :: 40 :: r) = (⟨.openParen, total - (r.length + 1), [40]⟩, r) :=
  lex_solid total nl 40 r rfl
theorem lex_dot (total : Nat) (nl : Bool) (r : List Byte) :
    lex total nl (32 :: 46 :: r) = (⟨.dot, total - (r.length + 1), [46]⟩, r) :=
  lex_solid total nl 46 r rfl
theorem lex_comma (total : Nat) (nl : Bool) (r : List Byte) :
    lex total nl (32 :: 44 :: r) = (⟨.comma, total - (r.length + 1), [44]⟩, r) :=
  lex_solid total nl 44 r rfl
theorem lex_quote (total : Nat) (nl : Bool) (r : List Byte) :
    lex total nl (32 :: 34 :: r) = (⟨.beginString, total - (r.length + 1), [34]⟩, r) :=
  lex_solid total nl 34 r rfl
theorem lex_closeCurly (total : Nat) (nl : Bool) (r : List Byte) :
    lex total nl (32 :: 125 :: r) = (⟨.closeCurly, total - (r.length + 1), [125]⟩, r) :=
  lex_solid total nl 125 r rfl
theorem lex_openCurly (total : Nat) (nl : Bool) (r : List Byte) :
    lex total nl (32 :: 123 :: r) = (⟨.openCurly, total - (r.length + 1), [123]⟩, r) :=
  lex_solid total nl 123 r rfl

theorem ends_of {o : Nat} {ty : TokTy} (h1 : ty ≠ .openParen) (h2 : ty ≠ .dot) (h3 : toBin ty = none) :
    Ends o ty := ⟨h1, h2, fun op h => by rw [h3] at h; cases h⟩

theorem level_lt (e : Expr) : level levelBelow e < maxPrec := by
  cases e <;> simp only [level, levelBelow, maxPrec]
  case bin op _ _ => cases op <;> simp only [cLevel] <;> decide
  all_goals decide

theorem level_le (e : Expr) : level levelBelow e ≤ levelBelow := by
  cases e <;> simp only [level, levelBelow]
  case bin op _ _ => cases op <;> simp only [cLevel] <;> decide
  all_goals decide

theorem cLevel_eq (op : BinOp) : cLevel op = prec op := by cases op <;> rfl

/-- An expression in brackets. -/
theorem claim_paren {e : Expr} (h : Claim e) {s : PS} {outer : Nat} {b : Bool} {rest : List Byte}
    {res : Expr × PS} (hg : Good s) (hs : s.src = 32 :: 40 :: (text levelBelow e ++ 32 :: 41 :: rest))
    (hx : ∃ n, extend n outer e { s with src := rest } = .ok res) : ∃ n, parseExpr n outer b s = .ok res := by
  obtain ⟨n, hx⟩ := hx
  let s1 : PS := { s with acc := s.acc.orParen, nl := false, src := text levelBelow e ++ 32 :: 41 :: rest }
  have hg1 : Good s1 := ⟨hg.back, hg.inStr, hg.mute⟩
  obtain ⟨m, hm⟩ := h.ends hg1 (o := maxPrec) false (rest := 32 :: 41 :: rest) rfl (.inr (.inl ⟨_, rfl⟩))
    (level_lt e) (by rw [lex_close]; exact ends_of (ty := .closeParen) (by decide) (by decide) rfl)
  refine ⟨max n m + 1, ?_⟩
  have hn : nextTok s = (⟨.openParen, s.total - ((text levelBelow e ++ 32 :: 41 :: rest).length + 1), [40]⟩,
      text levelBelow e ++ 32 :: 41 :: rest) := by
    unfold nextTok; rw [hs, lex_open]
  rw [parseExpr, bind_ok (read_good hg.back hg.inStr), hn, if_pos rfl]
  have hin : (withAccept Accept.orParen (withNl false (do
        let e ← parseExpr (max n m) maxPrec false
        let c ← read
        if c.ty = .closeParen then do
          setMute false
          pure e
        else do
          let _ ← error (max n m) c .pushBack .closeParen
          pure e))) { s with src := text levelBelow e ++ 32 :: 41 :: rest } = .ok (e, { s with src := rest }) := by
    rw [withAccept_ok (s' := { s with acc := s.acc.orParen, src := rest }) (a := e)]
    refine (withNl_ok (s' := { s with acc := s.acc.orParen, nl := false, src := rest }) (a := e) ?_)
    rw [bind_ok (expr_up (Nat.le_max_right n m) hm)]
    have hr : read (peek { s1 with src := 32 :: 41 :: rest }) =
        .ok (⟨.closeParen, s.total - (rest.length + 1), [41]⟩, { s1 with src := rest }) := by
      rw [read_peek (s := { s1 with src := 32 :: 41 :: rest }) hg1.back hg1.inStr,
        read_good (s := { s1 with src := 32 :: 41 :: rest }) hg1.back hg1.inStr]
      unfold nextTok
      rw [show ({ s1 with src := 32 :: 41 :: rest } : PS).src = 32 :: 41 :: rest from rfl, lex_close]
    rw [bind_ok hr, if_pos rfl, bind_ok (setMute_good (s := { s1 with src := rest }) hg1.mute), pure_ok]
  rw [bind_ok hin, bind_ok (setMute_good (s := { s with src := rest }) hg.mute)]
  exact extend_up (Nat.le_max_left n m) hx

theorem Claim.bracket {e : Expr} (h : Claim e) (limit : Nat) : ClaimB e limit := by
  intro s outer b rest res hg hs hr hst hl hx
  unfold Crowbar.bracket at hs
  split at hs
  · next hle => exact h s outer b rest res hg hs hr (hst.mono hle) (Nat.lt_of_le_of_lt hle hl) hx
  · exact claim_paren h hg (by rw [hs]; simp) hx

theorem toBin_ends {ty : TokTy} {op : BinOp} (h : toBin ty = some op) {l : Nat} (hl : l ≤ prec op) : Ends l ty := by
  refine ⟨?_, ?_, ?_⟩
  · intro e; subst e; cases h
  · intro e; subst e; cases h
  · intro op' h'; rw [h] at h'; cases h'; exact hl

theorem sep_binText (op : BinOp) (r : List Byte) : Sep (32 :: binText op ++ r) := .inr (.inl ⟨_, rfl⟩)

theorem text_head (e : Expr) (h : ExprOk e) : ∃ c r, text levelBelow e = 32 :: c :: r ∧ solid c = true := by
  have hb : ∀ (e : Expr) (limit : Nat), (∃ c r, text levelBelow e = 32 :: c :: r ∧ solid c = true) → ∀ x,
      ∃ c r, bracket (level levelBelow e) limit (text levelBelow e) ++ x = 32 :: c :: r ∧ solid c = true := by
    intro e limit ⟨c, r, h1, h2⟩ x
    unfold bracket
    split
    · exact ⟨c, r ++ x, by rw [h1]; rfl, h2⟩
    · exact ⟨40, text levelBelow e ++ ([32, 41] ++ x), by simp, rfl⟩
  have hname : ∀ n, NameOk n → ∃ c r, (32 : Byte) :: n = 32 :: c :: r ∧ solid c = true := by
    rintro n ⟨⟨b, m, e, hb, -⟩, -⟩
    refine ⟨b, m, by rw [e], ?_⟩
    have hb' := (nameStart_iff b).mpr hb
    clear hb; clear e; revert hb'; revert b; apply forall_byte; decide +kernel
  match e, h with
  | .name n, h => rw [text]; exact hname n h
  | .int v, _ =>
    rw [text]
    obtain ⟨h0, hd⟩ := decimal_digits v
    cases hv : decimal v with
    | nil => exact absurd hv h0
    | cons b m =>
      refine ⟨b, m, rfl, ?_⟩
      have hb := hd b (by rw [hv]; exact List.mem_cons_self ..)
      clear hv; revert hb; revert b; apply forall_byte; decide +kernel
  | .str ps, _ => rw [text]; exact ⟨34, _, by simp; rfl, rfl⟩
  | .prop o n, h => rw [text]; exact hb o 1 (text_head o (by rw [ExprOk] at h; exact h.1)) _
  | .bin op l r, h => rw [text]; exact hb l _ (text_head l (by rw [ExprOk] at h; exact h.1)) _
  | .un op e, _ => rw [text]; cases op <;> exact ⟨_, _, rfl, rfl⟩
  | .call f as, h => rw [text]; exact hb f 1 (text_head f (by rw [ExprOk] at h; exact h.1)) _

theorem text_sep (e : Expr) (h : ExprOk e) (x : List Byte) : Sep (text levelBelow e ++ x) := by
  obtain ⟨c, r, h1, -⟩ := text_head e h
  exact .inr (.inl ⟨c :: r ++ x, by rw [h1]; rfl⟩)

theorem bracket_sep (e : Expr) (h : ExprOk e) (l : Nat) (x : List Byte) :
    Sep (bracket (level levelBelow e) l (text levelBelow e) ++ x) := by
  unfold bracket
  split
  · exact text_sep e h x
  · exact .inr (.inl ⟨_, rfl⟩)

/-- The tokens an expression may begin with. -/
def startTy (ty : TokTy) : Bool :=
  ty == .identifier || ty == .numericLiteral || ty == .beginString || ty == .openParen || ty == .minus ||
    ty == .bang || ty == .tilde

/-- The first token of a printed expression. -/
theorem text_first (total : Nat) (e : Expr) (h : ExprOk e) (x : List Byte) (hx : Sep x) :
    ∃ (t : Tok) (r : List Byte), (∀ nl, lex total nl (text levelBelow e ++ x) = (t, r)) ∧ startTy t.ty = true ∧
      (t.ty = .identifier → NameOk t.text) := by
  have hb : ∀ (e : Expr) (limit : Nat) (x y : List Byte),
      (∃ (t : Tok) (r : List Byte), (∀ nl, lex total nl (text levelBelow e ++ (x ++ y)) = (t, r)) ∧
        startTy t.ty = true ∧ (t.ty = .identifier → NameOk t.text)) →
      ∃ (t : Tok) (r : List Byte), (∀ nl, lex total nl
        ((bracket (level levelBelow e) limit (text levelBelow e) ++ x) ++ y) = (t, r)) ∧
        startTy t.ty = true ∧ (t.ty = .identifier → NameOk t.text) := by
    intro e limit x y h
    rw [List.append_assoc]
    unfold bracket
    split
    · exact h
    · have key := fun nl => lex_open total nl (text levelBelow e ++ ([32, 41] ++ (x ++ y)))
      rw [show [32, 40] ++ text levelBelow e ++ [32, 41] ++ (x ++ y) =
        32 :: 40 :: (text levelBelow e ++ ([32, 41] ++ (x ++ y))) by simp]
      exact ⟨_, _, key, rfl, fun h => by cases h⟩
  match e, h with
  | .name n, h =>
    rw [text]
    rw [ExprOk] at h
    exact ⟨_, _, fun nl => lex_name total nl n x h hx, rfl, fun _ => h⟩
  | .int v, _ =>
    rw [text]
    exact ⟨_, _, fun nl => lex_num total nl v x hx, rfl, fun h => by cases h⟩
  | .str ps, _ =>
    rw [text]
    have key := fun nl => lex_quote total nl (textPieces levelBelow ps ++ [34] ++ x)
    rw [show [32, 34] ++ textPieces levelBelow ps ++ [34] ++ x = 32 :: 34 :: (textPieces levelBelow ps ++ [34] ++ x) by
      simp]
    exact ⟨_, _, key, rfl, fun h => by cases h⟩
  | .prop o n, h =>
    rw [text]
    exact hb o 1 _ _ (text_first total o (by rw [ExprOk] at h; exact h.1) _ (.inr (.inl ⟨_, rfl⟩)))
  | .bin op l r, h =>
    rw [text]
    exact hb l _ _ _ (text_first total l (by rw [ExprOk] at h; exact h.1) _ (.inr (.inl ⟨_, rfl⟩)))
  | .un op e, _ =>
    rw [text]
    cases op <;> exact ⟨_, _, fun nl => lex_solid total nl _ _ rfl, rfl, fun h => by cases h⟩
  | .call f as, h =>
    rw [text]
    exact hb f 1 _ _ (text_first total f (by rw [ExprOk] at h; exact h.1) _ (.inr (.inl ⟨_, rfl⟩)))

theorem parseExpr_congr {s s' : PS} (h : read s = read s') (n o : Nat) (b : Bool) :
    parseExpr n o b s = parseExpr n o b s' := by
  cases n with
  | zero => rfl
  | succ n =>
    rw [parseExpr]
    show P.bind read _ s = P.bind read _ s'
    unfold P.bind
    rw [h]

theorem argLoop_congr {s s' : PS} (h : read s = read s') (n : Nat) (c : Expr) (as : List Expr) :
    argLoop n c as s = argLoop n c as s' := by
  cases n with
  | zero => rfl
  | succ n =>
    rw [argLoop]
    show P.bind (parseExpr n maxPrec false) _ s = P.bind (parseExpr n maxPrec false) _ s'
    unfold P.bind
    rw [parseExpr_congr h]

theorem ok_notNull {e : Expr} (h : ExprOk e) : e.isNull = false := by
  cases e <;> first | rfl | exact absurd h (by rw [ExprOk]; exact id)

theorem claim_bin {op : BinOp} {l r : Expr} (hl : Claim l) (hr : Claim r) (ho : ExprOk r) :
    Claim (.bin op l r) := by
  intro s outer b rest res hg hs hsep hst hlt ⟨n, hx⟩
  rw [text] at hs
  have hlv : level levelBelow (.bin op l r) = prec op := cLevel_eq op
  rw [hlv] at hst hlt
  rw [cLevel_eq] at hs
  have h3 : 3 ≤ prec op := by cases op <;> decide
  have hends := hst h3
  let tail := bracket (level levelBelow r) (prec op - 1) (text levelBelow r) ++ rest
  refine hl.bracket (prec op) s outer b (32 :: binText op ++ tail) res hg (by rw [hs]; simp [tail])
    (sep_binText _ _) ?_ hlt ?_
  · obtain ⟨t, ht, hb⟩ := lex_bin s.total s.nl op tail (bracket_sep r ho _ _)
    rw [ht]
    exact fun _ => toBin_ends hb (Nat.le_refl _)
  · obtain ⟨t, ht, hb⟩ := lex_bin s.total s.nl op tail (bracket_sep r ho _ _)
    obtain ⟨m, hm⟩ := hr.bracket (prec op - 1) { s with src := tail } (prec op) false rest
      (r, peek { s with src := rest }) ⟨hg.back, hg.inStr, hg.mute⟩ rfl hsep (hst.mono (Nat.sub_le ..)) (by omega)
      ⟨1, extend_ends (s := { s with src := rest }) hg.back hg.inStr hends r 0⟩
    refine ⟨max n m + 1, ?_⟩
    have hn : nextTok { s with src := 32 :: binText op ++ tail } = (t, tail) := ht
    have he := toBin_ends hb (l := 0) (Nat.zero_le _)
    rw [extend, bind_ok (read_good (s := { s with src := 32 :: binText op ++ tail }) hg.back hg.inStr), hn,
      if_neg he.1, if_neg he.2.1, hb]
    dsimp only
    rw [if_neg (by omega), bind_ok (expr_up (Nat.le_max_right n m) hm), if_neg (by rw [ok_notNull ho]; decide),
      extend_congr (read_peek (s := { s with src := rest }) hg.back hg.inStr)]
    exact extend_up (Nat.le_max_left n m) hx

theorem claim_un {op : UnOp} {e : Expr} (he : Claim e) (ho : ExprOk e) : Claim (.un op e) := by
  intro s outer b rest res hg hs hsep hst hlt ⟨n, hx⟩
  rw [text] at hs
  have hbr : bracket (level levelBelow e) levelBelow (text levelBelow e) = text levelBelow e :=
    if_pos (level_le e)
  rw [hbr] at hs
  have hends : Ends (max maxPrec (level levelBelow e)) (lex s.total s.nl rest).1.ty := by
    obtain ⟨h1, h2, h3⟩ := hst (by show 3 ≤ levelBelow; decide)
    refine ⟨h1, h2, fun op' hop => ?_⟩
    have := h3 op' hop
    have h4 : prec op' ≤ 12 := by cases op' <;> decide
    have : (100 : Nat) ≤ prec op' := this
    omega
  let tail := text levelBelow e ++ rest
  obtain ⟨m, hm⟩ := he.ends (s := { s with src := tail }) ⟨hg.back, hg.inStr, hg.mute⟩ (o := maxPrec) false
    (rest := rest) rfl hsep (level_lt e) hends
  refine ⟨max n m + 1, ?_⟩
  have ht : ∃ t : Tok, nextTok s = (t, tail) ∧ toUn t.ty = some op := by
    unfold nextTok
    rw [hs]
    cases op <;> exact ⟨_, lex_solid _ _ _ _ rfl, rfl⟩
  obtain ⟨t, ht, hu⟩ := ht
  rw [parseExpr, bind_ok (read_good hg.back hg.inStr), ht, if_neg (by intro h; rw [h] at hu; cases hu),
    if_neg (by intro h; rw [h] at hu; cases hu), if_neg (by intro h; rw [h] at hu; cases hu),
    if_neg (by intro h; rw [h] at hu; cases hu), hu]
  dsimp only
  rw [bind_ok (expr_up (Nat.le_max_right n m) hm), bind_ok (setMute_peek (s := { s with src := rest }) hg.mute),
    extend_congr (read_peek (s := { s with src := rest }) hg.back hg.inStr)]
  exact extend_up (Nat.le_max_left n m) hx

theorem claim_name {nm : List Byte} (h : NameOk nm) : Claim (.name nm) := by
  intro s outer b rest res hg hs hsep hst hlt ⟨n, hx⟩
  rw [text] at hs
  refine ⟨n + 1, ?_⟩
  have hn : nextTok s = (⟨.identifier, s.total - (nm ++ rest).length, nm⟩, rest) := by
    unfold nextTok; rw [hs, lex_name _ _ _ _ h hsep]
  rw [parseExpr, bind_ok (read_good hg.back hg.inStr), hn, if_neg (by simp), if_pos rfl,
    bind_ok (setMute_good (s := { s with src := rest }) hg.mute)]
  exact hx

theorem claim_int {v : Nat} (h : v < 2 ^ 32) : Claim (.int v) := by
  intro s outer b rest res hg hs hsep hst hlt ⟨n, hx⟩
  rw [text] at hs
  refine ⟨n + 1, ?_⟩
  have hn : nextTok s = (⟨.numericLiteral, s.total - (decimal v ++ rest).length, decimal v⟩, rest) := by
    unfold nextTok; rw [hs, lex_num _ _ _ _ hsep]
  rw [parseExpr, bind_ok (read_good hg.back hg.inStr), hn, if_neg (by simp), if_neg (by simp), if_pos rfl,
    bind_ok (setMute_good (s := { s with src := rest }) hg.mute)]
  dsimp only
  rw [toU32_decimal v h]
  exact hx

theorem claim_prop {o : Expr} {nm : List Byte} (ho : Claim o) (h : NameOk nm) : Claim (.prop o nm) := by
  intro s outer b rest res hg hs hsep hst hlt ⟨n, hx⟩
  rw [text] at hs
  refine ho.bracket 1 s outer b (32 :: 46 :: (32 :: nm ++ rest)) res hg (by rw [hs]; simp)
    (.inr (.inl ⟨_, rfl⟩)) (fun h => by omega) hlt ⟨n + 1, ?_⟩
  have hn : nextTok { s with src := 32 :: 46 :: (32 :: nm ++ rest) } = _ := lex_dot s.total s.nl (32 :: nm ++ rest)
  have hn2 : nextTok { s with src := 32 :: nm ++ rest } = _ := lex_name s.total s.nl nm rest h hsep
  rw [extend, bind_ok (read_good (s := { s with src := 32 :: 46 :: (32 :: nm ++ rest) }) hg.back hg.inStr), hn,
    if_neg (by simp), if_pos rfl, bind_ok (read_good (s := { s with src := 32 :: nm ++ rest }) hg.back hg.inStr),
    hn2, if_pos rfl]
  exact hx

theorem argLoop_text (as : List Expr) : ∀ (a : Expr), Claim a → ExprOk a → (∀ x ∈ as, Claim x ∧ ExprOk x) →
    ∀ (c : Expr) (pre : List Expr) (s : PS) (rest : List Byte), Good s → s.nl = false →
    s.src = text levelBelow a ++ (textMoreArgs levelBelow as ++ 32 :: 41 :: rest) →
    ∃ n, argLoop n c pre s = .ok (.call c (pre ++ a :: as), { s with src := rest }) := by
  induction as with
  | nil =>
    intro a ha hoa _ c pre s rest hg hnl hs
    rw [textMoreArgs] at hs
    obtain ⟨m, hm⟩ := ha.ends hg (o := maxPrec) false (rest := 32 :: 41 :: rest) hs (.inr (.inl ⟨_, rfl⟩))
      (level_lt a) (by rw [lex_close]; exact ends_of (ty := .closeParen) (by decide) (by decide) rfl)
    refine ⟨m + 1, ?_⟩
    have hr : read (peek { s with src := 32 :: 41 :: rest }) =
        .ok (⟨.closeParen, s.total - (rest.length + 1), [41]⟩, { s with src := rest }) := by
      rw [read_peek (s := { s with src := 32 :: 41 :: rest }) hg.back hg.inStr,
        read_good (s := { s with src := 32 :: 41 :: rest }) hg.back hg.inStr]
      unfold nextTok
      rw [show ({ s with src := 32 :: 41 :: rest } : PS).src = 32 :: 41 :: rest from rfl, lex_close]
    rw [argLoop, bind_ok hm, bind_ok hr, if_pos rfl, bind_ok (setMute_good (s := { s with src := rest }) hg.mute),
      pure_ok]
    unfold addArg
    rw [ok_notNull hoa]
    rfl
  | cons a2 as ih =>
    intro a ha hoa has c pre s rest hg hnl hs
    rw [textMoreArgs] at hs
    obtain ⟨h2, ho2⟩ := has a2 (List.mem_cons_self ..)
    let tail := text levelBelow a2 ++ (textMoreArgs levelBelow as ++ 32 :: 41 :: rest)
    obtain ⟨n, hn⟩ := ih a2 h2 ho2 (fun x hx => has x (List.mem_cons_of_mem _ hx)) c (pre ++ [a])
      { s with src := tail } rest ⟨hg.back, hg.inStr, hg.mute⟩ hnl rfl
    obtain ⟨m, hm⟩ := ha.ends hg (o := maxPrec) false (rest := 32 :: 44 :: tail) (by rw [hs]; simp [tail])
      (.inr (.inl ⟨_, rfl⟩))
      (level_lt a) (by rw [lex_comma]; exact ends_of (ty := .comma) (by decide) (by decide) rfl)
    refine ⟨max n m + 1, ?_⟩
    have hr : read (peek { s with src := 32 :: 44 :: tail }) =
        .ok (⟨.comma, s.total - (tail.length + 1), [44]⟩, { s with src := tail }) := by
      rw [read_peek (s := { s with src := 32 :: 44 :: tail }) hg.back hg.inStr,
        read_good (s := { s with src := 32 :: 44 :: tail }) hg.back hg.inStr]
      unfold nextTok
      rw [show ({ s with src := 32 :: 44 :: tail } : PS).src = 32 :: 44 :: tail from rfl, lex_comma]
    rw [argLoop, bind_ok (expr_up (Nat.le_max_right n m) hm), bind_ok hr, if_neg (by simp), if_pos rfl,
      bind_ok (setMute_good (s := { s with src := tail }) hg.mute)]
    unfold addArg
    rw [ok_notNull hoa]
    simp only [Bool.false_eq_true, if_false]
    have := argLoop_up (Nat.le_max_left n m) hn
    rw [this]
    simp

theorem parseArgs_text (args : List Expr) (h : ∀ x ∈ args, Claim x ∧ ExprOk x) (c : Expr) (s : PS)
    (rest : List Byte) (hg : Good s) (hs : s.src = textArgs levelBelow args ++ 32 :: 41 :: rest) :
    ∃ n, parseArgs n c s = .ok (.call c args, { s with src := rest }) := by
  cases args with
  | nil =>
    rw [textArgs] at hs
    refine ⟨1, ?_⟩
    rw [parseArgs]
    rw [withAccept_ok (s' := { s with acc := s.acc.orParen, src := rest }) (a := Expr.call c [])]
    refine (withNl_ok (s' := { s with acc := s.acc.orParen, nl := false, src := rest }) (a := Expr.call c []) ?_)
    let s1 : PS := { s with acc := s.acc.orParen, nl := false }
    have hn : nextTok s1 = _ := (congrArg (lex s.total false) hs).trans (lex_close s.total false rest)
    rw [bind_ok (read_good (s := s1) hg.back hg.inStr), hn, if_pos rfl, pure_ok]
  | cons a as =>
    rw [textArgs] at hs
    obtain ⟨ha, hoa⟩ := h a (List.mem_cons_self ..)
    let s1 : PS := { s with acc := s.acc.orParen, nl := false }
    obtain ⟨n, hn⟩ := argLoop_text as a ha hoa (fun x hx => h x (List.mem_cons_of_mem _ hx)) c [] s1 rest
      ⟨hg.back, hg.inStr, hg.mute⟩ rfl (by show s.src = _; rw [hs]; simp)
    refine ⟨n + 1, ?_⟩
    rw [parseArgs]
    rw [withAccept_ok (s' := { s with acc := s.acc.orParen, src := rest }) (a := Expr.call c (a :: as))]
    refine (withNl_ok (s' := { s with acc := s.acc.orParen, nl := false, src := rest })
      (a := Expr.call c (a :: as)) ?_)
    obtain ⟨t, r, ht, hst, -⟩ := text_first s.total a hoa (textMoreArgs levelBelow as ++ 32 :: 41 :: rest) (by
      cases as with
      | nil => rw [textMoreArgs]; exact .inr (.inl ⟨_, rfl⟩)
      | cons a2 as => rw [textMoreArgs]; exact .inr (.inl ⟨_, rfl⟩))
    have hne : (nextTok s1).1.ty ≠ .closeParen := by
      unfold nextTok
      rw [show s1.src = text levelBelow a ++ (textMoreArgs levelBelow as ++ 32 :: 41 :: rest) from by
        show s.src = _; rw [hs]; simp, show s1.total = s.total from rfl, ht]
      intro h
      rw [show t.ty = .closeParen from h] at hst
      cases hst
    rw [bind_ok (read_good (s := s1) hg.back hg.inStr), if_neg hne, bind_ok (rewind_next (s := s1) hg.back),
      argLoop_congr (read_peek (s := s1) hg.back hg.inStr)]
    exact hn

theorem claim_call {f : Expr} {args : List Expr} (hf : Claim f) (ha : ∀ x ∈ args, Claim x ∧ ExprOk x) :
    Claim (.call f args) := by
  intro s outer b rest res hg hs hsep hst hlt ⟨n, hx⟩
  rw [text] at hs
  let tail := textArgs levelBelow args ++ 32 :: 41 :: rest
  obtain ⟨m, hm⟩ := parseArgs_text args ha f { s with src := tail } rest ⟨hg.back, hg.inStr, hg.mute⟩ rfl
  refine hf.bracket 1 s outer b (32 :: 40 :: tail) res hg (by rw [hs]; simp [tail])
    (.inr (.inl ⟨_, rfl⟩)) (fun h => by omega) hlt ⟨max n m + 1, ?_⟩
  have hn : nextTok { s with src := 32 :: 40 :: tail } = _ := lex_open s.total s.nl tail
  rw [extend, bind_ok (read_good (s := { s with src := 32 :: 40 :: tail }) hg.back hg.inStr), hn, if_pos rfl,
    bind_ok (args_up (Nat.le_max_right n m) hm)]
  exact extend_up (Nat.le_max_left n m) hx

/-- What may follow the text in a string: its end or an embedded expression. -/
def StrSep (x : List Byte) : Prop := (∃ r, x = 34 :: r) ∨ ∃ r, x = 36 :: 123 :: r

theorem readStr_text (lit : List Byte) : ∀ (acc x : List Byte), acc ++ lit ≠ [] → StrSep x →
    readStr acc (escapeText lit ++ x) = some (.stringLiteral, acc ++ lit, x) := by
  induction lit with
  | nil =>
    intro acc x h hx
    rw [List.append_nil] at h
    rw [escapeText, List.append_nil]
    rcases hx with ⟨r, hx⟩ | ⟨r, hx⟩ <;> subst hx
    · show readStr acc (34 :: r) = _
      rw [readStr.eq_def]
      dsimp only
      rw [if_neg (by decide), if_pos rfl, if_neg h]
    · show readStr acc (36 :: 123 :: r) = _
      rw [readStr.eq_def]
      dsimp only
      rw [if_neg (by decide), if_neg (by decide), if_pos rfl, if_pos rfl, if_neg h]
  | cons b lit ih =>
    intro acc x h hx
    rw [escapeText]
    have key := ih (acc ++ [b]) x (by simp) hx
    rw [List.append_assoc] at key
    by_cases hb : b = 34 ∨ b = 92 ∨ b = 36
    · rw [if_pos hb]
      show readStr acc (92 :: b :: (escapeText lit ++ x)) = _
      rw [readStr.eq_def]
      dsimp only
      rw [if_pos rfl]
      exact key
    · rw [if_neg hb]
      show readStr acc (b :: (escapeText lit ++ x)) = _
      rw [readStr.eq_def]
      dsimp only
      rw [if_neg (by intro h; exact hb (.inr (.inl h))), if_neg (by intro h; exact hb (.inl h)),
        if_neg (by intro h; exact hb (.inr (.inr h)))]
      exact key

/-- Every piece so far has an embedded expression. -/
def FullLast (pre : List Piece) : Prop := pre = [] ∨ ∃ q lit e, pre = q ++ [.mk lit e] ∧ e.isNull = false

theorem putEmbed_full {pre : List Piece} (h : FullLast pre) (e : Expr) : putEmbed pre e = pre ++ [.mk [] e] := by
  unfold putEmbed
  rcases h with h | ⟨q, lit, e', h, he⟩ <;> subst h
  · rfl
  · simp [Piece.hasEmbed, he]

theorem putEmbed_open (pre : List Piece) (lit : List Byte) (e : Expr) :
    putEmbed (pre ++ [.mk lit .null]) e = pre ++ [.mk lit e] := by
  unfold putEmbed
  simp [Piece.hasEmbed, Expr.isNull]

theorem read_str {s : PS} (hb : s.back = none) (hi : s.inStr = true) {ty : TokTy} {tx r : List Byte}
    (h : readStr [] s.src = some (ty, tx, r)) :
    read s = .ok (⟨ty, s.total - s.src.length, tx⟩, { s with src := r }) := by
  unfold read freshTok
  rw [hb]
  dsimp only
  rw [hi]
  cases hs : s.src with
  | nil => rw [hs, readStr.eq_def] at h; cases h
  | cons c q =>
    rw [hs] at h
    simp only [if_true, h]

/-- An embedded expression. -/
theorem embed_text {e : Expr} (he : Claim e) {s : PS} (hb : s.back = none) (hm : s.mute = false)
    {rest : List Byte} (hs : s.src = text levelBelow e ++ 32 :: 125 :: rest) :
    ∃ n, ∀ m, n ≤ m → (withAccept Accept.orCurly (withInStr false (withNl false (do
        let e ← parseExpr m maxPrec false
        let c ← read
        if c.ty = .closeCurly then do
          setMute false
          pure e
        else do
          let _ ← error m c .handle .closeEmbed
          let _ ← skipAnyScope m .openCurly
          setMute false
          pure e)))) s = .ok (e, { s with src := rest }) := by
  let s1 : PS := { s with acc := s.acc.orCurly, inStr := false, nl := false }
  have hg : Good s1 := ⟨hb, rfl, hm⟩
  obtain ⟨n, hn⟩ := he.ends hg (o := maxPrec) false (rest := 32 :: 125 :: rest) hs (.inr (.inl ⟨_, rfl⟩))
    (level_lt e) (by rw [lex_closeCurly]; exact ends_of (ty := .closeCurly) (by decide) (by decide) rfl)
  refine ⟨n, fun m hnm => ?_⟩
  rw [withAccept_ok (s' := { s with acc := s.acc.orCurly, src := rest }) (a := e)]
  refine (withInStr_ok (s' := { s with acc := s.acc.orCurly, inStr := false, src := rest }) (a := e) ?_)
  refine (withNl_ok (s' := { s with acc := s.acc.orCurly, inStr := false, nl := false, src := rest }) (a := e) ?_)
  have hr : read (peek { s1 with src := 32 :: 125 :: rest }) =
      .ok (⟨.closeCurly, s.total - (rest.length + 1), [125]⟩, { s1 with src := rest }) := by
    rw [read_peek (s := { s1 with src := 32 :: 125 :: rest }) hg.back hg.inStr,
      read_good (s := { s1 with src := 32 :: 125 :: rest }) hg.back hg.inStr]
    unfold nextTok
    rw [show ({ s1 with src := 32 :: 125 :: rest } : PS).src = 32 :: 125 :: rest from rfl, lex_closeCurly]
  rw [bind_ok (expr_up hnm hn), bind_ok hr, if_pos rfl,
    bind_ok (setMute_good (s := { s1 with src := rest }) hg.mute), pure_ok]

theorem readStr_end (r : List Byte) : readStr [] (34 :: r) = some (.endString, [], r) := by
  rw [readStr.eq_def]; rfl

theorem readStr_embed (r : List Byte) : readStr [] (36 :: 123 :: r) = some (.beginStringEmbed, [], r) := by
  rw [readStr.eq_def]; rfl

theorem pieces_sep (ps : List Piece) (h : PiecesOk ps) (rest : List Byte) (hps : ∀ lit e r, ps = .mk lit e :: r → lit = []) :
    StrSep (textPieces levelBelow ps ++ 34 :: rest) := by
  cases ps with
  | nil => rw [textPieces]; exact .inl ⟨_, rfl⟩
  | cons p r =>
    obtain ⟨lit, e⟩ := p
    have := hps lit e r rfl
    subst this
    rw [PiecesOk] at h
    rcases h.1 with he | ⟨-, hn, -⟩
    · rw [textPieces, ok_notNull he, escapeText]
      exact .inr ⟨_, rfl⟩
    · exact absurd rfl hn

theorem parseString_text (ps : List Piece) : (∀ lit e, Piece.mk lit e ∈ ps → ExprOk e → Claim e) → PiecesOk ps →
    ∀ (pre : List Piece) (s : PS) (rest : List Byte), FullLast pre → s.back = none → s.inStr = true →
    s.mute = false → s.src = textPieces levelBelow ps ++ 34 :: rest →
    ∃ n, parseString n pre s = .ok (pre ++ ps, { s with src := rest }) := by
  induction ps with
  | nil =>
    intro _ _ pre s rest _ hb hi hm hs
    rw [textPieces] at hs
    refine ⟨1, ?_⟩
    rw [parseString, bind_ok (read_str hb hi (ty := .endString) (tx := []) (r := rest) (by rw [hs]; exact readStr_end rest)),
      if_neg (by simp), if_neg (by simp), if_pos rfl, pure_ok, List.append_nil]
  | cons p ps ih =>
    obtain ⟨lit, e⟩ := p
    intro hc hok pre s rest hf hb hi hm hs
    rw [PiecesOk] at hok
    obtain ⟨h1, h2⟩ := hok
    have hc' : ∀ lit e, Piece.mk lit e ∈ ps → ExprOk e → Claim e := fun l x hx => hc l x (List.mem_cons_of_mem _ hx)
    rw [textPieces] at hs
    rcases h1 with he | ⟨he, hlit, hps⟩
    · have hcl := hc lit e (List.mem_cons_self ..) he
      rw [ok_notNull he] at hs
      simp only [Bool.false_eq_true, if_false] at hs
      let tail := textPieces levelBelow ps ++ 34 :: rest
      have hs' : s.src = escapeText lit ++ 36 :: 123 :: (text levelBelow e ++ 32 :: 125 :: tail) := by
        rw [hs]; simp [tail]
      obtain ⟨n1, hn1⟩ := embed_text hcl (s := { s with src := text levelBelow e ++ 32 :: 125 :: tail }) hb hm rfl
      obtain ⟨n2, hn2⟩ := ih hc' h2 (pre ++ [.mk lit e]) { s with src := tail } rest
        (.inr ⟨pre, lit, e, rfl, ok_notNull he⟩) hb hi hm rfl
      by_cases hl : lit = []
      · subst hl
        refine ⟨max n1 n2 + 1, ?_⟩
        rw [parseString, bind_ok (read_str hb hi (ty := .beginStringEmbed) (tx := [])
          (r := text levelBelow e ++ 32 :: 125 :: tail) (by rw [hs']; rfl)), if_neg (by simp), if_pos rfl,
          bind_ok (hn1 _ (Nat.le_max_left n1 n2)), putEmbed_full hf]
        have := string_up (Nat.le_max_right n1 n2) hn2
        rw [List.append_assoc] at this
        exact this
      · refine ⟨max n1 n2 + 2, ?_⟩
        rw [parseString, bind_ok (read_str hb hi (ty := .stringLiteral) (tx := lit)
          (r := 36 :: 123 :: (text levelBelow e ++ 32 :: 125 :: tail)) (by
            rw [hs', readStr_text lit [] _ (by simpa using hl) (.inr ⟨_, rfl⟩)]; rfl)), if_pos rfl,
          parseString, bind_ok (read_str (s := { s with src := 36 :: 123 :: (text levelBelow e ++ 32 :: 125 :: tail) })
          hb hi (ty := .beginStringEmbed) (tx := [])
          (r := text levelBelow e ++ 32 :: 125 :: tail) rfl), if_neg (by simp), if_pos rfl,
          bind_ok (hn1 _ (Nat.le_max_left n1 n2)), putEmbed_open]
        have := string_up (Nat.le_max_right n1 n2) hn2
        rw [List.append_assoc] at this
        exact this
    · subst he hps
      refine ⟨2, ?_⟩
      have hs' : s.src = escapeText lit ++ 34 :: rest := by
        rw [hs]; simp [textPieces, Expr.isNull]
      rw [parseString, bind_ok (read_str hb hi (ty := .stringLiteral) (tx := lit)
        (r := 34 :: rest) (by
          rw [hs', readStr_text lit [] _ (by simpa using hlit) (.inl ⟨_, rfl⟩)]; rfl)), if_pos rfl,
        parseString, bind_ok (read_str (s := { s with src := 34 :: rest }) hb hi (ty := .endString) (tx := [])
          (r := rest) (readStr_end rest)),
        if_neg (by simp), if_neg (by simp), if_pos rfl, pure_ok]

theorem claim_str {ps : List Piece} (hc : ∀ lit e, Piece.mk lit e ∈ ps → ExprOk e → Claim e) (h : PiecesOk ps) :
    Claim (.str ps) := by
  intro s outer b rest res hg hs hsep hst hlt ⟨n, hx⟩
  rw [text] at hs
  let tail := textPieces levelBelow ps ++ 34 :: rest
  obtain ⟨m, hm⟩ := parseString_text ps hc h [] { s with src := tail, inStr := true } rest (.inl rfl) hg.back rfl
    hg.mute rfl
  have hn : nextTok s = (⟨.beginString, s.total - (tail.length + 1), [34]⟩, tail) := by
    unfold nextTok
    rw [show s.src = 32 :: 34 :: tail by rw [hs]; simp [tail], lex_quote]
  refine ⟨max n m + 1, ?_⟩
  rw [parseExpr, bind_ok (read_good hg.back hg.inStr), hn, if_neg (by simp), if_neg (by simp), if_neg (by simp),
    if_pos rfl, bind_ok (withInStr_ok (string_up (Nat.le_max_right n m) hm)),
    show (({ ({ s with src := tail, inStr := true } : PS) with src := rest, inStr := s.inStr }) : PS) =
      { s with src := rest } from rfl,
    bind_ok (setMute_good (s := { s with src := rest }) hg.mute)]
  exact extend_up (Nat.le_max_left n m) hx

theorem argsOk_mem {as : List Expr} (h : ArgsOk as) : ∀ x ∈ as, ExprOk x := by
  induction as with
  | nil => intro x hx; cases hx
  | cons a as ih =>
    rw [ArgsOk] at h
    intro x hx
    rcases List.mem_cons.mp hx with e | hx
    · subst e; exact h.1
    · exact ih h.2 x hx

/-- Every printed expression is read back. -/
theorem claim_all (e : Expr) (h : ExprOk e) : Claim e := by
  match e, h with
  | .name n, h => rw [ExprOk] at h; exact claim_name h
  | .int v, h => rw [ExprOk] at h; exact claim_int h
  | .str ps, h =>
    rw [ExprOk] at h
    exact claim_str (fun lit x hx hok => claim_all x hok) h
  | .prop o n, h => rw [ExprOk] at h; exact claim_prop (claim_all o h.1) h.2
  | .bin op l r, h => rw [ExprOk] at h; exact claim_bin (claim_all l h.1) (claim_all r h.2) h.2
  | .un op e, h => rw [ExprOk] at h; exact claim_un (claim_all e h) h
  | .call f as, h =>
    rw [ExprOk] at h
    exact claim_call (claim_all f h.1) (fun x hx => ⟨claim_all x (argsOk_mem h.2 x hx), argsOk_mem h.2 x hx⟩)
termination_by sizeOf e
decreasing_by
  all_goals simp_wf
  all_goals first
    | omega
    | (have := List.sizeOf_lt_of_mem hx; omega)
    | (have := List.sizeOf_lt_of_mem hx
       have h2 : sizeOf (Piece.mk lit x) = 1 + sizeOf lit + sizeOf x := rfl
       omega)

end Verif.Crowbar
