import Verif.Crowbar.LemmasFile

/-!
# The expression parser — properties
-/

namespace Verif.Crowbar
open Verif

/-- **C64**: an expression written with only the brackets it needs — binary operators binding as in C and
associating to the left — is read back as it was, without errors and to the end of the text, provided prefix
operators bind weaker than anything else. -/
theorem C64_roundtrip (e : Expr) (h : ExprOk e) (b : Bool) :
    ∃ n s, (∀ m, n ≤ m → parseExpr m maxPrec b (start (text levelBelow e)) = .ok (e, s)) ∧ s.src = [] ∧
      s.back = none ∧ s.errs = [] := by
  have hl : lex (start (text levelBelow e)).total (start (text levelBelow e)).nl [] =
    (⟨.endOfFile, (start (text levelBelow e)).total, []⟩, []) := rfl
  obtain ⟨n, hn⟩ := (claim_all e h).ends (s := start (text levelBelow e)) ⟨rfl, rfl, rfl⟩ (o := maxPrec) b (rest := [])
    (by simp [start]) (.inl rfl) (level_lt e) (by rw [hl]; exact ends_of (ty := .endOfFile) (by decide) (by decide) rfl)
  exact ⟨n, _, fun m hm => expr_up hm hn, rfl, rfl, rfl⟩

mutual
/-- Whether prefix operators occur in an expression. -/
def hasPrefix : Expr → Bool
  | .null => false
  | .name _ => false
  | .int _ => false
  | .str ps => hasPrefixPieces ps
  | .prop o _ => hasPrefix o
  | .bin _ l r => hasPrefix l || hasPrefix r
  | .un _ _ => true
  | .call f as => hasPrefix f || hasPrefixArgs as
/-- Whether prefix operators occur in one of the arguments. -/
def hasPrefixArgs : List Expr → Bool
  | [] => false
  | a :: as => hasPrefix a || hasPrefixArgs as
/-- Whether prefix operators occur in one of the pieces of a string. -/
def hasPrefixPieces : List Piece → Bool
  | [] => false
  | .mk _ e :: ps => hasPrefix e || hasPrefixPieces ps
end

theorem level_noPrefix {ul ul' : Nat} {e : Expr} (h : hasPrefix e = false) : level ul e = level ul' e := by
  cases e <;> first | rfl | (simp [hasPrefix] at h)

mutual
theorem text_noPrefix (ul ul' : Nat) (e : Expr) (h : hasPrefix e = false) : text ul e = text ul' e := by
  match e, h with
  | .null, _ => rw [text, text]
  | .name _, _ => rw [text, text]
  | .int _, _ => rw [text, text]
  | .str ps, h =>
    rw [hasPrefix] at h
    rw [text, text, pieces_noPrefix ul ul' ps h]
  | .prop o _, h =>
    rw [hasPrefix] at h
    rw [text, text, text_noPrefix ul ul' o h, level_noPrefix h]
  | .bin _ l r, h =>
    rw [hasPrefix, Bool.or_eq_false_iff] at h
    rw [text, text, text_noPrefix ul ul' l h.1, level_noPrefix (ul' := ul') h.1, text_noPrefix ul ul' r h.2,
      level_noPrefix (ul' := ul') h.2]
  | .un _ _, h => rw [hasPrefix] at h; cases h
  | .call f as, h =>
    rw [hasPrefix, Bool.or_eq_false_iff] at h
    rw [text, text, text_noPrefix ul ul' f h.1, level_noPrefix (ul' := ul') h.1, args_noPrefix ul ul' as h.2]
theorem args_noPrefix (ul ul' : Nat) (as : List Expr) (h : hasPrefixArgs as = false) :
    textArgs ul as = textArgs ul' as := by
  match as, h with
  | [], _ => rw [textArgs, textArgs]
  | a :: as, h =>
    rw [hasPrefixArgs, Bool.or_eq_false_iff] at h
    rw [textArgs, textArgs, text_noPrefix ul ul' a h.1, more_noPrefix ul ul' as h.2]
theorem more_noPrefix (ul ul' : Nat) (as : List Expr) (h : hasPrefixArgs as = false) :
    textMoreArgs ul as = textMoreArgs ul' as := by
  match as, h with
  | [], _ => rw [textMoreArgs, textMoreArgs]
  | a :: as, h =>
    rw [hasPrefixArgs, Bool.or_eq_false_iff] at h
    rw [textMoreArgs, textMoreArgs, text_noPrefix ul ul' a h.1, more_noPrefix ul ul' as h.2]
theorem pieces_noPrefix (ul ul' : Nat) (ps : List Piece) (h : hasPrefixPieces ps = false) :
    textPieces ul ps = textPieces ul' ps := by
  match ps, h with
  | [], _ => rw [textPieces, textPieces]
  | .mk lit e :: ps, h =>
    rw [hasPrefixPieces, Bool.or_eq_false_iff] at h
    rw [textPieces, textPieces, text_noPrefix ul ul' e h.1, pieces_noPrefix ul ul' ps h.2]
end

/-- **C64**, part.  An expression without prefix operators, written with only the brackets C would need, is read
back as it was.  Missing from the full claim: prefix operators, where it is false (`C64_prefix_swallows`). -/
theorem C64_as_in_C_partial (e : Expr) (h : ExprOk e) (hp : hasPrefix e = false) (b : Bool) :
    ∃ n s, (∀ m, n ≤ m → parseExpr m maxPrec b (start (text levelInC e)) = .ok (e, s)) ∧ s.src = [] ∧
      s.back = none ∧ s.errs = [] := by
  rw [text_noPrefix levelInC levelBelow e hp]
  exact C64_roundtrip e h b

/-- **C64** fails for prefix operators: whatever the operators and the operands, `-a + b` is read as
`-(a + b)`. -/
theorem C64_prefix_swallows (u : UnOp) (op : BinOp) (a b : List Byte) (ha : NameOk a) (hb : NameOk b) (st : Bool) :
    ∃ n s, (∀ m, n ≤ m → parseExpr m maxPrec st (start (text levelInC (.bin op (.un u (.name a)) (.name b)))) =
      .ok (.un u (.bin op (.name a) (.name b)), s)) ∧ s.src = [] ∧ s.errs = [] := by
  have ht : text levelInC (.bin op (.un u (.name a)) (.name b)) = text levelBelow (.un u (.bin op (.name a) (.name b))) := by
    rw [text, text, text, text, text, text, text, text]
    have h1 : level levelInC (.un u (.name a)) ≤ cLevel op := by cases op <;> simp [level, levelInC, cLevel]
    have h2 : level levelInC (.name b) ≤ cLevel op - 1 := by cases op <;> simp [level, cLevel]
    have h3 : level levelInC (.name a) ≤ levelInC := by simp [level, levelInC]
    have h4 : level levelBelow (.bin op (.name a) (.name b)) ≤ levelBelow := by cases op <;> simp [level, cLevel, levelBelow]
    have h5 : level levelBelow (.name a) ≤ cLevel op := by cases op <;> simp [level, cLevel]
    have h6 : level levelBelow (.name b) ≤ cLevel op - 1 := by cases op <;> simp [level, cLevel]
    unfold bracket
    rw [if_pos h1, if_pos h2, if_pos h3, if_pos h4, if_pos h5, if_pos h6]
    simp
  rw [ht]
  obtain ⟨n, s, h1, h2, -, h4⟩ := C64_roundtrip (.un u (.bin op (.name a) (.name b)))
    (by simp only [ExprOk]; exact ⟨ha, hb⟩) st
  exact ⟨n, s, h1, h2, h4⟩

/-- **C64**: two different expressions are never written the same. -/
theorem C64_text_injective (e e' : Expr) (h : ExprOk e) (h' : ExprOk e') (ht : text levelBelow e = text levelBelow e') :
    e = e' := by
  obtain ⟨n, s, h1, -⟩ := C64_roundtrip e h false
  obtain ⟨n', s', h1', -⟩ := C64_roundtrip e' h' false
  have a := h1 (max n n') (Nat.le_max_left ..)
  have a' := h1' (max n n') (Nat.le_max_right ..)
  rw [ht, a'] at a
  injection a with a
  injection a with a _
  exact a.symm

/-- `a.b(1) - (c - "x${d}") * 2 == e`. -/
example : ExprOk (.bin .doubleEqual (.bin .subtract (.call (.prop (.name [97]) [98]) [.int 1])
      (.bin .multiply (.bin .subtract (.name [99]) (.str [.mk [120] (.name [100])])) (.int 2))) (.name [101])) ∧
    text levelBelow (.bin .doubleEqual (.bin .subtract (.call (.prop (.name [97]) [98]) [.int 1])
      (.bin .multiply (.bin .subtract (.name [99]) (.str [.mk [120] (.name [100])])) (.int 2))) (.name [101])) =
    [32, 97, 32, 46, 32, 98, 32, 40, 32, 49, 32, 41, 32, 45, 32, 40, 32, 99, 32, 45, 32, 34, 120, 36, 123, 32, 100,
      32, 125, 34, 32, 41, 32, 42, 32, 50, 32, 61, 61, 32, 101] := by
  have n : ∀ c : Byte, (97 ≤ c.toNat ∧ c.toNat ≤ 122) → NameOk [c] := by
    intro c hc
    refine ⟨⟨c, [], rfl, .inl hc, by simp⟩, by simp, by simp, by simp, by simp⟩
  constructor
  · simp only [ExprOk, ArgsOk, PiecesOk]
    refine ⟨⟨⟨⟨n _ (by decide), n _ (by decide)⟩, by decide, trivial⟩,
      ⟨n _ (by decide), .inl (n _ (by decide)), trivial⟩, by decide⟩, n _ (by decide)⟩
  · simp [text, textArgs, textMoreArgs, textPieces, bracket, level, cLevel, binText, decimal, escapeText,
      Expr.isNull]

end Verif.Crowbar
