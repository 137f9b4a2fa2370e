import Verif.Cpp.Model
/-!
# The tokenizer for C++ — every function reads a beginning of the view
-/
namespace Verif.Cpp
open Verif

theorem suf_cons {a : Byte} {r s : List Byte} (h : r <:+ s) : r <:+ a :: s :=
  h.trans (List.suffix_cons a s)

theorem scanLoop_suf (sp : List Byte) : ∀ (s : List Byte) (m : Nat) (r : List Byte),
    Esc.scanLoop sp m s = some r → r <:+ s ∧ r.length < s.length := by
  intro s
  induction s with
  | nil => intro m r h; simp [Esc.scanLoop] at h
  | cons c cs ih =>
    intro m r h
    unfold Esc.scanLoop at h
    split at h
    · split at h
      · cases h; exact ⟨List.suffix_cons _ _, by simp⟩
      · have := ih _ _ h; exact ⟨suf_cons this.1, by simp; omega⟩
    · have := ih _ _ h; exact ⟨suf_cons this.1, by simp; omega⟩

theorem skipLine_suf (s : List Byte) : skipLine s <:+ s := by
  unfold skipLine
  cases h : Esc.scanLoop [10] 0 s with
  | none => exact List.nil_suffix
  | some r => exact (scanLoop_suf _ _ _ _ h).1

theorem parseLoop_suf (base : Nat) : ∀ (s : List Byte) (v : Nat) (a o : Bool),
    (Num.parseLoop base v a o s).rest <:+ s := by
  intro s
  induction s with
  | nil => intro v a o; unfold Num.parseLoop; split <;> exact List.suffix_rfl
  | cons c cs ih =>
    intro v a o
    unfold Num.parseLoop
    dsimp only
    split
    · split <;> exact List.suffix_rfl
    · exact suf_cons (ih _ _ _)

theorem readComp_suf (a : Num.Arith) (base : Nat) : ∀ (s : List Byte) (v : Rat) (any : Bool),
    (Num.readComp a base v any s).2.2 <:+ s := by
  intro s
  induction s with
  | nil => intro v any; exact List.suffix_rfl
  | cons c cs ih =>
    intro v any
    unfold Num.readComp
    dsimp only
    split
    · exact List.suffix_rfl
    · exact suf_cons (ih _ _)

theorem fracLoop_suf (a : Num.Arith) (base : Nat) : ∀ (s : List Byte) (v g : Rat) (n d : Nat),
    (Num.fracLoop a base v g n d s).2 <:+ s := by
  intro s
  induction s with
  | nil => intro v g n d; exact List.suffix_rfl
  | cons c cs ih =>
    intro v g n d
    unfold Num.fracLoop
    dsimp only
    split
    · exact List.suffix_rfl
    · split <;> exact suf_cons (ih _ _ _ _)

theorem takeMinus_suf (s : List Byte) : (Num.takeMinus s).2 <:+ s := by
  unfold Num.takeMinus
  split
  · exact List.suffix_rfl
  · split
    · exact List.suffix_cons _ _
    · exact List.suffix_rfl

theorem takeFrac_suf (a : Num.Arith) (base : Nat) (v : Rat) (s : List Byte) :
    (Num.takeFrac a base v s).2 <:+ s := by
  unfold Num.takeFrac
  split
  · exact List.suffix_rfl
  · split
    · exact suf_cons (fracLoop_suf _ _ _ _ _ _ _)
    · exact List.suffix_rfl

theorem takeSign_suf (s : List Byte) : (Num.takeSign s).2 <:+ s := by
  unfold Num.takeSign
  split
  · exact List.suffix_rfl
  · split
    · exact List.suffix_cons _ _
    · split
      · exact List.suffix_cons _ _
      · exact List.suffix_rfl

theorem takeExp_suf (a : Num.Arith) (base : Nat) (v : Rat) (any : Bool) (s : List Byte) :
    (Num.takeExp a base v any s).2.2 <:+ s := by
  unfold Num.takeExp
  split
  · exact List.suffix_rfl
  · split
    · exact suf_cons ((readComp_suf _ _ _ _ _).trans (takeSign_suf _))
    · exact List.suffix_rfl

theorem skipReal_suf (s : List Byte) : skipReal s <:+ s := by
  unfold skipReal Num.parseReal
  simp only [Nat.reduceLeDiff, gt_iff_lt, Nat.zero_lt_succ, and_self, if_true]
  exact (takeExp_suf _ _ _ _ _).trans ((takeFrac_suf _ _ _ _).trans
    ((readComp_suf _ _ _ _ _).trans (takeMinus_suf _)))

theorem skipByte_suf (b : Byte) (s : List Byte) : skipByte b s <:+ s := by
  unfold skipByte
  split
  · exact List.suffix_rfl
  · split
    · exact List.suffix_cons _ _
    · exact List.suffix_rfl

theorem skipSuffix_suf (s : List Byte) : skipSuffix s <:+ s := by
  unfold skipSuffix
  split
  · exact List.suffix_rfl
  · split
    · exact List.suffix_cons _ _
    · rename_i c cs _
      dsimp only
      have h := skipByte_suf 85 (c :: cs)
      split
      · exact List.nil_suffix
      · rename_i d ds he
        rw [he] at h
        split
        · exact (skipByte_suf _ _).trans ((List.suffix_cons _ _).trans h)
        · exact h

theorem numeric_suf {c : Byte} {cs : List Byte} (hd : 48 ≤ c ∧ c ≤ 57) :
    readNumericLiteral (c :: cs) <:+ cs := by
  unfold readNumericLiteral
  dsimp only
  by_cases h0 : c = 48
  · rw [if_pos h0]
    cases cs with
    | nil => exact (skipSuffix_suf _).trans (skipReal_suf _)
    | cons d ds =>
      dsimp only
      split
      · exact suf_cons ((skipSuffix_suf _).trans (parseLoop_suf _ _ _ _ _))
      · exact (skipSuffix_suf _).trans (skipReal_suf _)
  · rw [if_neg h0]
    refine (skipSuffix_suf _).trans ?_
    have hdig : ∀ c : Byte, 48 ≤ c ∧ c ≤ 57 → ¬ Num.digitOf c ≥ 10 ∧ c ≠ 45 := by
      apply forall_byte; decide +kernel
    obtain ⟨h1, h2⟩ := hdig c hd
    unfold skipReal Num.parseReal
    simp only [Nat.reduceLeDiff, gt_iff_lt, Nat.zero_lt_succ, and_self, if_true]
    refine (takeExp_suf _ _ _ _ _).trans ((takeFrac_suf _ _ _ _).trans ?_)
    unfold Num.takeMinus
    dsimp only
    rw [if_neg h2]
    unfold Num.readComp
    dsimp only
    rw [if_neg h1]
    exact readComp_suf _ _ _ _ _

theorem directiveWhite_suf : ∀ (s r : List Byte), directiveWhite s = some r → r <:+ s := by
  intro s
  induction s with
  | nil => intro r h; cases h; exact List.suffix_rfl
  | cons c cs ih =>
    intro r h
    unfold directiveWhite at h
    split at h
    · cases h; exact List.suffix_rfl
    · split at h
      · cases h
      · exact suf_cons (ih r h)

theorem afterNull_suf : ∀ s : List Byte, afterNull s <:+ s := by
  intro s
  induction s with
  | nil => exact List.suffix_rfl
  | cons c cs ih =>
    unfold afterNull
    split
    · exact List.suffix_cons _ _
    · exact suf_cons ih

theorem skipDefine_suf : ∀ (s : List Byte) (b : Bool), skipDefine b s <:+ s := by
  intro s
  induction s with
  | nil => intro b; exact List.suffix_rfl
  | cons c cs ih =>
    intro b
    unfold skipDefine
    split
    · split
      · exact suf_cons (ih _)
      · exact List.suffix_cons _ _
    · split <;> exact suf_cons (ih _)

theorem escIdent_suf (a b : Bool) : ∀ (s : List Byte) (f : Bool), (Esc.identLoop a b f s).1 <:+ s := by
  intro s
  induction s with
  | nil => intro f; exact List.suffix_rfl
  | cons c cs ih =>
    intro f
    unfold Esc.identLoop
    split
    · exact suf_cons (ih _)
    · exact List.suffix_rfl

theorem parseIdentifier_suf (a b : Bool) (s : List Byte) : (Esc.parseIdentifier a b s).2 <:+ s :=
  escIdent_suf a b s true

theorem scanWhite_suf (b : Bool) : ∀ s : List Byte, Esc.scanWhite b s <:+ s := by
  intro s
  induction s with
  | nil => exact List.suffix_rfl
  | cons c cs ih =>
    unfold Esc.scanWhite
    split
    · exact List.suffix_rfl
    · exact suf_cons ih

theorem readDirective_suf (e : Int) (s : List Byte) : (readDirective e s).rest <:+ s := by
  unfold readDirective
  cases h : directiveWhite s with
  | none => exact afterNull_suf s
  | some s1 =>
    have h1 := directiveWhite_suf _ _ h
    have h2 := (parseIdentifier_suf true false s1).trans h1
    dsimp only
    split
    · exact (skipLine_suf _).trans h2
    · split
      · exact (skipLine_suf _).trans h2
      · split
        · exact (skipLine_suf _).trans h2
        · split
          · exact (skipDefine_suf _ _).trans h2
          · exact (skipLine_suf _).trans h2

theorem readString_suf (q : Byte) : ∀ (n : Nat) (s r : List Byte), s.length ≤ n →
    readString q s = some r → r <:+ s ∧ r.length < s.length := by
  intro n
  induction n with
  | zero =>
    intro s r hn h
    have : s = [] := List.length_eq_zero_iff.mp (by omega)
    subst this
    simp [readString] at h
  | succ n ih =>
    intro s r hn h
    cases s with
    | nil => simp [readString] at h
    | cons c cs =>
      rw [readString.eq_def] at h
      dsimp only at h
      simp only [List.length_cons] at hn
      split at h
      · cases cs with
        | nil => cases h
        | cons d ds =>
          dsimp only at h
          simp only [List.length_cons] at hn
          have := ih ds r (by omega) h
          exact ⟨suf_cons (suf_cons this.1), by simp only [List.length_cons]; omega⟩
      · split at h
        · cases h; exact ⟨List.suffix_cons _ _, by simp⟩
        · have := ih cs r (by omega) h
          exact ⟨suf_cons this.1, by simp only [List.length_cons]; omega⟩

theorem rawDelimiter_ok : ∀ (s r : List Byte), rawDelimiter s = .ok r → r <:+ s := by
  intro s
  induction s with
  | nil => intro r h; cases h
  | cons c cs ih =>
    intro r h
    unfold rawDelimiter at h
    split at h
    · cases h; exact List.suffix_rfl
    · split at h
      · cases h
      · exact suf_cons (ih r h)

theorem rawDelimiter_error : ∀ (s : List Byte) (t : ErrT) (r : List Byte),
    rawDelimiter s = .error (t, r) → r <:+ s := by
  intro s
  induction s with
  | nil => intro t r h; cases h; exact List.suffix_rfl
  | cons c cs ih =>
    intro t r h
    unfold rawDelimiter at h
    split at h
    · cases h
    · split at h
      · cases h; exact List.suffix_rfl
      · exact suf_cons (ih t r h)

theorem rawLoop_suf (delim : List Byte) (n : Nat) : ∀ (s : List Byte) (d : Option (List Byte))
    (r : List Byte), rawLoop delim n d s = some r → r <:+ s := by
  intro s
  induction s with
  | nil => intro d r h; cases d <;> simp [rawLoop] at h
  | cons c cs ih =>
    intro d r h
    cases d with
    | none =>
      unfold rawLoop at h
      split at h <;> exact suf_cons (ih _ _ h)
    | some d =>
      unfold rawLoop at h
      split at h
      · cases h; exact List.suffix_cons _ _
      · cases d with
        | nil => cases h
        | cons x d' =>
          dsimp only at h
          split at h <;> exact suf_cons (ih _ _ h)

theorem readRaw_ok {s r : List Byte} (h : readRaw s = .ok r) : r <:+ s := by
  unfold readRaw at h
  cases hd : rawDelimiter s with
  | error x => rw [hd] at h; cases h
  | ok l =>
    rw [hd] at h
    cases l with
    | nil => cases h
    | cons p l =>
      dsimp only at h
      cases hl : rawLoop s (l.length + 1) none l with
      | none => rw [hl] at h; cases h
      | some r' =>
        rw [hl] at h
        cases h
        exact (rawLoop_suf _ _ _ _ _ hl).trans ((List.suffix_cons _ _).trans (rawDelimiter_ok _ _ hd))

theorem readRaw_error {s : List Byte} {t : ErrT} {r : List Byte} (h : readRaw s = .error (t, r)) :
    r <:+ s := by
  unfold readRaw at h
  cases hd : rawDelimiter s with
  | error x => rw [hd] at h; cases h; exact rawDelimiter_error _ _ _ hd
  | ok l =>
    rw [hd] at h
    cases l with
    | nil => cases h; exact List.nil_suffix
    | cons p l =>
      dsimp only at h
      cases hl : rawLoop s (l.length + 1) none l with
      | none => rw [hl] at h; cases h; exact List.nil_suffix
      | some r' => rw [hl] at h; cases h

theorem skipWhite_suf : ∀ (s : List Byte) (b : Bool), (skipWhite b s).1 <:+ s := by
  intro s
  induction s with
  | nil => intro b; exact List.suffix_rfl
  | cons c cs ih =>
    intro b
    unfold skipWhite
    split
    · exact suf_cons (ih _)
    · split
      · exact suf_cons (ih _)
      · exact List.suffix_rfl

theorem argLoop_suf (e o : Int) : ∀ (fuel nest : Nat) (al : Int) (as : List Byte) (acc : List Token)
    (s : List Byte), (argLoop e o fuel nest al as acc s).rest <:+ s := by
  intro fuel
  induction fuel with
  | zero => intro nest al as acc s; exact List.suffix_rfl
  | succ fuel ih =>
    intro nest al as acc s
    cases s with
    | nil => exact List.suffix_rfl
    | cons c cs =>
      rw [argLoop.eq_def]
      dsimp only
      by_cases h1 : c = 47
      · rw [if_pos h1]
        cases cs with
        | nil => exact List.nil_suffix
        | cons d ds =>
          dsimp only
          split
          · exact (ih _ _ _ _ _).trans (suf_cons (suf_cons (skipLine_suf _)))
          · split
            · cases hs : Esc.scanLoop [42, 47] 0 ds with
              | none => exact List.nil_suffix
              | some r =>
                exact (ih _ _ _ _ _).trans (suf_cons (suf_cons (scanLoop_suf _ _ _ _ hs).1))
            · exact suf_cons (ih _ _ _ _ _)
      · rw [if_neg h1]
        split
        · exact suf_cons (ih _ _ _ _ _)
        · split
          · split
            · exact List.suffix_cons _ _
            · exact suf_cons (ih _ _ _ _ _)
          · split
            · split <;> exact suf_cons (ih _ _ _ _ _)
            · exact suf_cons (ih _ _ _ _ _)

theorem macroArguments_suf (e : Int) (s : List Byte) : (readMacroArguments e s).rest <:+ s := by
  unfold readMacroArguments
  have h := scanWhite_suf false s
  cases hw : Esc.scanWhite false s with
  | nil => exact List.nil_suffix
  | cons c cs =>
    rw [hw] at h
    dsimp only
    split
    · exact (argLoop_suf _ _ _ _ _ _ _ _).trans ((List.suffix_cons _ _).trans h)
    · exact h

end Verif.Cpp
