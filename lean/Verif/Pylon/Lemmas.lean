import Verif.Pylon.Spec
import Verif.Esc.Props
/-!
# Pylon — helper lemmas
-/
namespace Verif.Pylon
open Verif Spec

/-! ## Tokens consume input -/

theorem readLiteral_len : ∀ (l acc : List Byte) (tok : Token) (r : List Byte),
    readLiteral acc l = .ok tok r → r.length ≤ l.length ∧ ∃ s, tok = .text s := by
  intro l
  induction l with
  | nil => intro acc tok r h; simp [readLiteral] at h
  | cons b t ih =>
    intro acc tok r h
    unfold readLiteral at h
    split at h
    · have := ih _ _ _ h
      simp only [List.length_cons]; exact ⟨by omega, this.2⟩
    · simp only [Out.ok.injEq] at h
      rw [← h.1, ← h.2]
      exact ⟨Nat.le_refl _, _, rfl⟩

theorem readLiteral_lt {b : Byte} {t acc : List Byte} {tok : Token} {r : List Byte}
    (hb : isAlnum b = true) (h : readLiteral acc (b :: t) = .ok tok r) :
    r.length < (b :: t).length ∧ ∃ s, tok = .text s := by
  unfold readLiteral at h
  rw [if_pos hb] at h
  have := readLiteral_len _ _ _ _ h
  simp only [List.length_cons]
  exact ⟨by omega, this.2⟩

theorem quoted_len (e : Byte) : ∀ (n : Nat) (l : List Byte), l.length ≤ n →
    ∀ (q : Nat) (m : Bool) (acc : List Byte) (tok : Token) (r : List Byte),
    quoted e q m acc l = .ok tok r → r.length ≤ l.length ∧ ∃ s, tok = .text s := by
  intro n
  induction n with
  | zero =>
    intro l hl q m acc tok r h
    have : l = [] := List.length_eq_zero_iff.mp (by omega)
    subst this
    rw [quoted.eq_def] at h
    dsimp only at h
    split at h
    · simp only [Out.ok.injEq] at h
      rw [← h.1, ← h.2]; exact ⟨Nat.le_refl _, _, rfl⟩
    · cases h
  | succ n ih =>
    intro l hl q m acc tok r h
    cases l with
    | nil =>
      rw [quoted.eq_def] at h
      dsimp only at h
      split at h
      · simp only [Out.ok.injEq] at h
        rw [← h.1, ← h.2]; exact ⟨Nat.le_refl _, _, rfl⟩
      · cases h
    | cons b t =>
      simp only [List.length_cons] at hl ⊢
      have fin : ∀ q m acc, quoted e q m acc t = .ok tok r →
          r.length ≤ t.length + 1 ∧ ∃ s, tok = .text s := by
        intro q m acc h
        have := ih t (by omega) q m acc tok r h
        exact ⟨by omega, this.2⟩
      rw [quoted.eq_def] at h
      dsimp only at h
      split at h
      · split at h
        · split at h
          · exact fin _ _ _ h
          · simp only [Out.ok.injEq] at h
            rw [← h.1, ← h.2]; exact ⟨by omega, _, rfl⟩
        · split at h
          · split at h
            · simp only [Out.ok.injEq] at h
              rw [← h.1, ← h.2]; exact ⟨by omega, _, rfl⟩
            · exact fin _ _ _ h
          · exact fin _ _ _ h
      · split at h
        · simp only [Out.ok.injEq] at h
          rw [← h.1, ← h.2]; exact ⟨by simp, _, rfl⟩
        · split at h
          · cases h
          · split at h
            · split at h
              · exact fin _ _ _ h
              · cases h
            · split at h
              · cases t with
                | nil => cases h
                | cons c t' =>
                  dsimp only at h
                  split at h
                  · cases h
                  · have := ih t' (by simp only [List.length_cons] at hl; omega) _ _ _ tok r h
                    simp only [List.length_cons]
                    exact ⟨by omega, this.2⟩
              · exact fin _ _ _ h

theorem readToken_len (nl : Bool) : ∀ (l : List Byte) (tok : Token) (r : List Byte),
    readToken nl l = .ok tok r →
    r.length ≤ l.length ∧ (tok ≠ .endOfFile → tok ≠ .junk → r.length < l.length) := by
  intro l
  induction l with
  | nil =>
    intro tok r h
    simp only [readToken, Out.ok.injEq] at h
    rw [← h.1, ← h.2]; simp
  | cons b t ih =>
    intro tok r h
    unfold readToken at h
    have skip : readToken nl t = .ok tok r →
        r.length ≤ (b :: t).length ∧ (tok ≠ .endOfFile → tok ≠ .junk → r.length < (b :: t).length) := by
      intro h
      have := ih tok r h
      simp only [List.length_cons]
      exact ⟨by omega, fun _ _ => by omega⟩
    have one : ∀ k : Token, Out.ok k t = .ok tok r →
        r.length ≤ (b :: t).length ∧ (tok ≠ .endOfFile → tok ≠ .junk → r.length < (b :: t).length) := by
      intro k h
      simp only [Out.ok.injEq] at h
      rw [← h.2]
      simp
    by_cases e0 : b = 32 ∨ b = 9 ∨ b = 13
    · rw [if_pos e0] at h; exact skip h
    rw [if_neg e0] at h
    by_cases e1 : b = 10
    · rw [if_pos e1] at h
      cases nl
      · exact skip h
      · exact one _ h
    rw [if_neg e1] at h
    by_cases e2 : b = 255
    · rw [if_pos e2] at h
      simp only [Out.ok.injEq] at h
      rw [← h.1, ← h.2]; simp
    rw [if_neg e2] at h
    by_cases e123 : b = 123
    · rw [if_pos e123] at h; exact one _ h
    rw [if_neg e123] at h
    by_cases e125 : b = 125
    · rw [if_pos e125] at h; exact one _ h
    rw [if_neg e125] at h
    by_cases e91 : b = 91
    · rw [if_pos e91] at h; exact one _ h
    rw [if_neg e91] at h
    by_cases e93 : b = 93
    · rw [if_pos e93] at h; exact one _ h
    rw [if_neg e93] at h
    by_cases e58 : b = 58
    · rw [if_pos e58] at h; exact one _ h
    rw [if_neg e58] at h
    by_cases e61 : b = 61
    · rw [if_pos e61] at h; exact one _ h
    rw [if_neg e61] at h
    by_cases e44 : b = 44
    · rw [if_pos e44] at h; exact one _ h
    rw [if_neg e44] at h
    by_cases e59 : b = 59
    · rw [if_pos e59] at h; exact one _ h
    rw [if_neg e59] at h
    by_cases e3 : b = 34 ∨ b = 39
    · rw [if_pos e3] at h
      have := quoted_len b t.length t (Nat.le_refl _) _ _ _ _ _ h
      simp only [List.length_cons]
      exact ⟨by omega, fun _ _ => by omega⟩
    rw [if_neg e3] at h
    by_cases e4 : isAlnum b = true
    · rw [if_pos e4] at h
      have := readLiteral_lt e4 h
      exact ⟨by omega, fun _ _ => this.1⟩
    · rw [if_neg e4] at h
      simp only [Out.ok.injEq] at h
      rw [← h.1, ← h.2]; simp

theorem readLiteral_not_fuel : ∀ (l acc : List Byte), readLiteral acc l ≠ .fuel := by
  intro l
  induction l with
  | nil => intro acc; simp [readLiteral]
  | cons b t ih =>
    intro acc
    unfold readLiteral
    split
    · exact ih _
    · simp

theorem quoted_not_fuel (e : Byte) : ∀ (n : Nat) (l : List Byte), l.length ≤ n →
    ∀ (q : Nat) (m : Bool) (acc : List Byte), quoted e q m acc l ≠ .fuel := by
  intro n
  induction n with
  | zero =>
    intro l hl q m acc
    have : l = [] := List.length_eq_zero_iff.mp (by omega)
    subst this
    rw [quoted.eq_def]
    dsimp only
    split <;> simp
  | succ n ih =>
    intro l hl q m acc
    cases l with
    | nil =>
      rw [quoted.eq_def]
      dsimp only
      split <;> simp
    | cons b t =>
      simp only [List.length_cons] at hl
      have fin : ∀ q m acc, quoted e q m acc t ≠ .fuel := ih t (by omega)
      rw [quoted.eq_def]
      dsimp only
      split
      · split
        · split
          · exact fin _ _ _
          · simp
        · split
          · split
            · simp
            · exact fin _ _ _
          · exact fin _ _ _
      · split
        · simp
        · split
          · simp
          · split
            · split
              · exact fin _ _ _
              · simp
            · split
              · cases t with
                | nil => simp
                | cons c t' =>
                  dsimp only
                  split
                  · simp
                  · exact ih t' (by simp only [List.length_cons] at hl; omega) _ _ _
              · exact fin _ _ _

theorem readToken_not_fuel (nl : Bool) : ∀ (l : List Byte), readToken nl l ≠ .fuel := by
  intro l
  induction l with
  | nil => simp [readToken]
  | cons b t ih =>
    unfold readToken
    by_cases e0 : b = 32 ∨ b = 9 ∨ b = 13
    · rw [if_pos e0]; exact ih
    rw [if_neg e0]
    by_cases e1 : b = 10
    · rw [if_pos e1]
      cases nl
      · exact ih
      · simp
    rw [if_neg e1]
    by_cases e255 : b = 255
    · rw [if_pos e255]; simp
    rw [if_neg e255]
    by_cases e123 : b = 123
    · rw [if_pos e123]; simp
    rw [if_neg e123]
    by_cases e125 : b = 125
    · rw [if_pos e125]; simp
    rw [if_neg e125]
    by_cases e91 : b = 91
    · rw [if_pos e91]; simp
    rw [if_neg e91]
    by_cases e93 : b = 93
    · rw [if_pos e93]; simp
    rw [if_neg e93]
    by_cases e58 : b = 58
    · rw [if_pos e58]; simp
    rw [if_neg e58]
    by_cases e61 : b = 61
    · rw [if_pos e61]; simp
    rw [if_neg e61]
    by_cases e44 : b = 44
    · rw [if_pos e44]; simp
    rw [if_neg e44]
    by_cases e59 : b = 59
    · rw [if_pos e59]; simp
    rw [if_neg e59]
    by_cases e3 : b = 34 ∨ b = 39
    · rw [if_pos e3]; exact quoted_not_fuel b t.length t (Nat.le_refl _) _ _ _
    rw [if_neg e3]
    by_cases e4 : isAlnum b = true
    · rw [if_pos e4]; exact readLiteral_not_fuel _ _
    · rw [if_neg e4]; simp

/-! ## The step bound is large enough -/

theorem total (fuel : Nat) :
    (∀ tok rest, 2 * rest.length + 3 ≤ fuel → readExpression fuel tok rest ≠ .fuel ∧
      ∀ n r, readExpression fuel tok rest = .ok n r → r.length ≤ rest.length) ∧
    (∀ items g rest, 2 * rest.length + 2 ≤ fuel → readObject fuel items g rest ≠ .fuel ∧
      ∀ n r, readObject fuel items g rest = .ok n r → r.length ≤ rest.length) ∧
    (∀ items rest, 2 * rest.length + 2 ≤ fuel → readArray fuel items rest ≠ .fuel ∧
      ∀ n r, readArray fuel items rest = .ok n r → r.length ≤ rest.length) := by
  induction fuel with
  | zero => exact ⟨fun _ _ h => by omega, fun _ _ _ h => by omega, fun _ _ h => by omega⟩
  | succ fuel ih =>
    obtain ⟨ihE, ihO, ihA⟩ := ih
    refine ⟨?_, ?_, ?_⟩
    · intro tok rest h
      unfold readExpression
      split
      · exact ihO _ _ _ (by omega)
      · exact ihA _ _ (by omega)
      · simp
      · simp
    · intro items g rest h
      rw [readObject.eq_def]
      dsimp only
      cases ht : readToken true rest with
      | bad => simp
      | hang => simp
      | fuel => exact absurd ht (readToken_not_fuel _ _)
      | ok tok rest' =>
        have hlen := readToken_len true rest tok rest' ht
        have sep : tok ≠ .endOfFile → tok ≠ .junk →
            readObject fuel items true rest' ≠ .fuel ∧
            ∀ n r, readObject fuel items true rest' = .ok n r → r.length ≤ rest.length := by
          intro h1 h2
          have := ihO items true rest' (by have := hlen.2 h1 h2; omega)
          exact ⟨this.1, fun n r h => by have := this.2 n r h; omega⟩
        have other : (match propName (!items.isEmpty) g items tok with
            | none => (.bad : Out Node)
            | some name =>
              match readToken false rest' with
              | .bad => .bad
              | .hang => .hang
              | .fuel => .fuel
              | .ok sep rest2 =>
                if ¬ (sep = Token.colon ∨ sep = Token.equals) then .bad
                else
                  match readToken false rest2 with
                  | .bad => .bad
                  | .hang => .hang
                  | .fuel => .fuel
                  | .ok tok2 rest3 =>
                    match readExpression fuel tok2 rest3 with
                    | .bad => .bad
                    | .hang => .hang
                    | .fuel => .fuel
                    | .ok v rest4 => readObject fuel (items ++ [(name, v)]) false rest4) ≠ .fuel ∧
            ∀ n r, (match propName (!items.isEmpty) g items tok with
            | none => (.bad : Out Node)
            | some name =>
              match readToken false rest' with
              | .bad => .bad
              | .hang => .hang
              | .fuel => .fuel
              | .ok sep rest2 =>
                if ¬ (sep = Token.colon ∨ sep = Token.equals) then .bad
                else
                  match readToken false rest2 with
                  | .bad => .bad
                  | .hang => .hang
                  | .fuel => .fuel
                  | .ok tok2 rest3 =>
                    match readExpression fuel tok2 rest3 with
                    | .bad => .bad
                    | .hang => .hang
                    | .fuel => .fuel
                    | .ok v rest4 => readObject fuel (items ++ [(name, v)]) false rest4) = .ok n r →
              r.length ≤ rest.length := by
          cases hp : propName (!items.isEmpty) g items tok with
          | none => simp
          | some name =>
            have hlt : rest'.length < rest.length := by
              apply hlen.2
              · rintro rfl; simp [propName] at hp
              · rintro rfl; simp [propName] at hp
            dsimp only
            cases h2 : readToken false rest' with
            | bad => simp
            | hang => simp
            | fuel => exact absurd h2 (readToken_not_fuel _ _)
            | ok sep rest2 =>
              have hl2 := (readToken_len false rest' sep rest2 h2).1
              dsimp only
              split
              · simp
              · cases h3 : readToken false rest2 with
                | bad => simp
                | hang => simp
                | fuel => exact absurd h3 (readToken_not_fuel _ _)
                | ok tok2 rest3 =>
                  have hl3 := (readToken_len false rest2 tok2 rest3 h3).1
                  dsimp only
                  have hE := ihE tok2 rest3 (by omega)
                  cases h4 : readExpression fuel tok2 rest3 with
                  | bad => simp
                  | hang => simp
                  | fuel => exact absurd h4 hE.1
                  | ok v rest4 =>
                    have hl4 := hE.2 v rest4 h4
                    dsimp only
                    have := ihO (items ++ [(name, v)]) false rest4 (by omega)
                    exact ⟨this.1, fun n r h => by have := this.2 n r h; omega⟩
        cases tok with
        | closeCurly =>
          dsimp only
          refine ⟨by simp, ?_⟩
          intro n r h
          simp only [Out.ok.injEq] at h
          rw [← h.2]; exact hlen.1
        | comma => exact sep (by simp) (by simp)
        | semicolon => exact sep (by simp) (by simp)
        | newLine => exact sep (by simp) (by simp)
        | text s => exact other
        | openCurly => exact other
        | openSquare => exact other
        | closeSquare => exact other
        | colon => exact other
        | equals => exact other
        | junk => exact other
        | endOfFile => exact other
    · intro items rest h
      rw [readArray.eq_def]
      dsimp only
      cases ht : readToken true rest with
      | bad => simp
      | hang => simp
      | fuel => exact absurd ht (readToken_not_fuel _ _)
      | ok tok rest' =>
        have hlen := readToken_len true rest tok rest' ht
        have sep : tok ≠ .endOfFile → tok ≠ .junk →
            readArray fuel items rest' ≠ .fuel ∧
            ∀ n r, readArray fuel items rest' = .ok n r → r.length ≤ rest.length := by
          intro h1 h2
          have := ihA items rest' (by have := hlen.2 h1 h2; omega)
          exact ⟨this.1, fun n r h => by have := this.2 n r h; omega⟩
        have other : tok ≠ .endOfFile → tok ≠ .junk → (match readExpression fuel tok rest' with
            | .bad => (.bad : Out Node)
            | .hang => .hang
            | .fuel => .fuel
            | .ok v rest2 => readArray fuel (items ++ [v]) rest2) ≠ .fuel ∧
            ∀ n r, (match readExpression fuel tok rest' with
            | .bad => (.bad : Out Node)
            | .hang => .hang
            | .fuel => .fuel
            | .ok v rest2 => readArray fuel (items ++ [v]) rest2) = .ok n r →
              r.length ≤ rest.length := by
          intro h1 h2
          have hlt := hlen.2 h1 h2
          have hE := ihE tok rest' (by omega)
          cases h4 : readExpression fuel tok rest' with
          | bad => simp
          | hang => simp
          | fuel => exact absurd h4 hE.1
          | ok v rest4 =>
            have hl4 := hE.2 v rest4 h4
            dsimp only
            have := ihA (items ++ [v]) rest4 (by omega)
            exact ⟨this.1, fun n r h => by have := this.2 n r h; omega⟩
        have stuck : (tok = .endOfFile ∨ tok = .junk) → readExpression fuel tok rest' = .bad := by
          intro h'
          cases fuel with
          | zero => exact absurd h (by omega)
          | succ f => rcases h' with rfl | rfl <;> rfl
        cases tok with
        | closeSquare =>
          dsimp only
          refine ⟨by simp, ?_⟩
          intro n r h
          simp only [Out.ok.injEq] at h
          rw [← h.2]; exact hlen.1
        | comma => exact sep (by simp) (by simp)
        | semicolon => exact sep (by simp) (by simp)
        | newLine => exact sep (by simp) (by simp)
        | text s => exact other (by simp) (by simp)
        | openCurly => exact other (by simp) (by simp)
        | openSquare => exact other (by simp) (by simp)
        | closeCurly => exact other (by simp) (by simp)
        | colon => exact other (by simp) (by simp)
        | equals => exact other (by simp) (by simp)
        | junk => dsimp only; rw [stuck (.inr rfl)]; simp
        | endOfFile => dsimp only; rw [stuck (.inl rfl)]; simp

/-- More steps do not change a result. -/
theorem mono (fuel : Nat) :
    (∀ tok rest, readExpression fuel tok rest ≠ .fuel →
      readExpression (fuel + 1) tok rest = readExpression fuel tok rest) ∧
    (∀ items g rest, readObject fuel items g rest ≠ .fuel →
      readObject (fuel + 1) items g rest = readObject fuel items g rest) ∧
    (∀ items rest, readArray fuel items rest ≠ .fuel →
      readArray (fuel + 1) items rest = readArray fuel items rest) := by
  induction fuel with
  | zero =>
    refine ⟨fun _ _ h => absurd ?_ h, fun _ _ _ h => absurd ?_ h, fun _ _ h => absurd ?_ h⟩
    · simp [readExpression]
    · simp [readObject]
    · simp [readArray]
  | succ fuel ih =>
    obtain ⟨ihE, ihO, ihA⟩ := ih
    refine ⟨?_, ?_, ?_⟩
    · intro tok rest h
      rw [readExpression.eq_def] at h ⊢
      rw [readExpression.eq_def (fuel + 1)]
      dsimp only at h ⊢
      cases tok <;> dsimp only at h ⊢
      · exact ihO _ _ _ h
      · exact ihA _ _ h
    · intro items g rest h
      rw [readObject.eq_def] at h ⊢
      rw [readObject.eq_def (fuel + 1)]
      dsimp only at h ⊢
      cases ht : readToken true rest with
      | bad => rfl
      | hang => rfl
      | fuel => rfl
      | ok tok rest' =>
        rw [ht] at h
        have other : (match propName (!items.isEmpty) g items tok with
            | none => (.bad : Out Node)
            | some name =>
              match readToken false rest' with
              | .bad => .bad
              | .hang => .hang
              | .fuel => .fuel
              | .ok sep rest2 =>
                if ¬ (sep = Token.colon ∨ sep = Token.equals) then .bad
                else
                  match readToken false rest2 with
                  | .bad => .bad
                  | .hang => .hang
                  | .fuel => .fuel
                  | .ok tok2 rest3 =>
                    match readExpression fuel tok2 rest3 with
                    | .bad => .bad
                    | .hang => .hang
                    | .fuel => .fuel
                    | .ok v rest4 => readObject fuel (items ++ [(name, v)]) false rest4) ≠ .fuel →
            (match propName (!items.isEmpty) g items tok with
            | none => (.bad : Out Node)
            | some name =>
              match readToken false rest' with
              | .bad => .bad
              | .hang => .hang
              | .fuel => .fuel
              | .ok sep rest2 =>
                if ¬ (sep = Token.colon ∨ sep = Token.equals) then .bad
                else
                  match readToken false rest2 with
                  | .bad => .bad
                  | .hang => .hang
                  | .fuel => .fuel
                  | .ok tok2 rest3 =>
                    match readExpression (fuel + 1) tok2 rest3 with
                    | .bad => .bad
                    | .hang => .hang
                    | .fuel => .fuel
                    | .ok v rest4 => readObject (fuel + 1) (items ++ [(name, v)]) false rest4) =
            (match propName (!items.isEmpty) g items tok with
            | none => (.bad : Out Node)
            | some name =>
              match readToken false rest' with
              | .bad => .bad
              | .hang => .hang
              | .fuel => .fuel
              | .ok sep rest2 =>
                if ¬ (sep = Token.colon ∨ sep = Token.equals) then .bad
                else
                  match readToken false rest2 with
                  | .bad => .bad
                  | .hang => .hang
                  | .fuel => .fuel
                  | .ok tok2 rest3 =>
                    match readExpression fuel tok2 rest3 with
                    | .bad => .bad
                    | .hang => .hang
                    | .fuel => .fuel
                    | .ok v rest4 => readObject fuel (items ++ [(name, v)]) false rest4) := by
          cases propName (!items.isEmpty) g items tok with
          | none => intro _; rfl
          | some name =>
            dsimp only
            cases readToken false rest' with
            | bad => intro _; rfl
            | hang => intro _; rfl
            | fuel => intro _; rfl
            | ok sep rest2 =>
              dsimp only
              split
              · intro _; rfl
              · cases readToken false rest2 with
                | bad => intro _; rfl
                | hang => intro _; rfl
                | fuel => intro _; rfl
                | ok tok2 rest3 =>
                  dsimp only
                  intro hh
                  have hE := ihE tok2 rest3 (by
                    intro hf; rw [hf] at hh; exact hh rfl)
                  rw [hE]
                  cases h4 : readExpression fuel tok2 rest3 with
                  | bad => rfl
                  | hang => rfl
                  | fuel => rfl
                  | ok v rest4 =>
                    rw [h4] at hh
                    exact ihO _ _ _ hh
        cases tok with
        | closeCurly => rfl
        | comma => exact ihO _ _ _ h
        | semicolon => exact ihO _ _ _ h
        | newLine => exact ihO _ _ _ h
        | text s => exact other h
        | openCurly => exact other h
        | openSquare => exact other h
        | closeSquare => exact other h
        | colon => exact other h
        | equals => exact other h
        | junk => exact other h
        | endOfFile => exact other h
    · intro items rest h
      rw [readArray.eq_def] at h ⊢
      rw [readArray.eq_def (fuel + 1)]
      dsimp only at h ⊢
      cases ht : readToken true rest with
      | bad => rfl
      | hang => rfl
      | fuel => rfl
      | ok tok rest' =>
        rw [ht] at h
        have other : (match readExpression fuel tok rest' with
            | .bad => (.bad : Out Node)
            | .hang => .hang
            | .fuel => .fuel
            | .ok v rest2 => readArray fuel (items ++ [v]) rest2) ≠ .fuel →
            (match readExpression (fuel + 1) tok rest' with
            | .bad => (.bad : Out Node)
            | .hang => .hang
            | .fuel => .fuel
            | .ok v rest2 => readArray (fuel + 1) (items ++ [v]) rest2) =
            (match readExpression fuel tok rest' with
            | .bad => (.bad : Out Node)
            | .hang => .hang
            | .fuel => .fuel
            | .ok v rest2 => readArray fuel (items ++ [v]) rest2) := by
          intro hh
          have hE := ihE tok rest' (by intro hf; rw [hf] at hh; exact hh rfl)
          rw [hE]
          cases h4 : readExpression fuel tok rest' with
          | bad => rfl
          | hang => rfl
          | fuel => rfl
          | ok v rest4 =>
            rw [h4] at hh
            exact ihA _ _ hh
        cases tok with
        | closeSquare => rfl
        | comma => exact ihA _ _ h
        | semicolon => exact ihA _ _ h
        | newLine => exact ihA _ _ h
        | text s => exact other h
        | openCurly => exact other h
        | openSquare => exact other h
        | closeCurly => exact other h
        | colon => exact other h
        | equals => exact other h
        | junk => exact other h
        | endOfFile => exact other h

theorem mono_expr {f g : Nat} (hfg : f ≤ g) {tok rest} (h : readExpression f tok rest ≠ .fuel) :
    readExpression g tok rest = readExpression f tok rest := by
  induction hfg with
  | refl => rfl
  | step _ ih => rw [(mono _).1 tok rest (by rw [ih]; exact h), ih]

end Verif.Pylon
