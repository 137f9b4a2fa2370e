import Verif.Crowbar.LemmasWhole

/-!
# No error reported, nothing missing: the parsing functions
-/

namespace Verif.Crowbar
open Verif

/-- Closing the goals left by `keep` with the facts about the parsing functions. -/
macro "kp" : tactic => `(tactic| (intro _; keep <;> first
  | exact (keeps_expr _).1 _ _ | exact (keeps_expr _).2.1 _ _ | exact (keeps_expr _).2.2.1 _
  | exact (keeps_expr _).2.2.2.1 _ _ | exact (keeps_expr _).2.2.2.2 _ | exact keeps_error _ _ _ _
  | exact (keeps_skip _).1 _ | exact keeps_endStmt _ _ | exact (keeps_stmt _).1 | exact (keeps_stmt _).2.1 _
  | exact (keeps_stmt _).2.2 _ | exact keeps_paramLoop _ _ _ | exact keeps_func _ | exact keeps_file _ _))

theorem tri_expr (n : Nat) :
    (∀ o a, Tri (parseExpr n o a) fun e => ExprWhole e ∨ (a = true ∧ e = .null)) ∧
    (∀ o e, ExprWhole e → Tri (extend n o e) ExprWhole) ∧
    (∀ c, ExprWhole c → Tri (parseArgs n c) ExprWhole) ∧
    (∀ c as, ExprWhole c → ArgsWhole as → Tri (argLoop n c as) ExprWhole) ∧
    (∀ ps, PiecesWhole ps → Tri (parseString n ps) PiecesWhole) := by
  induction n with
  | zero =>
    refine ⟨?_, ?_, ?_, ?_, ?_⟩
    · intro o a; rw [parseExpr]; exact tri_deep
    · intro o a _; rw [extend]; exact tri_deep
    · intro o _; rw [parseArgs]; exact tri_deep
    · intro o a _ _; rw [argLoop]; exact tri_deep
    · intro o _; rw [parseString]; exact tri_deep
  | succ n ih =>
    obtain ⟨h1, h2, h3, h4, h5⟩ := ih
    have h1' : ∀ o, Tri (parseExpr n o false) ExprWhole := fun o =>
      (h1 o false).weaken fun e h => h.elim id fun h => absurd h.1 (by simp)
    refine ⟨?_, ?_, ?_, ?_, ?_⟩
    · intro o a
      have hx : ∀ o e, ExprWhole e → Tri (extend n o e) fun e => ExprWhole e ∨ (a = true ∧ e = .null) :=
        fun o e h => (h2 o e h).weaken fun _ => .inl
      rw [parseExpr]
      refine tri_bind tri_read (fun t => ?_) fun t ht => ?_
      · refine keeps_ite ?_ (keeps_ite ?_ (keeps_ite ?_ (keeps_ite ?_ ?_)))
        · revert t; kp
        · revert t; kp
        · revert t; kp
        · revert t; kp
        · cases toUn t.ty with
          | some op => dsimp only; revert op; kp
          | none => dsimp only; revert t; kp
      · refine tri_ite (fun _ => ?_) fun _ => tri_ite (fun h => ?_) fun _ => tri_ite (fun _ => ?_) fun _ => tri_ite (fun _ => ?_) fun _ => ?_
        · refine tri_bind (Q := ExprWhole) (tri_withAccept (tri_withNl ?_)) (by kp) fun e he => ?_
          · refine tri_bind (h1' _) (by kp) fun e he => ?_
            refine tri_bind tri_read (by kp) fun c _ => ?_
            refine tri_ite (fun _ => ?_) fun _ => ?_
            · exact tri_bind tri_mute (by kp) fun _ _ => tri_pure he
            · exact tri_bind (tri_error _ _ _ _ (Q := fun _ => False)) (by kp) fun _ h => h.elim
          · exact tri_bind tri_mute (by kp) fun _ _ => hx _ _ he
        · refine tri_bind tri_mute (by kp) fun _ _ => hx _ _ ?_
          rw [ExprWhole]; exact ht.1 h
        · refine tri_bind tri_mute (by kp) fun _ _ => hx _ _ ?_
          rw [ExprWhole]; exact toU32_lt _
        · refine tri_bind (tri_withInStr (h5 [] (by rw [PiecesWhole]; trivial))) (by kp) fun ps hps => ?_
          refine tri_bind tri_mute (by kp) fun _ _ => hx _ _ ?_
          rw [ExprWhole]; exact hps
        · cases toUn t.ty with
          | some op =>
            dsimp only
            refine tri_bind (h1' _) (by kp) fun e he => ?_
            refine tri_bind tri_mute (by kp) fun _ _ => hx _ _ ?_
            rw [ExprWhole]; exact he
          | none =>
            dsimp only
            refine tri_bind (tri_rewind ht) (by kp) fun _ _ => ?_
            refine tri_ite (fun h => tri_pure (.inr ⟨h, rfl⟩)) fun _ => ?_
            exact tri_bind (tri_error _ _ _ _ (Q := fun _ => False)) (by kp) fun _ h => h.elim
    · intro o e he
      rw [extend]
      refine tri_bind tri_read (fun t => ?_) fun t ht => ?_
      · refine keeps_ite ?_ (keeps_ite ?_ ?_)
        · revert t; kp
        · revert t; kp
        · cases toBin t.ty with
          | some op => dsimp only; revert op; kp
          | none => dsimp only; revert t; kp
      · refine tri_ite (fun _ => ?_) fun _ => tri_ite (fun _ => ?_) fun _ => ?_
        · exact tri_bind (h3 _ he) (by kp) fun _ h => h2 _ _ h
        · refine tri_bind tri_read (by kp) fun p hp => ?_
          refine tri_ite (fun h => h2 _ _ ?_) fun _ => ?_
          · rw [ExprWhole]; exact ⟨he, hp.1 h⟩
          · exact tri_bind (tri_error _ _ _ _ (Q := fun _ => False)) (by kp) fun _ h => h.elim
        · cases toBin t.ty with
          | some op =>
            dsimp only
            refine tri_ite (fun _ => ?_) fun _ => ?_
            · exact tri_bind (tri_rewind ht) (by kp) fun _ _ => tri_pure he
            · refine tri_bind (h1' _) (by kp) fun r hr => ?_
              rw [whole_notNull hr]
              simp only [Bool.false_eq_true, if_false]
              refine h2 _ _ ?_
              rw [ExprWhole]; exact ⟨he, hr⟩
          | none =>
            dsimp only
            exact tri_bind (tri_rewind ht) (by kp) fun _ _ => tri_pure he
    · intro c hc
      rw [parseArgs]
      refine tri_withAccept (tri_withNl ?_)
      refine tri_bind tri_read (by kp) fun t ht => ?_
      refine tri_ite (fun _ => tri_pure ?_) fun _ => ?_
      · rw [ExprWhole, ArgsWhole]; exact ⟨hc, trivial⟩
      · exact tri_bind (tri_rewind ht) (by kp) fun _ _ => h4 _ _ hc (by rw [ArgsWhole]; trivial)
    · intro c as hc has
      rw [argLoop]
      refine tri_bind (h1' _) (by kp) fun a ha => ?_
      refine tri_bind tri_read (by kp) fun t ht => ?_
      have haa := addArg_whole has ha
      refine tri_ite (fun _ => ?_) fun _ => tri_ite (fun _ => ?_) fun _ => ?_
      · refine tri_bind tri_mute (by kp) fun _ _ => tri_pure ?_
        rw [ExprWhole]; exact ⟨hc, haa⟩
      · exact tri_bind tri_mute (by kp) fun _ _ => h4 _ _ hc haa
      · exact tri_bind (tri_error _ _ _ _ (Q := fun _ => False)) (by kp) fun _ h => h.elim
    · intro ps hps
      rw [parseString]
      refine tri_bind tri_read (by kp) fun t ht => ?_
      refine tri_ite (fun h => h5 _ ?_) fun _ => tri_ite (fun _ => ?_) fun _ => tri_ite (fun _ => tri_pure hps) fun _ => tri_assert
      · exact pieces_append.mpr ⟨hps, .inr ⟨rfl, ht.2 h⟩⟩
      · refine tri_bind (Q := ExprWhole) (tri_withAccept (tri_withInStr (tri_withNl ?_))) (by kp) fun e he =>
          h5 _ (putEmbed_whole hps he)
        refine tri_bind (h1' _) (by kp) fun e he => ?_
        refine tri_bind tri_read (by kp) fun c _ => ?_
        refine tri_ite (fun _ => ?_) fun _ => ?_
        · exact tri_bind tri_mute (by kp) fun _ _ => tri_pure he
        · exact tri_bind (tri_error _ _ _ _ (Q := fun _ => False)) (by kp) fun _ h => h.elim

theorem tri_endStmt (n : Nat) {t : Tok} (h : TokOk t) : Tri (endStmt n t) fun _ => True := by
  unfold endStmt
  refine tri_ite (fun _ => tri_pure trivial) fun _ => ?_
  refine tri_bind (tri_rewind h) (by kp) fun _ _ => ?_
  refine tri_ite (fun _ => tri_pure trivial) fun _ => ?_
  exact tri_bind (tri_error _ _ _ _ (Q := fun _ => False)) (by kp) fun _ h => h.elim

theorem stmts_append {b : List Stmt} {st : Stmt} (h : StmtsWhole b) (hs : StmtWhole st) : StmtsWhole (b ++ [st]) := by
  induction b with
  | nil => simp only [List.nil_append, StmtsWhole]; exact ⟨hs, trivial⟩
  | cons x b ih =>
    rw [StmtsWhole] at h
    rw [List.cons_append, StmtsWhole]
    exact ⟨h.1, ih h.2⟩

theorem tri_stmt (n : Nat) :
    (Tri (parseStmt n) fun o => ∃ st, o = some st ∧ StmtWhole st) ∧
    (∀ o, Tri (parseBlock n o) fun b => b.isSome = true ∧ BlockWhole b) ∧
    ∀ b, StmtsWhole b → Tri (blockLoop n b) StmtsWhole := by
  induction n with
  | zero =>
    refine ⟨?_, ?_, ?_⟩
    · rw [parseStmt]; exact tri_deep
    · intro o; rw [parseBlock]; exact tri_deep
    · intro b _; rw [blockLoop]; exact tri_deep
  | succ n ih =>
    obtain ⟨h1, h2, h3⟩ := ih
    have hx : ∀ o, Tri (parseExpr n o false) ExprWhole := fun o =>
      ((tri_expr n).1 o false).weaken fun e h => h.elim id fun h => absurd h.1 (by simp)
    refine ⟨?_, ?_, ?_⟩
    · rw [parseStmt]
      refine tri_bind tri_read (by kp) fun t ht => ?_
      refine tri_ite (fun _ => ?_) fun _ => tri_ite (fun _ => ?_) fun _ => tri_ite (fun _ => ?_) fun _ => ?_
      · refine tri_bind (hx _) (by kp) fun c hc => ?_
        refine tri_bind (h2 _) (by kp) fun tb htb => ?_
        refine tri_bind (Q := BlockWhole) (tri_withNl ?_) (by kp) fun fb hfb => ?_
        · refine tri_bind tri_read (by kp) fun t2 ht2 => ?_
          refine tri_ite (fun _ => (h2 _).weaken fun _ h => h.2) fun _ => ?_
          exact tri_bind (tri_rewind ht2) (by kp) fun _ _ => tri_pure (by rw [BlockWhole]; trivial)
        · refine tri_pure ⟨_, rfl, ?_⟩
          rw [StmtWhole]; exact ⟨hc, htb.1, htb.2, hfb⟩
      · refine tri_bind (hx _) (by kp) fun c hc => ?_
        refine tri_bind (tri_withNl (h2 _)) (by kp) fun b hb => ?_
        refine tri_pure ⟨_, rfl, ?_⟩
        rw [StmtWhole]; exact ⟨hc, hb⟩
      · refine tri_bind (hx _) (by kp) fun c hc => ?_
        refine tri_pure ⟨_, rfl, ?_⟩
        rw [StmtWhole]; exact hc
      · refine tri_bind (tri_rewind ht) (by kp) fun _ _ => ?_
        refine tri_bind ((tri_expr n).1 _ _) (by kp) fun e he => ?_
        refine tri_bind tri_read (by kp) fun t2 ht2 => ?_
        refine tri_ite (fun _ => ?_) fun hn => ?_
        · exact tri_bind (tri_error _ _ _ _ (Q := fun _ => False)) (by kp) fun _ h => h.elim
        · have he' : ExprWhole e := he.elim id fun h => absurd (by rw [h.2]; rfl) hn
          refine tri_ite (fun _ => ?_) fun _ => ?_
          · refine tri_bind (hx _) (by kp) fun r hr => ?_
            refine tri_bind tri_read (by kp) fun t3 ht3 => ?_
            refine tri_bind (tri_endStmt n ht3) (by kp) fun _ _ => tri_pure ⟨_, rfl, ?_⟩
            rw [StmtWhole]; exact ⟨he', hr⟩
          · refine tri_bind (tri_endStmt n ht2) (by kp) fun _ _ => tri_pure ⟨_, rfl, ?_⟩
            rw [StmtWhole]; exact he'
    · intro o
      rw [parseBlock]
      refine tri_withNl ?_
      refine tri_bind tri_read (by kp) fun t ht => ?_
      refine tri_bind (tri_nl _) (by kp) fun _ _ => ?_
      refine tri_ite (fun _ => ?_) fun _ => tri_ite (fun _ => ?_) fun _ => ?_
      · refine tri_bind (h3 [] (by rw [StmtsWhole]; trivial)) (by kp) fun b hb => tri_pure ⟨rfl, ?_⟩
        rw [BlockWhole]; exact hb
      · refine tri_bind (tri_rewind ht) (by kp) fun _ _ => ?_
        refine tri_bind h1 (by kp) fun st hst => ?_
        refine tri_ite (fun _ => tri_pure ⟨rfl, ?_⟩) fun _ => ?_
        · obtain ⟨st, rfl, h⟩ := hst
          simp only [Option.toList, BlockWhole, StmtsWhole]
          exact ⟨h, trivial⟩
        · exact tri_bind (tri_error _ _ _ _ (Q := fun _ => False)) (by kp) fun _ h => h.elim
      · exact tri_bind (tri_error _ _ _ _ (Q := fun _ => False)) (by kp) fun _ h => h.elim
    · intro b hb
      rw [blockLoop]
      refine tri_bind tri_read (by kp) fun t ht => ?_
      refine tri_ite (fun _ => h3 _ hb) fun _ => tri_ite (fun _ => tri_pure hb) fun _ => tri_ite (fun _ => ?_) fun _ => ?_
      · exact tri_bind (tri_error _ _ _ _ (Q := fun _ => False)) (by kp) fun _ h => h.elim
      · refine tri_bind (tri_rewind ht) (by kp) fun _ _ => ?_
        refine tri_bind h1 (by kp) fun st hst => ?_
        obtain ⟨st, rfl, h⟩ := hst
        exact h3 _ (stmts_append hb h)

theorem tri_paramLoop (n : Nat) : ∀ ps p, (∀ x ∈ ps, Word x) → TokOk p → Tri (paramLoop n ps p) fun r => ∀ x ∈ r, Word x := by
  induction n with
  | zero => intro ps p _ _; rw [paramLoop]; exact tri_deep
  | succ n ih =>
    intro ps p hps hp
    rw [paramLoop]
    refine tri_bind (Q := fun _ => p.ty = .identifier) (tri_ite (fun h => tri_pure h) fun _ => tri_error _ _ _ _)
      (by kp) fun bad hi => ?_
    refine tri_ite (fun _ => tri_pure hps) fun _ => ?_
    have hps' : ∀ x ∈ ps ++ [if p.ty = .identifier then p.text else []], Word x := by
      rw [if_pos hi]
      intro x hx
      rcases List.mem_append.mp hx with hx | hx
      · exact hps x hx
      · rw [List.mem_singleton.mp hx]; exact hp.1 hi
    dsimp only
    refine tri_bind tri_read (by kp) fun t ht => ?_
    refine tri_ite (fun _ => ?_) fun _ => ?_
    · exact tri_bind (tri_rewind ht) (by kp) fun _ _ => tri_pure hps'
    · refine tri_bind (Q := fun _ => True) (tri_ite (fun h => tri_pure trivial) fun _ => tri_error _ _ _ _)
        (by kp) fun _ _ => ?_
      refine tri_ite (fun _ => tri_pure hps') fun _ => ?_
      exact tri_bind tri_read (by kp) fun p' hp' => ih _ _ hps' hp'

theorem tri_func (n : Nat) : Tri (parseFunc n) fun o => ∀ st ∈ o.toList, FuncWhole st := by
  unfold parseFunc parseParams
  refine tri_bind tri_mute (by kp) fun _ _ => ?_
  refine tri_bind tri_read (by kp) fun nt hnt => ?_
  refine tri_ite (fun hn => ?_) fun _ => ?_
  · refine tri_bind tri_read (by kp) fun t ht => ?_
    refine tri_ite (fun _ => ?_) fun _ => ?_
    · refine tri_bind (Q := fun r => ∀ x ∈ r, Word x) (tri_withNl ?_) (by kp) fun ps hps => ?_
      · refine tri_bind tri_read (by kp) fun p hp => ?_
        refine tri_ite (fun _ => ?_) fun _ => ?_
        · exact tri_bind (tri_rewind hp) (by kp) fun _ _ => tri_pure (by simp)
        · exact tri_withAccept (tri_paramLoop n _ _ (by simp) hp)
      · refine tri_bind tri_read (by kp) fun t2 ht2 => ?_
        refine tri_ite (fun _ => ?_) fun _ => tri_pure (by simp)
        refine tri_bind tri_mute (by kp) fun _ _ => ?_
        refine tri_bind ((tri_stmt n).2.1 _) (by kp) fun b hb => tri_pure ?_
        simp only [Option.toList, List.mem_singleton, forall_eq, FuncWhole]
        exact ⟨hnt.1 hn, hps, hb⟩
    · exact tri_bind (tri_error _ _ _ _ (Q := fun _ => False)) (by kp) fun _ h => h.elim
  · exact tri_bind (tri_error _ _ _ _ (Q := fun _ => False)) (by kp) fun _ h => h.elim

theorem tri_file (n : Nat) : ∀ b, (∀ st ∈ b, FuncWhole st) → Tri (fileLoop n b) fun r => ∀ st ∈ r, FuncWhole st := by
  induction n with
  | zero => intro b _; rw [fileLoop]; exact tri_deep
  | succ n ih =>
    intro b hb
    rw [fileLoop]
    refine tri_bind tri_read (by kp) fun t ht => ?_
    refine tri_ite (fun _ => tri_pure hb) fun _ => tri_ite (fun _ => ?_) fun _ => ?_
    · refine tri_bind (tri_func n) (by kp) fun f hf => ih _ ?_
      intro st hst
      rcases List.mem_append.mp hst with h | h
      · exact hb st h
      · exact hf st h
    · exact tri_bind (tri_error _ _ _ _ (Q := fun _ => False)) (by kp) fun _ h => h.elim

end Verif.Crowbar
