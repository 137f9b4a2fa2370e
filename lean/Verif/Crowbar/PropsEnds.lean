import Verif.Crowbar.LemmasEnds
import Verif.Crowbar.PropsFile
import Verif.Crowbar.SpecEnds

/-!
# Parsing ends — properties
-/

namespace Verif.Crowbar
open Verif

theorem wp_and {m : P α} {s : PS} {Q R : α → PS → Prop} (h : wp m s Q) (h' : wp m s R) :
    wp m s fun a s' => Q a s' ∧ R a s' := by
  unfold wp at *
  split
  · rename_i e; rw [e] at h h'; exact ⟨h, h'⟩
  · trivial
  · rename_i e; rw [e] at h; exact h

theorem wp_ok {m : P α} {f : α → P β} {s s' : PS} {a : α} {Q : β → PS → Prop} (e : m s = .ok (a, s')) (h : wp (f a) s' Q) :
    wp (m >>= f) s Q := by
  refine wp_bind ?_
  unfold wp
  rw [e]
  exact h

theorem kinds_lex {total : Nat} {src : List Byte} {tys : List TokTy} (h : (lex total false src).1.ty ≠ .endOfFile)
    (hk : Kinds (lex total false src).2 tys) : Kinds src ((lex total false src).1.ty :: tys) := by
  obtain ⟨gap, h1, h2, h3, -⟩ := C63_token total false src (lex total false src).1 (lex total false src).2 rfl
  have := Kinds.token gap _ _ _ tys h2 h3 (shape_text h3 h) hk
  rwa [← h1] at this

theorem kinds_end {total : Nat} {src : List Byte} (h : (lex total false src).1.ty = .endOfFile) : Kinds src [] := by
  obtain ⟨gap, h1, h2, h3, -⟩ := C63_token total false src (lex total false src).1 (lex total false src).2 rfl
  rw [h] at h3
  obtain ⟨h4, h5⟩ := h3
  rw [h4, h5] at h1 h2
  rw [List.append_nil, List.append_nil] at h1
  rw [h1]
  exact Kinds.done _ h2

/-- Names and commas up to the end. -/
def Rest (src : List Byte) : Prop := ∃ tys, Kinds src tys ∧ ∀ ty ∈ tys, ty = .identifier ∨ ty = .comma

theorem rest_cons {total : Nat} {src : List Byte} (h : (lex total false src).1.ty = .identifier ∨ (lex total false src).1.ty = .comma)
    (hr : Rest (lex total false src).2) : Rest src := by
  obtain ⟨tys, h1, h2⟩ := hr
  refine ⟨_, kinds_lex (by rcases h with h | h <;> rw [h] <;> simp) h1, ?_⟩
  intro ty hty
  rcases List.mem_cons.mp hty with e | hty
  · rw [e]; exact h
  · exact h2 ty hty

theorem rest_end {total : Nat} {src : List Byte} (h : (lex total false src).1.ty = .endOfFile) : Rest src :=
  ⟨[], kinds_end h, by simp⟩

theorem read_fresh {s : PS} (hb : s.back = none) (hi : s.inStr = false) (hn : s.nl = false) :
    read s = .ok ((lex s.total false s.src).1, { s with src := (lex s.total false s.src).2 }) := by
  rw [read_good hb hi]
  unfold nextTok
  rw [hn]

theorem read_any {s : PS} (hi : s.inStr = false) : ∃ t s', read s = .ok (t, s') ∧ Got s t s' := by
  have h : ∃ t s', read s = .ok (t, s') := by
    unfold read
    split
    · split
      · unfold freshTok
        rw [if_neg (by simp [hi])]
        exact ⟨_, _, rfl⟩
      · exact ⟨_, _, rfl⟩
    · unfold freshTok
      rw [if_neg (by simp [hi])]
      exact ⟨_, _, rfl⟩
  obtain ⟨t, s', h⟩ := h
  refine ⟨t, s', h, ?_⟩
  have := wp_read (s := s) (Q := fun t s' => Got s t s') fun _ _ g => g
  unfold wp at this
  rw [h] at this
  exact this

theorem got_of {s s' : PS} {t : Tok} (h : read s = .ok (t, s')) : Got s t s' := by
  have := wp_read (s := s) (Q := fun t s' => Got s t s') fun _ _ g => g
  unfold wp at this
  rw [h] at this
  exact this

/-- Inside a parameter list only a closing bracket and the end of the file are left alone. -/
theorem ends_error_params (n : Nat) (t : Tok) (k : ErrKind) (s s1 : PS) (g : Got s t s1) (hn : 4 * left s ≤ n + 2)
    (ha : s1.acc = ⟨false, true, false⟩) (ht : t.ty ≠ .endOfFile) :
    wp (error n t .handle k) s1 fun go s' => Step s s' ∧ (go = false → t.ty = .closeParen ∧ s'.back = some t) := by
  unfold error
  refine wp_bind ?_
  change wp (handleUnexpected n t) { s1 with mute := true, errs := _ } _
  generalize (if s1.mute = true then s1.errs else s1.errs ++ [(t.off, k)]) = er
  unfold handleUnexpected
  have hl := g.less ht
  have st : ∀ {s'}, Step { s1 with mute := true, errs := er } s' → Step s s' := fun h =>
    g.step.trans ⟨h.le, h.suf, h.nl, h.inStr, h.acc⟩
  by_cases hc : t.ty = .closeParen
  · refine wp_ok (a := false) (s' := { s1 with mute := true, errs := er, back := some t }) ?_ ?_
    · unfold okToStay
      rw [if_neg (by rw [hc]; simp), if_pos ⟨hc, by dsimp only; rw [ha]⟩]
    · have := back_le { s1 with mute := true, errs := er } t
      have hl' : left { s1 with mute := true, errs := er } = left s1 := rfl
      exact ⟨⟨by dsimp only at this ⊢; omega, g.step.suf, g.step.nl, g.step.inStr, g.step.acc⟩, fun _ => ⟨hc, rfl⟩⟩
  · refine wp_ok (a := true) (s' := { s1 with mute := true, errs := er }) ?_ ?_
    · unfold okToStay
      rw [if_neg (by dsimp only; rw [ha]; simp), if_neg (fun h => hc h.1), if_neg (by dsimp only; rw [ha]; simp), if_neg ht]
    · refine wp_ite (fun h => by cases h) fun _ => wp_ite (fun _ => ?_) fun _ => ?_
      · refine wp_bind (wp_mono ((ends_skip n).1 _ _ ?_) fun _ s3 h3 => wp_pure ⟨st h3, fun h => by cases h⟩)
        change 4 * left s1 + 2 ≤ n
        omega
      · exact wp_pure ⟨st (Step.refl _), fun h => by cases h⟩

theorem ends_paramLoop (n : Nat) : ∀ (params : List (List Byte)) (p : Tok) (s0 s : PS), Got s0 p s → s.inStr = false → s.nl = false →
    s.acc = ⟨false, true, false⟩ → 4 * left s0 + 1 ≤ n →
    (wp (paramLoop n params p) s fun _ s' => Step s0 s') ∨ p.ty = .endOfFile ∨ (p.ty = .identifier ∧ Rest s.src) := by
  induction n with
  | zero => intro _ _ _ _ _ _ _ _ h; omega
  | succ n ih =>
    intro params p s0 s g hi hnl ha hn
    by_cases he : p.ty = .endOfFile
    · exact .inr (.inl he)
    have hlt := g.less he
    rw [paramLoop]
    by_cases hp : p.ty = .identifier
    · rw [if_pos hp]
      have e1 := read_fresh g.back hi hnl
      have g1 := got_of e1
      generalize hl : lex s.total false s.src = l at e1 g1
      obtain ⟨t, rest⟩ := l
      dsimp only at e1 g1
      have lt1 : (lex s.total false s.src).1 = t := by rw [hl]
      have lt2 : (lex s.total false s.src).2 = rest := by rw [hl]
      by_cases h1 : t.ty = .closeParen
      · left
        refine wp_ok (a := false) (s' := s) rfl (wp_ite (fun h => by cases h) fun _ => wp_ok e1 ?_)
        refine wp_ite (fun _ => ?_) fun h => absurd h1 h
        exact wp_bind (wp_rewind fun s2 q1 q2 => wp_pure (g.step.trans (rewound g1 q1 q2)))
      by_cases h2 : t.ty = .endOfFile
      · right; right
        refine ⟨hp, ?_⟩
        exact rest_end (total := s.total) (by rw [lt1]; exact h2)
      by_cases h3 : t.ty = .comma
      · have e2 := read_fresh (s := { s with src := rest }) g.back hi hnl
        have g2 := got_of e2
        generalize hl2 : lex s.total false rest = l2 at e2 g2
        obtain ⟨p', rest'⟩ := l2
        dsimp only at e2 g2
        have lt3 : (lex s.total false rest).1 = p' := by rw [hl2]
        have lt4 : (lex s.total false rest).2 = rest' := by rw [hl2]
        have := g1.less h2
        rcases ih (params ++ [if p.ty = .identifier then p.text else []]) p' { s with src := rest } { s with src := rest' } g2 hi hnl ha (by omega) with h | h | ⟨h, h'⟩
        · left
          refine wp_ok (a := false) (s' := s) rfl (wp_ite (fun h => by cases h) fun _ => wp_ok e1 ?_)
          refine wp_ite (fun h => absurd h h1) fun _ => ?_
          rw [if_pos h3]
          refine wp_ok (a := false) (s' := { s with src := rest }) rfl (wp_ite (fun h => by cases h) fun _ => wp_ok e2 ?_)
          exact wp_mono h fun _ s' h => (g.step.trans g1.step).trans h
        · right; right
          refine ⟨hp, rest_cons (total := s.total) (.inr (by rw [lt1]; exact h3)) ?_⟩
          rw [lt2]
          exact rest_end (total := s.total) (by rw [lt3]; exact h)
        · right; right
          refine ⟨hp, rest_cons (total := s.total) (.inr (by rw [lt1]; exact h3)) ?_⟩
          rw [lt2]
          refine rest_cons (total := s.total) (.inl (by rw [lt3]; exact h)) ?_
          rw [lt4]; exact h'
      · left
        refine wp_ok (a := false) (s' := s) rfl (wp_ite (fun h => by cases h) fun _ => wp_ok e1 ?_)
        refine wp_ite (fun h => absurd h h1) fun _ => ?_
        rw [if_neg h3]
        refine wp_bind (wp_mono (ends_error_params n t _ s _ g1 (by omega) ha h2) fun go s2 h => ?_)
        refine wp_ite (fun _ => wp_pure (g.step.trans h.1)) fun hgo => ?_
        exact absurd (h.2 (by simpa using hgo)).1 h1
    · left
      rw [if_neg hp]
      refine wp_bind (wp_mono (ends_error_params n p _ s0 _ g (by omega) ha he) fun go s2 h => ?_)
      refine wp_ite (fun _ => wp_pure h.1) fun hgo => ?_
      obtain ⟨hc, hb⟩ := h.2 (by simpa using hgo)
      refine wp_bind (wp_read fun t s3 g3 => ?_)
      have := g3.same p hb (by rw [hc]; simp)
      subst this
      refine wp_ite (fun _ => ?_) fun h => absurd hc h
      exact wp_bind (wp_rewind fun s4 q1 q2 => wp_pure (h.1.trans (rewound g3 q1 q2)))

theorem ends_func (n : Nat) (s : PS) (hb : s.back = none) (hi : s.inStr = false) (hnl : s.nl = false)
    (ha : s.acc = ⟨false, false, false⟩) (hn : 4 * left s + 3 ≤ n) :
    (wp (parseFunc n) s fun _ s' => Step s s') ∨ OpenParams s.src := by
  unfold parseFunc
  let s0 := { s with mute := false }
  have e0 : setMute false s = .ok ((), s0) := rfl
  have st0 : ∀ {s'}, Step s0 s' → Step s s' := fun h => ⟨h.le, h.suf, h.nl, h.inStr, h.acc⟩
  have e1 := read_fresh (s := s0) hb hi hnl
  have g1 := got_of e1
  generalize hl : lex s0.total false s0.src = l at e1 g1
  obtain ⟨t, rest⟩ := l
  dsimp only at e1 g1
  have lt1 : (lex s0.total false s0.src).1 = t := by rw [hl]
  have lt2 : (lex s0.total false s0.src).2 = rest := by rw [hl]
  have hl0 : left s0 = left s := rfl
  by_cases h1 : t.ty = .identifier
  · have e2 := read_fresh (s := { s0 with src := rest }) hb hi hnl
    have g2 := got_of e2
    have he := g1.less (by rw [h1]; simp)
    generalize hl2 : lex s0.total false rest = l2 at e2 g2
    obtain ⟨t2, rest2⟩ := l2
    dsimp only at e2 g2
    have lt3 : (lex s0.total false rest).1 = t2 := by rw [hl2]
    have lt4 : (lex s0.total false rest).2 = rest2 := by rw [hl2]
    by_cases h2 : t2.ty = .openParen
    · have := g2.less (by rw [h2]; simp)
      let s2 := { s0 with src := rest2 }
      have fin : Step s2 s2 → wp (parseParams n) s2 (fun _ s' => Step s2 s') → wp (do
          setMute false
          let nameTok ← read
          if nameTok.ty = .identifier then do
            let t ← read
            if t.ty = .openParen then do
              let params ← parseParams n
              let t2 ← read
              if t2.ty = .closeParen then do
                setMute false
                let body ← parseBlock n false
                pure (some (Stmt.func nameTok.text params body))
              else pure none
            else do
              let _ ← error n t .pushBack .openParen
              pure none
          else do
            let _ ← error n nameTok .pushBack .functionName
            pure none) s fun _ s' => Step s s' := by
        intro _ h
        refine wp_ok e0 (wp_ok e1 (wp_ite (fun _ => wp_ok e2 (wp_ite (fun _ => ?_) fun h => absurd h2 h)) fun h => absurd h1 h))
        refine wp_bind (wp_mono h fun ps s3 st3 => ?_)
        refine wp_bind (wp_read fun t4 s4 g4 => ?_)
        have c4 := ((g1.step.trans g2.step).trans st3).trans g4.step
        refine wp_ite (fun hcp => ?_) fun _ => wp_pure (st0 c4)
        refine wp_bind (wp_mute fun s5 h5 _ _ => ?_)
        have c5 := c4.trans h5
        have := c5.le
        refine wp_bind (wp_mono ((ends_stmt n).2.1 _ _ (c5.acc.trans ha) (by omega)) fun b s6 h6 => wp_pure (st0 (c5.trans h6)))
      unfold parseParams at fin ⊢
      have e3 := read_fresh (s := { s2 with nl := false }) hb hi rfl
      have g3 := got_of e3
      generalize hl3 : lex s0.total false rest2 = l3 at e3 g3
      obtain ⟨p, rest3⟩ := l3
      dsimp only at e3 g3
      have lt5 : (lex s0.total false rest2).1 = p := by rw [hl3]
      have lt6 : (lex s0.total false rest2).2 = rest3 := by rw [hl3]
      by_cases h3 : p.ty = .closeParen
      · left
        refine fin (Step.refl _) (wp_withNl (wp_ok e3 (wp_ite (fun _ => ?_) fun h => absurd h3 h)))
        exact wp_bind (wp_rewind fun s4 q1 q2 => wp_pure (rewound g3 q1 q2).unNl)
      · have opens : Rest rest2 → OpenParams s.src := by
          rintro ⟨tys, k1, k2⟩
          have k3 : Kinds rest (t2.ty :: tys) := by
            have := kinds_lex (total := s0.total) (src := rest) (tys := tys) (by rw [lt3, h2]; simp) (by rw [lt4]; exact k1)
            rwa [lt3] at this
          have k4 : Kinds s.src (t.ty :: t2.ty :: tys) := by
            have := kinds_lex (total := s0.total) (src := s0.src) (tys := t2.ty :: tys) (by rw [lt1, h1]; simp) (by rw [lt2]; exact k3)
            rwa [lt1] at this
          rw [h1, h2] at k4
          exact ⟨tys, k4, k2⟩
        have hf : ({ s2 with nl := false, src := rest3 } : PS).acc.orParen = ⟨false, true, false⟩ := by
          change s.acc.orParen = _
          rw [ha]; rfl
        rcases ends_paramLoop n [] p { s2 with nl := false, acc := s2.acc.orParen } { s2 with nl := false, acc := s2.acc.orParen, src := rest3 }
          ⟨⟨g3.step.le, g3.step.suf, rfl, rfl, rfl⟩, g3.back, g3.less, g3.same⟩ hi rfl hf (show 4 * left s2 + 1 ≤ n by
            have : left s2 < left s := Nat.lt_trans this he
            omega) with h | h | ⟨h, h'⟩
        · left
          refine fin (Step.refl _) (wp_withNl (wp_ok e3 (wp_ite (fun h => absurd h h3) fun _ => wp_withAccept ?_)))
          exact wp_mono h fun _ s' h => ⟨h.le, h.suf, rfl, h.inStr, rfl⟩
        · right
          exact opens (rest_end (total := s0.total) (by rw [lt5]; exact h))
        · right
          exact opens (rest_cons (total := s0.total) (.inl (by rw [lt5]; exact h)) (by rw [lt6]; exact h'))
    · left
      refine wp_ok e0 (wp_ok e1 (wp_ite (fun _ => wp_ok e2 (wp_ite (fun h => absurd h h2) fun _ => ?_)) fun h => absurd h1 h))
      exact wp_bind (wp_mono (ends_error n t2 _ _ _ _ g2 (by omega)) fun _ s3 h => wp_pure (st0 (g1.step.trans h.1)))
  · left
    refine wp_ok e0 (wp_ok e1 (wp_ite (fun h => absurd h h1) fun _ => ?_))
    exact wp_bind (wp_mono (ends_error n t _ _ _ _ g1 (by omega)) fun _ s3 h => wp_pure (st0 h.1))

theorem ends_file (n : Nat) : ∀ (b : List Stmt) (s : PS), s.inStr = false → s.nl = false → s.acc = ⟨false, false, false⟩ →
    4 * left s + 1 ≤ n → (wp (fileLoop n b) s fun _ _ => True) ∨ ∃ post, post <:+ s.src ∧ OpenParams post := by
  induction n with
  | zero => intro _ _ _ _ _ h; omega
  | succ n ih =>
    intro b s hi hnl ha hn
    rw [fileLoop]
    obtain ⟨t, s1, e1, g⟩ := read_any hi
    have hi1 := g.step.inStr.trans hi
    have hn1 := g.step.nl.trans hnl
    have ha1 := g.step.acc.trans ha
    by_cases he : t.ty = .endOfFile
    · left
      exact wp_ok e1 (wp_ite (fun _ => wp_pure trivial) fun h => absurd he h)
    have hlt := g.less he
    have next : ∀ {α : Type} (m : P α) (f : α → List Stmt), wp m s1 (fun _ s' => Step s1 s') →
        (wp (m >>= fun a => fileLoop n (f a)) s1 fun _ _ => True) ∨ ∃ post, post <:+ s.src ∧ OpenParams post := by
      intro α m f hw
      unfold wp at hw
      cases e : m s1 with
      | ok r =>
        obtain ⟨a, s'⟩ := r
        rw [e] at hw
        have st : Step s1 s' := hw
        have := st.le
        rcases ih (f a) s' (st.inStr.trans hi1) (st.nl.trans hn1) (st.acc.trans ha1) (by omega) with h | ⟨post, h, h'⟩
        · exact .inl (wp_ok e h)
        · exact .inr ⟨post, (h.trans st.suf).trans g.step.suf, h'⟩
      | assert =>
        left
        refine wp_bind ?_
        unfold wp
        rw [e]
        trivial
      | deep => rw [e] at hw; exact hw.elim
    by_cases hk : isKey t kwFn = true
    · rcases ends_func n s1 g.back hi1 hn1 ha1 (by omega) with h | h
      · rcases next (parseFunc n) (fun f => b ++ f.toList) h with h | h
        · left
          exact wp_ok e1 (wp_ite (fun h => absurd h he) fun _ => wp_ite (fun _ => h) fun h => absurd hk h)
        · exact .inr h
      · exact .inr ⟨_, g.step.suf, h⟩
    · rcases next (error n t .handle .unexpected) (fun _ => b) (wp_mono (ends_error n t _ _ _ _ g (by omega)) fun _ _ h =>
        h.2.2.2 rfl (.inl ha1)) with h | h
      · left
        exact wp_ok e1 (wp_ite (fun h => absurd h he) fun _ => wp_ite (fun h => absurd h hk) fun _ => h)
      · exact .inr h

/-- **C65**: parsing ends for every source — by returning, or at the assertion of an unterminated string — unless the
source ends in a parameter list that is not closed.  A number of nested calls in proportion to the length of the source
is enough. -/
theorem C65_ends_partial (src : List Byte) (n : Nat) (hn : 8 * src.length + 1 ≤ n) :
    parseFile n src ≠ .deep ∨ ∃ pre post, src = pre ++ post ∧ OpenParams post := by
  rcases ends_file n [] (start src) rfl rfl rfl (by
    have : left (start src) = 2 * src.length := rfl
    omega) with h | ⟨post, ⟨pre, h⟩, h'⟩
  · left
    unfold wp at h
    unfold parseFile
    intro e
    split at e
    · cases e
    · cases e
    · rename_i e'
      rw [e'] at h
      exact h
  · exact .inr ⟨pre, post, h.symm, h'⟩

/-- **C65**: statements and blocks of any text are parsed to an end, whatever errors they contain. -/
theorem C65_block_ends (n : Nat) (opt : Bool) (s : PS) (ha : s.acc = ⟨false, false, false⟩)
    (hn : 8 * s.src.length + 7 ≤ n) : parseBlock n opt s ≠ .deep := by
  have hl : left s ≤ 2 * s.src.length + 1 := by
    unfold left
    cases s.back <;> simp
  have := (ends_stmt n).2.1 opt s ha (by omega)
  intro e
  unfold wp at this
  rw [e] at this
  exact this

/-- **C65**: expressions of any text are parsed to an end, whatever errors they contain. -/
theorem C65_expression_ends (n outer : Nat) (st : Bool) (s : PS) (hn : 8 * s.src.length + 5 ≤ n) :
    parseExpr n outer st s ≠ .deep := by
  have hl : left s ≤ 2 * s.src.length + 1 := by
    unfold left
    cases s.back <;> simp
  have := (ends_expr n).1 outer st s (by omega)
  intro e
  unfold wp at this
  rw [e] at this
  exact this

/-- `fn f() { a( } (` is full of errors but has no open parameter list. -/
example : (match parseFile 200 [102, 110, 32, 102, 40, 41, 32, 123, 32, 97, 40, 32, 125, 32, 40] with
    | .ok (_, errs) => errs == [(12, .expression), (15, .commaOrParen)]
    | _ => false) = true := by decide +kernel

/-- `f ( a , b` is an open parameter list. -/
example : OpenParams [102, 40, 97, 44, 98] := by
  have w : ∀ c : Byte, (97 ≤ c.toNat ∧ c.toNat ≤ 122) → Word [c] := fun c hc => ⟨c, [], rfl, .inl hc, by simp⟩
  have ns : ∀ (c : Byte) r, c = 40 ∨ c = 44 → ¬ StartsWith (fun c => nameStart c ∨ digitByte c) (c :: r) := by
    rintro c r h ⟨d, q, e, hd⟩
    cases e
    rcases h with h | h <;> subst h <;> simp [nameStart, digitByte] at hd
  refine ⟨[.identifier, .comma, .identifier], ?_, by simp⟩
  refine .token [] [102] _ _ _ (.none _) ⟨w _ (by decide), ns _ _ (.inl rfl)⟩ (by simp) ?_
  refine .token [] [40] _ _ _ (.none _) rfl (by simp) ?_
  refine .token [] [97] _ _ _ (.none _) ⟨w _ (by decide), ns _ _ (.inr rfl)⟩ (by simp) ?_
  refine .token [] [44] _ _ _ (.none _) rfl (by simp) ?_
  refine .token [] [98] [] _ _ (.none _) ⟨w _ (by decide), ?_⟩ (by simp) (.done _ (.none _))
  rintro ⟨d, q, e, -⟩
  cases e

end Verif.Crowbar
