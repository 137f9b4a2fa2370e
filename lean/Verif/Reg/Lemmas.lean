import Verif.Reg.Spec
import Verif.Toc.Lemmas
/-!
# Commands in module definition files — lemmas
-/
namespace Verif.Reg
open Verif Spec

theorem skip_blank {a r : List Byte} (ha : Blank a) : skip (a ++ r) = skip r := Toc.white_blank a r ha

theorem skip_other {c : Byte} {r : List Byte} (h : ¬ Blank [c]) : skip (c :: r) = c :: r :=
  Toc.white_other (c :: r) fun d hd => by
    have : c = d := by simpa using hd
    subst this
    exact h

theorem not_blank {c : Byte} (h : c ≠ 32 ∧ c ≠ 9 ∧ c ≠ 13 ∧ c ≠ 10) : ¬ Blank [c] := by
  intro hb
  have := hb c (List.mem_singleton.2 rfl)
  simp [h] at this

theorem skip_all {a : List Byte} (ha : Blank a) : skip a = [] := by
  have := skip_blank (r := []) ha
  rw [List.append_nil] at this
  rw [this]; rfl

theorem blank_outside {c : Byte} (h : c = 32 ∨ c = 9 ∨ c = 13 ∨ c = 10) : ¬ Toc.Spec.Inside c := by
  rcases h with rfl | rfl | rfl | rfl <;> simp [Toc.Spec.Inside, Toc.Spec.Begins]

theorem head_outside {b r : List Byte} (hb : Blank b) (hr : ∀ c ∈ r.head?, ¬ Toc.Spec.Inside c) :
    ∀ c ∈ (b ++ r).head?, ¬ Toc.Spec.Inside c := by
  cases b with
  | nil => exact hr
  | cons d b =>
    intro c hc
    have : d = c := by simpa using hc
    subst this
    exact blank_outside (hb d (List.mem_cons_self ..))

theorem head_blank {b : List Byte} (r : List Byte) (hb : Blank b) (hn : b ≠ []) :
    ∀ c ∈ (b ++ r).head?, ¬ Toc.Spec.Inside c := by
  cases b with
  | nil => exact absurd rfl hn
  | cons d b =>
    intro c hc
    have : d = c := by simpa using hc
    subst this
    exact blank_outside (hb d (List.mem_cons_self ..))

theorem head_quoted {name q : List Byte} (t : List Byte) (hq : Quoted name q) :
    ∀ c ∈ (q ++ t).head?, ¬ Toc.Spec.Inside c := by
  obtain ⟨a, b, c, ha, _, _, rfl⟩ := hq
  rw [List.append_assoc]
  refine head_outside ha ?_
  intro c hc
  have : (61 : Byte) = c := by simpa using hc
  subst this
  simp [Toc.Spec.Inside, Toc.Spec.Begins]

theorem quotedLoop_name : ∀ (name rest : List Byte) (n : Nat), (∀ c ∈ name, c ≠ 34 ∧ c ≠ 92 ∧ c ≠ 13 ∧ c ≠ 10) → n < 2 →
    (name ≠ [] ∨ n = 0) → Esc.quotedLoop 34 n false (name ++ 34 :: rest) = ⟨name, [], rest⟩ := by
  intro name
  induction name with
  | nil =>
    intro rest n _ _ h
    have : n = 0 := h.resolve_left fun h => h rfl
    subst this
    rw [Esc.quotedLoop.eq_def]
    simp
  | cons c name ih =>
    intro rest n h hn _
    obtain ⟨h1, h2, h3, h4⟩ := h c (List.mem_cons_self ..)
    rw [List.cons_append, Esc.quotedLoop_plain c _ h1 h2 h3 h4 n hn,
      ih rest 0 (fun d hd => h d (List.mem_cons_of_mem _ hd)) (by omega) (.inr rfl)]
    rfl

theorem equalQuoted_eq {name q : List Byte} (t : List Byte) (h : Plain name) (hq : Quoted name q) :
    ∃ c, Blank c ∧ equalQuoted (q ++ t) = some (name, c ++ t) := by
  obtain ⟨a, b, c, ha, hb, hc, rfl⟩ := hq
  refine ⟨c, hc, ?_⟩
  have e1 : skip (a ++ 61 :: (b ++ 34 :: (name ++ 34 :: c)) ++ t) = 61 :: (b ++ 34 :: (name ++ 34 :: (c ++ t))) := by
    rw [List.append_assoc, skip_blank ha, List.cons_append, skip_other (not_blank (by decide))]
    simp
  have e2 : skip (b ++ 34 :: (name ++ 34 :: (c ++ t))) = 34 :: (name ++ 34 :: (c ++ t)) := by
    rw [skip_blank hb, skip_other (not_blank (by decide))]
  have e3 : Esc.readQuoted false (34 :: (name ++ 34 :: (c ++ t))) = ⟨name, [], c ++ t⟩ := by
    unfold Esc.readQuoted
    dsimp only
    rw [if_pos (Or.inl rfl)]
    exact quotedLoop_name name _ 1 h.2 (by omega) (.inl h.1)
  unfold equalQuoted
  rw [e1]
  simp only [e2, e3]

theorem word_module : Toc.Spec.Word [109, 111, 100, 117, 108, 101] :=
  ⟨109, _, rfl, by simp [Toc.Spec.Begins], by simp [Toc.Spec.Inside, Toc.Spec.Begins]⟩
theorem word_extern : Toc.Spec.Word [101, 120, 116, 101, 114, 110] :=
  ⟨101, _, rfl, by simp [Toc.Spec.Begins], by simp [Toc.Spec.Inside, Toc.Spec.Begins]⟩
theorem word_provider : Toc.Spec.Word [112, 114, 111, 118, 105, 100, 101, 114] :=
  ⟨112, _, rfl, by simp [Toc.Spec.Begins], by simp [Toc.Spec.Inside, Toc.Spec.Begins]⟩
theorem word_ply : Toc.Spec.Word [112, 108, 121] :=
  ⟨112, _, rfl, by simp [Toc.Spec.Begins], by simp [Toc.Spec.Inside, Toc.Spec.Begins]⟩

theorem command_module {name b q : List Byte} (h : Plain name) (hb : Blank b) (hq : Quoted name q) :
    command true (b ++ ([109, 111, 100, 117, 108, 101] ++ q)) = .ok (.module name) := by
  have e1 : skip (b ++ ([109, 111, 100, 117, 108, 101] ++ q)) = [109, 111, 100, 117, 108, 101] ++ q := by
    rw [skip_blank hb]; exact skip_other (not_blank (by decide))
  have hh := head_quoted [] hq
  obtain ⟨c, hc, he⟩ := equalQuoted_eq [] h hq
  rw [List.append_nil] at hh he
  rw [List.append_nil] at he
  unfold command
  rw [e1, Toc.name_word word_module hh, Toc.after_word word_module hh]
  simp only [if_true, Bool.not_true, Bool.false_eq_true, if_false, he, h.1, skip_all hc]
  rfl

theorem command_external {name provider b q d r : List Byte} (h : Plain name) (h' : Plain provider) (hb : Blank b)
    (hq : Quoted name q) (hd : Blank d) (hr : Quoted provider r) :
    command true (b ++ ([101, 120, 116, 101, 114, 110] ++ (q ++ (d ++ ([112, 114, 111, 118, 105, 100, 101, 114] ++ r))))) =
      .ok (.external name provider) := by
  have e1 : skip (b ++ ([101, 120, 116, 101, 114, 110] ++ (q ++ (d ++ ([112, 114, 111, 118, 105, 100, 101, 114] ++ r))))) =
      [101, 120, 116, 101, 114, 110] ++ (q ++ (d ++ ([112, 114, 111, 118, 105, 100, 101, 114] ++ r))) := by
    rw [skip_blank hb]; exact skip_other (not_blank (by decide))
  have hh := head_quoted (d ++ ([112, 114, 111, 118, 105, 100, 101, 114] ++ r)) hq
  obtain ⟨c, hc, he⟩ := equalQuoted_eq (d ++ ([112, 114, 111, 118, 105, 100, 101, 114] ++ r)) h hq
  have e2 : skip (c ++ (d ++ ([112, 114, 111, 118, 105, 100, 101, 114] ++ r))) =
      [112, 114, 111, 118, 105, 100, 101, 114] ++ r := by
    rw [skip_blank hc, skip_blank hd]; exact skip_other (not_blank (by decide))
  have hh2 := head_quoted [] hr
  obtain ⟨c2, hc2, he2⟩ := equalQuoted_eq [] h' hr
  rw [List.append_nil] at hh2 he2
  rw [List.append_nil] at he2
  unfold command
  rw [e1, Toc.name_word word_extern hh, Toc.after_word word_extern hh]
  dsimp only
  rw [if_neg (by decide), if_pos rfl, if_neg (by decide), he]
  dsimp only
  rw [if_neg h.1, e2, Toc.name_word word_provider hh2, Toc.after_word word_provider hh2, if_neg (by simp), he2]
  dsimp only
  rw [if_neg h'.1, skip_all hc2, if_neg (by simp)]

theorem trimLeft_blank : ∀ (a r : List Byte), Blank a → Str.trimLeft Str.isWhite (a ++ r) = Str.trimLeft Str.isWhite r := by
  intro a
  induction a with
  | nil => intro r _; rfl
  | cons c a ih =>
    intro r h
    rw [List.cons_append, Str.trimLeft, if_pos, ih r fun d hd => h d (List.mem_cons_of_mem _ hd)]
    have := h c (List.mem_cons_self ..)
    simpa [Str.isWhite, or_assoc] using this

theorem trim_core {a c : List Byte} (x : List Byte) (ha : Blank a) (hc : Blank c) :
    Str.trim Str.isWhite true true (a ++ (91 :: (x ++ ([93] ++ c)))) = 91 :: (x ++ [93]) := by
  unfold Str.trim Str.trimRight
  simp only [if_true]
  rw [trimLeft_blank a _ ha]
  have e : Str.trimLeft Str.isWhite (91 :: (x ++ ([93] ++ c))) = 91 :: (x ++ ([93] ++ c)) := by
    rw [Str.trimLeft, if_neg (by decide)]
  rw [e]
  have e2 : (91 :: (x ++ ([93] ++ c))).reverse = c.reverse ++ (93 :: (x.reverse ++ [91])) := by simp
  rw [e2, trimLeft_blank _ _ fun d hd => hc d (List.mem_reverse.1 hd), Str.trimLeft, if_neg (by decide)]
  simp

theorem meaning_core {a c x : List Byte} (scope : Bool) (ha : Blank a) (hc : Blank c)
    (hx : ∀ d ∈ x.head?, ¬ Toc.Spec.Inside d) :
    meaning scope (a ++ ([91, 112, 108, 121] ++ (x ++ ([93] ++ c)))) = .ply (command scope x) := by
  have e : a ++ ([91, 112, 108, 121] ++ (x ++ ([93] ++ c))) = a ++ (91 :: (([112, 108, 121] ++ x) ++ ([93] ++ c))) := by simp
  rw [e]
  unfold meaning
  rw [trim_core _ ha hc]
  have s1 : Str.startsWith (91 :: (([112, 108, 121] ++ x) ++ [93])) [91] = true := by simp [Str.startsWith]
  have s2 : Str.endsWith (91 :: (([112, 108, 121] ++ x) ++ [93])) [93] = true := by
    unfold Str.endsWith
    rw [if_neg (by simp)]
    have : (91 :: (([112, 108, 121] ++ x) ++ [93])).length - [(93 : Byte)].length = (91 :: ([112, 108, 121] ++ x)).length := by
      simp
    have e : (91 :: (([112, 108, 121] ++ x) ++ [93]) : List Byte) = (91 :: ([112, 108, 121] ++ x)) ++ [93] := rfl
    rw [this, e, List.drop_left]
    rfl
  have s3 : ((91 :: (([112, 108, 121] ++ x) ++ [(93 : Byte)])).drop 1).take
      ((91 :: (([112, 108, 121] ++ x) ++ [(93 : Byte)])).length - 2) = [112, 108, 121] ++ x := by
    rw [List.drop_succ_cons, List.drop_zero, List.take_left']
    simp
  dsimp only
  rw [s1, s2, s3, Toc.name_word word_ply hx, Toc.after_word word_ply hx]
  simp

theorem written_meaning {cmd : Cmd} {text : List Byte} (h : Written cmd text) : meaning true text = .ply (.ok cmd) := by
  cases h with
  | @module name a b q c h ha hb hb' hc hq =>
    have := meaning_core (x := b ++ ([109, 111, 100, 117, 108, 101] ++ q)) true ha hc (head_blank _ hb hb')
    rw [command_module h hb hq] at this
    rw [← this]
    simp
  | @external name provider a b q d r c h h' ha hb hb' hc hq hd hr =>
    have := meaning_core (x := b ++ ([101, 120, 116, 101, 114, 110] ++ (q ++ (d ++
      ([112, 114, 111, 118, 105, 100, 101, 114] ++ r))))) true ha hc (head_blank _ hb hb')
    rw [command_external h h' hb hq hd hr] at this
    rw [← this]
    simp

theorem trimLeft_head (r : List Byte) {c : Byte} (h : Str.isWhite c = false) :
    (Str.trimRight Str.isWhite (c :: r)).head? = some c := by
  have hs : ∀ s : List Byte, Str.trimLeft Str.isWhite (s ++ [c]) ≠ [] ∧
      (Str.trimLeft Str.isWhite (s ++ [c])).getLast? = some c := by
    intro s
    induction s with
    | nil => simp [Str.trimLeft, h]
    | cons d s ih =>
      rw [List.cons_append, Str.trimLeft]
      split
      · exact ih
      · refine ⟨List.cons_ne_nil _ _, ?_⟩
        rw [← List.cons_append, List.getLast?_append]
        rfl
  unfold Str.trimRight
  rw [List.reverse_cons, List.head?_reverse]
  exact (hs _).2

theorem remark_meaning {text : List Byte} (scope : Bool) (h : Remark text) : meaning scope text = .nothing := by
  obtain ⟨a, c, r, ha, rfl, hc, h1, h2⟩ := h
  have hw : Str.isWhite c = false := by
    rw [Bool.eq_false_iff]
    intro hw
    refine hc fun d hd => ?_
    rw [List.mem_singleton] at hd
    subst hd
    simpa [Str.isWhite, or_assoc] using hw
  have e : ∃ t, Str.trim Str.isWhite true true (a ++ c :: r) = c :: t := by
    unfold Str.trim
    simp only [if_true]
    rw [trimLeft_blank a _ ha, Str.trimLeft, if_neg (by simp [hw])]
    have := trimLeft_head r hw
    rcases hx : Str.trimRight Str.isWhite (c :: r) with _ | ⟨d, t⟩
    · rw [hx] at this; cases this
    · rw [hx] at this
      have : d = c := by simpa using this
      exact ⟨t, by rw [this]⟩
  obtain ⟨t, e⟩ := e
  unfold meaning
  rw [e]
  have s1 : Str.startsWith (c :: t) [91] = false := by simp [Str.startsWith, h1]
  dsimp only
  rw [s1, Bool.false_and, if_neg (by simp), if_neg]
  rw [List.takeWhile_cons, if_pos (by simp [hw])]
  intro h
  exact h2 (List.cons.inj h).1

/-! ## Runs -/

theorem step_remark (st : State) {text : List Byte} (scope : Bool) (h : Remark text) :
    step st (.comment true scope text) = st := by
  unfold step
  simp only [remark_meaning scope h]

theorem fold_remarks : ∀ (os : List (Bool × List Byte)) (st : State), (∀ o ∈ os, Remark o.2) →
    (os.map (fun o => Event.comment true o.1 o.2)).foldl step st = st := by
  intro os
  induction os with
  | nil => intro st _; rfl
  | cons o os ih =>
    intro st h
    rw [List.map_cons, List.foldl_cons, step_remark st _ (h o (List.mem_cons_self ..))]
    exact ih st fun x hx => h x (List.mem_cons_of_mem _ hx)

theorem piece_run (p : Piece) (hp : p.Ok) (f : List (Cmd × List Byte)) (e : List Err) :
    p.events.foldl step ⟨none, f, e⟩ = ⟨none, f ++ p.found, e⟩ := by
  cases p with
  | annotated cmd text others g =>
    show ((others.map _ ++ [Event.decl (some g)]).foldl step (step ⟨none, f, e⟩ (.comment true true text))) = _
    have h1 : step ⟨none, f, e⟩ (.comment true true text) = ⟨some cmd, f, e⟩ := by
      unfold step
      simp [written_meaning hp.1]
    rw [h1, List.foldl_append, fold_remarks _ _ hp.2]
    rfl
  | comment scope text =>
    simp only [Piece.events, List.foldl_cons, List.foldl_nil]
    rw [step_remark _ _ hp]
    simp [Piece.found]
  | decl g =>
    simp [Piece.events, step, Piece.found]

theorem pieces_run : ∀ (ps : List Piece) (f : List (Cmd × List Byte)) (e : List Err), (∀ p ∈ ps, p.Ok) →
    (ps.flatMap Piece.events).foldl step ⟨none, f, e⟩ = ⟨none, f ++ ps.flatMap Piece.found, e⟩ := by
  intro ps
  induction ps with
  | nil => intro f e _; simp
  | cons p ps ih =>
    intro f e h
    rw [List.flatMap_cons, List.foldl_append, piece_run p (h p (List.mem_cons_self ..)),
      ih _ _ fun q hq => h q (List.mem_cons_of_mem _ hq), List.flatMap_cons, List.append_assoc]

/-- Whether a command was dropped with a report. -/
def isDrop (e : Err) : Bool := e == .alreadyInside || e == .couldNotApply

/-- The errors of a single command are not about commands that are dropped. -/
theorem command_errs (scope : Bool) (s : List Byte) (e : Err) (h : command scope s = .error e) : isDrop e = false := by
  unfold command at h
  dsimp only at h
  repeat' split at h
  all_goals first
    | (cases h; rfl)
    | cases h

theorem meaning_errs {scope : Bool} {t : List Byte} {e : Err} (h : meaning scope t = .ply (.error e)) : isDrop e = false := by
  unfold meaning at h
  dsimp only at h
  split at h
  · split at h
    · cases h
    · injection h with h
      exact command_errs _ _ _ h
  · split at h <;> cases h

theorem count_run : ∀ (es : List Event) (st : State),
    (es.foldl step st).found.length + ((es.foldl step st).errs.filter isDrop).length +
        (es.foldl step st).cmd.toList.length =
      accepted es + st.found.length + (st.errs.filter isDrop).length + st.cmd.toList.length := by
  intro es
  induction es with
  | nil => intro st; simp [accepted]
  | cons ev es ih =>
    intro st
    rw [List.foldl_cons, ih]
    cases ev with
    | comment d scope text =>
      cases d with
      | false => simp [accepted, step]
      | true =>
        have ha : accepted (.comment true scope text :: es) =
          (match meaning scope text with
            | .ply (.ok _) => 1
            | _ => 0) + accepted es := rfl
        rw [ha]
        unfold step
        rcases hm : meaning scope text with _ | _ | r
        · simp [hm]
        · simp [hm, isDrop]
        · cases r with
          | error e =>
            have := meaning_errs hm
            have hg : isDrop Err.alreadyInside = true := rfl
            rcases hc : st.cmd with _ | c0 <;> simp [hm, List.filter_append, List.filter_cons, this, hg] <;> omega
          | ok c =>
            rcases hc : st.cmd with _ | c0 <;> simp [hm, hc, List.filter_append]
            · omega
            · simp [isDrop]; omega
    | decl f =>
      have ha : accepted (.decl f :: es) = accepted es := rfl
      rw [ha]
      unfold step
      rcases hc : st.cmd with _ | c
      · simp [hc]
      · cases f
        · simp [isDrop, List.filter_append]; omega
        · simp; omega

theorem command_only {scope : Bool} {s : List Byte} {cmd : Cmd} (h : command scope s = .ok cmd) :
    scope = true ∧ Named cmd := by
  cases scope <;> unfold command at h <;> dsimp only at h
  · simp only [Bool.not_false, if_true] at h
    repeat' split at h
    all_goals cases h
  · refine ⟨rfl, ?_⟩
    repeat' split at h
    all_goals first
      | (cases h; simp only [Named]; assumption)
      | (cases h; exact ⟨by assumption, by assumption⟩)
      | cases h

theorem meaning_only {scope : Bool} {t : List Byte} {cmd : Cmd} (h : meaning scope t = .ply (.ok cmd)) :
    scope = true ∧ Named cmd := by
  unfold meaning at h
  dsimp only at h
  split at h
  · split at h
    · cases h
    · injection h with h
      exact command_only h
  · split at h <;> cases h

end Verif.Reg
