import Verif.Crowbar.PropsFile

/-!
# Recovering from errors — properties
-/

namespace Verif.Crowbar
open Verif

/-! ## What is meant -/

/-- A closing bracket. -/
def isClose (ty : TokTy) : Prop := ty = .closeCurly ∨ ty = .closeParen ∨ ty = .closeSquare

/-- Tokens in which every bracket has its partner. -/
inductive Group : List TokTy → Prop
  | nil : Group []
  | plain (t : TokTy) (ts : List TokTy) : isOpen t = false → ¬ isClose t → t ≠ .endOfFile → Group ts →
      Group (t :: ts)
  | nest (o : TokTy) (a b : List TokTy) : isOpen o = true → Group a → Group b → Group (o :: (a ++ closeFor o :: b))

/-- Tokens in which some opening brackets, not of the kind that `c` closes, lack their partner. -/
inductive Unclosed (c : TokTy) : List TokTy → Prop
  | group (a : List TokTy) : Group a → Unclosed c a
  | lost (a b : List TokTy) (o : TokTy) : Group a → isOpen o = true → closeFor o ≠ c → Unclosed c b →
      Unclosed c (a ++ o :: b)

/-- Reading token after token. -/
inductive Reads : PS → List Tok → PS → Prop
  | nil (s : PS) : Reads s [] s
  | cons (s s1 s2 : PS) (t : Tok) (ts : List Tok) : read s = .ok (t, s1) → Reads s1 ts s2 → Reads s (t :: ts) s2

/-- Whether the closing bracket of an outer scope is waited for. -/
def Accept.has (a : Accept) (ty : TokTy) : Prop :=
  (ty = .closeCurly ∧ a.curly = true) ∨ (ty = .closeParen ∧ a.paren = true) ∨ (ty = .closeSquare ∧ a.square = true)

/-! ## Lemmas -/

theorem fresh_acc {s s1 : PS} {t : Tok} (h : freshTok s = .ok (t, s1)) (a : Accept) (m : Bool) :
    freshTok { s with acc := a, mute := m } = .ok (t, { s1 with acc := a, mute := m }) := by
  obtain ⟨tot, src, back, nl, inStr, mute, acc, errs⟩ := s
  unfold freshTok at h ⊢
  cases inStr with
  | true =>
    cases src with
    | nil => cases h; rfl
    | cons b src =>
      dsimp only at h ⊢
      rw [if_pos rfl] at h ⊢
      cases hr : readStr [] (b :: src) with
      | none => rw [hr] at h; cases h
      | some x => rw [hr] at h; cases h; rfl
  | false => cases h; rfl

theorem fresh_keeps {s s1 : PS} {t : Tok} (h : freshTok s = .ok (t, s1)) :
    s1.acc = s.acc ∧ s1.mute = s.mute ∧ s1.back = s.back := by
  obtain ⟨tot, src, back, nl, inStr, mute, acc, errs⟩ := s
  unfold freshTok at h
  cases inStr with
  | true =>
    cases src with
    | nil => cases h; exact ⟨rfl, rfl, rfl⟩
    | cons b src =>
      dsimp only at h
      rw [if_pos rfl] at h
      cases hr : readStr [] (b :: src) with
      | none => rw [hr] at h; cases h
      | some x => rw [hr] at h; cases h; exact ⟨rfl, rfl, rfl⟩
  | false => cases h; exact ⟨rfl, rfl, rfl⟩

theorem read_acc {s s1 : PS} {t : Tok} (h : read s = .ok (t, s1)) (a : Accept) (m : Bool) :
    read { s with acc := a, mute := m } = .ok (t, { s1 with acc := a, mute := m }) := by
  obtain ⟨tot, src, back, nl, inStr, mute, acc, errs⟩ := s
  cases back with
  | none => exact fresh_acc (s := ⟨tot, src, none, nl, inStr, mute, acc, errs⟩) h a m
  | some b =>
    unfold read at h ⊢
    dsimp only at h ⊢
    split at h
    · rename_i hc
      rw [if_pos hc]
      exact fresh_acc (s := ⟨tot, src, none, nl, inStr, mute, acc, errs⟩) h a m
    · rename_i hc
      rw [if_neg hc]
      cases h; rfl

theorem read_keeps {s s1 : PS} {t : Tok} (h : read s = .ok (t, s1)) :
    s1.acc = s.acc ∧ s1.mute = s.mute ∧ s1.back = none := by
  obtain ⟨tot, src, back, nl, inStr, mute, acc, errs⟩ := s
  cases back with
  | none => exact fresh_keeps (s := ⟨tot, src, none, nl, inStr, mute, acc, errs⟩) h
  | some b =>
    unfold read at h
    dsimp only at h
    split at h
    · exact fresh_keeps (s := ⟨tot, src, none, nl, inStr, mute, acc, errs⟩) h
    · cases h; exact ⟨rfl, rfl, rfl⟩

theorem Reads.acc {s s2 : PS} {ts : List Tok} (h : Reads s ts s2) (a : Accept) (m : Bool) :
    Reads { s with acc := a, mute := m } ts { s2 with acc := a, mute := m } := by
  induction h with
  | nil s => exact .nil _
  | cons s s1 s2 t ts hr _ ih => exact .cons _ _ _ _ _ (read_acc hr a m) ih

theorem Reads.keeps {s s2 : PS} {ts : List Tok} (h : Reads s ts s2) : s2.acc = s.acc ∧ s2.mute = s.mute := by
  induction h with
  | nil s => exact ⟨rfl, rfl⟩
  | cons s s1 s2 t ts hr _ ih =>
    have := read_keeps hr
    exact ⟨ih.1.trans this.1, ih.2.trans this.2.1⟩

theorem Reads.split {s s2 : PS} {ts us : List Tok} (h : Reads s (ts ++ us) s2) :
    ∃ s1, Reads s ts s1 ∧ Reads s1 us s2 := by
  induction ts generalizing s with
  | nil => exact ⟨s, .nil _, h⟩
  | cons t ts ih =>
    cases h with
    | cons _ s1 _ _ _ hr hrest =>
      obtain ⟨sm, h1, h2⟩ := ih hrest
      exact ⟨sm, .cons _ _ _ _ _ hr h1, h2⟩

theorem split_types {toks : List Tok} {a b : List TokTy} (h : toks.map (·.ty) = a ++ b) :
    ∃ ta tb, toks = ta ++ tb ∧ ta.map (·.ty) = a ∧ tb.map (·.ty) = b := by
  refine ⟨toks.take a.length, toks.drop a.length, (List.take_append_drop ..).symm, ?_, ?_⟩
  · rw [List.map_take, h]; simp
  · rw [List.map_drop, h]; simp

theorem stay_plain {t : Tok} {s : PS} (h1 : ¬ isClose t.ty) (h2 : t.ty ≠ .endOfFile) :
    okToStay t s = .ok (true, s) := by
  unfold okToStay
  rw [if_neg (fun h => h1 (.inl h.1)), if_neg (fun h => h1 (.inr (.inl h.1))),
    if_neg (fun h => h1 (.inr (.inr h.1))), if_neg h2]

theorem stay_outer {t : Tok} {s : PS} (h : s.acc.has t.ty) :
    okToStay t s = .ok (false, { s with back := some t }) := by
  unfold okToStay
  rcases h with h | h | h
  · rw [if_pos h]
  · rw [if_neg (fun h' => by rw [h.1] at h'; cases h'.1), if_pos h]
  · rw [if_neg (fun h' => by rw [h.1] at h'; cases h'.1), if_neg (fun h' => by rw [h.1] at h'; cases h'.1), if_pos h]

theorem open_close {o : TokTy} (h : isOpen o = true) : isClose (closeFor o) ∧ ¬ isClose o ∧ o ≠ .endOfFile := by
  unfold isOpen at h
  simp only [Bool.or_eq_true, beq_iff_eq] at h
  rcases h with (rfl | rfl) | rfl <;> simp [closeFor, isClose]

theorem has_or {a : Accept} {ty : TokTy} (o : TokTy) (h : a.has ty) : (acceptFor o a).has ty := by
  unfold acceptFor
  rcases h with h | h | h <;> split
  · exact .inl ⟨h.1, rfl⟩
  · split
    · exact .inl h
    · exact .inl h
  · exact .inr (.inl h)
  · split
    · exact .inr (.inl ⟨h.1, rfl⟩)
    · exact .inr (.inl h)
  · exact .inr (.inr h)
  · split
    · exact .inr (.inr h)
    · exact .inr (.inr ⟨h.1, rfl⟩)

theorem has_self {a : Accept} {o : TokTy} (h : isOpen o = true) : (acceptFor o a).has (closeFor o) := by
  unfold isOpen at h
  simp only [Bool.or_eq_true, beq_iff_eq] at h
  rcases h with (rfl | rfl) | rfl
  · exact .inl ⟨rfl, rfl⟩
  · exact .inr (.inl ⟨rfl, rfl⟩)
  · exact .inr (.inr ⟨rfl, rfl⟩)

theorem has_close {a : Accept} {ty : TokTy} (h : a.has ty) : isClose ty := by
  rcases h with h | h | h
  · exact .inl h.1
  · exact .inr (.inl h.1)
  · exact .inr (.inr h.1)

/-- A group is skipped as a whole. -/
theorem skip_group {ts : List TokTy} (hg : Group ts) : ∀ (toks : List Tok), toks.map (·.ty) = ts →
    ∀ (s s1 : PS) (c : TokTy), isClose c → Reads s toks s1 →
    ∃ k, k ≤ toks.length ∧ ∀ n, toks.length + 1 ≤ n + k → skipLoop (n + k) c s = skipLoop n c s1 := by
  induction hg with
  | nil =>
    intro toks ht s s1 c _ hr
    rw [List.map_eq_nil_iff] at ht
    subst ht
    cases hr
    exact ⟨0, Nat.le_refl _, fun _ _ => rfl⟩
  | plain t ts h1 h2 h3 _ ih =>
    intro toks ht s s1 c hc hr
    cases hr with
    | nil => cases ht
    | cons _ sm _ tk toks hrd hrest =>
      rw [List.map_cons, List.cons.injEq] at ht
      obtain ⟨ht, hts⟩ := ht
      rw [← ht] at h1 h2 h3
      obtain ⟨k, hk, hn⟩ := ih toks hts sm s1 c hc hrest
      refine ⟨k + 1, by simp; omega, fun n hnn => ?_⟩
      rw [List.length_cons] at hnn
      rw [← hn n (by omega)]
      show skipLoop (n + k + 1) c s = _
      rw [skipLoop, bind_ok hrd, if_neg (by intro h; rw [h] at h2; exact h2 hc), bind_ok (stay_plain h2 h3),
        if_neg (by simp), if_neg (by simp [h1])]
  | nest o a b ho _ _ iha ihb =>
    intro toks ht s s1 c hc hr
    cases hr with
    | nil => cases ht
    | cons _ sm _ tk toks hrd hrest =>
      rw [List.map_cons, List.cons.injEq] at ht
      obtain ⟨hto, hts⟩ := ht
      obtain ⟨oc1, oc2, oc3⟩ := open_close ho
      obtain ⟨ta, tb', rfl, hta, htb'⟩ := split_types hts
      obtain ⟨sa, hra, hrb'⟩ := hrest.split
      cases hrb' with
      | nil => cases htb'
      | cons _ sb _ tc tb hrc hrb =>
        rw [List.map_cons, List.cons.injEq] at htb'
        obtain ⟨htc, htb⟩ := htb'
        obtain ⟨ka, hka, hna⟩ := iha ta hta _ _ (closeFor o) oc1 (hra.acc (acceptFor o sm.acc) sm.mute)
        obtain ⟨kb, hkb, hnb⟩ := ihb tb htb sb s1 c hc hrb
        refine ⟨kb + 1, by simp; omega, fun n hnn => ?_⟩
        simp only [List.length_cons, List.length_append] at hnn
        rw [← hnb n (by omega)]
        show skipLoop (n + kb + 1) c s = _
        have hskip : skipAnyScope (n + kb) o sm = .ok (true, sb) := by
          obtain ⟨N, hN⟩ : ∃ N, n + kb = (N + 1 + ka) + 1 := ⟨n + kb - 2 - ka, by omega⟩
          rw [hN, skipAnyScope]
          have kp := hra.keeps
          have kc := read_keeps hrc
          rw [withAccept_ok (a := true) (s' := { sb with acc := acceptFor o sm.acc, mute := sm.mute })]
          · have e1 : sm.acc = sb.acc := by rw [kc.1, kp.1]
            have e2 : sm.mute = sb.mute := by rw [kc.2.1, kp.2]
            rw [e1, e2]
          · rw [hna (N + 1) (by omega), skipLoop, bind_ok (read_acc hrc _ _), if_pos htc]
            rfl
        rw [skipLoop, bind_ok hrd, if_neg (by intro h; rw [← hto, h] at oc2; exact oc2 hc),
          bind_ok (stay_plain (by rw [hto]; exact oc2) (by rw [hto]; exact oc3)), if_neg (by simp),
          if_pos (by rw [hto]; exact ho), hto, bind_ok hskip]

/-- An unclosed bracket is given up at the closing bracket of an outer scope. -/
theorem skip_unclosed {c : TokTy} {ts : List TokTy} (hu : Unclosed c ts) : ∀ (toks : List Tok), toks.map (·.ty) = ts →
    ∀ (s s1 s2 : PS) (tc : Tok) (d : TokTy), isClose d → s.acc.has c → tc.ty = c → Reads s toks s1 →
    read s1 = .ok (tc, s2) → ∀ n, 4 * toks.length + 4 ≤ n →
      (d ≠ c → skipLoop n d s = .ok (false, { s2 with back := some tc, mute := false })) ∧
      (d = c → ∃ m, skipLoop n d s = .ok (true, { s2 with mute := m })) := by
  induction hu with
  | group a ha =>
    intro toks ht s s1 s2 tc d hd hc htc hr hrc n hn
    obtain ⟨k, hk, h⟩ := skip_group ha toks ht s s1 d hd hr
    obtain ⟨N, rfl⟩ : ∃ N, n = (N + 1) + k := ⟨n - 1 - k, by omega⟩
    rw [h (N + 1) (by omega), skipLoop, bind_ok hrc]
    have kc := read_keeps hrc
    have kp := hr.keeps
    refine ⟨fun hdc => ?_, fun hdc => ⟨s2.mute, ?_⟩⟩
    · rw [if_neg (by rw [htc]; exact fun h => hdc h.symm), bind_ok (stay_outer (by rw [kc.1, kp.1, htc]; exact hc)),
        if_pos rfl]
      rfl
    · rw [if_pos (by rw [htc, hdc])]
      rfl
  | lost a b o ha ho hoc _ ih =>
    intro toks ht s s1 s2 tc d hd hc htc hr hrc n hn
    obtain ⟨ta, tb', rfl, hta, htb'⟩ := split_types ht
    obtain ⟨sa, hra, hrb'⟩ := hr.split
    cases hrb' with
    | nil => cases htb'
    | cons _ sb _ to tb hro hrb =>
      rw [List.map_cons, List.cons.injEq] at htb'
      obtain ⟨hto, htb⟩ := htb'
      obtain ⟨oc1, oc2, oc3⟩ := open_close ho
      obtain ⟨k, hk, h⟩ := skip_group ha ta hta s sa d hd hra
      simp only [List.length_append, List.length_cons] at hn
      have ka := hra.keeps
      have kb := read_keeps hro
      have kb2 := hrb.keeps
      have kc := read_keeps hrc
      obtain ⟨N, rfl⟩ : ∃ N, n = (N + 3) + k := ⟨n - 3 - k, by omega⟩
      have haccb : sb.acc.has c := by rw [kb.1, ka.1]; exact hc
      have hin : skipAnyScope (N + 2) o sb = .ok (false, { s2 with back := some tc, mute := false }) := by
        rw [skipAnyScope]
        have := (ih tb htb _ _ _ tc (closeFor o) oc1 (has_or o haccb) htc
          (hrb.acc (acceptFor o sb.acc) sb.mute) (read_acc hrc _ _) (N + 1) (by omega)).1 hoc
        rw [withAccept_ok this]
        have e1 : sb.acc = s2.acc := by rw [kc.1, kb2.1]
        rw [e1]
      have hcl : isClose c := has_close hc
      have hback : read { s2 with back := some tc, mute := false } = .ok (tc, { s2 with mute := false }) := by
        unfold read
        dsimp only
        rw [if_neg (by rw [htc]; rintro ⟨rfl, _⟩; unfold isClose at hcl; simp at hcl)]
        have : s2.back = none := kc.2.2
        obtain ⟨tot, src, back, nl, inStr, mute, acc, errs⟩ := s2
        cases this
        rfl
      have hgo : skipLoop (N + 3) d sa = skipLoop (N + 2) d { s2 with back := some tc, mute := false } := by
        rw [skipLoop, bind_ok hro, if_neg (by intro h; rw [← hto, h] at oc2; exact oc2 hd),
          bind_ok (stay_plain (by rw [hto]; exact oc2) (by rw [hto]; exact oc3)), if_neg (by simp),
          if_pos (by rw [hto]; exact ho), hto, bind_ok hin]
      rw [h (N + 3) (by omega), hgo, skipLoop, bind_ok hback]
      refine ⟨fun hdc => ?_, fun hdc => ⟨false, ?_⟩⟩
      · rw [if_neg (by rw [htc]; exact fun h => hdc h.symm),
          bind_ok (stay_outer (s := { s2 with mute := false }) (show s2.acc.has tc.ty by rw [kc.1, kb2.1, htc]; exact haccb)), if_pos rfl]
        rfl
      · rw [if_pos (by rw [htc, hdc])]
        rfl

/-! ## Theorems -/

/-- **C65**, recovery: an unexpected opening bracket is skipped with everything up to its closing bracket,
whatever is in between (bracketed groups, or opening brackets of other kinds that are never closed): parsing
goes on with the token behind it. -/
theorem C65_recovery_skips (o t : Tok) (ho : isOpen o.ty = true) (ts : List Tok) (s s1 s2 : PS)
    (hu : Unclosed (closeFor o.ty) (ts.map (·.ty))) (hr : Reads s ts s1) (hc : read s1 = .ok (t, s2))
    (ht : t.ty = closeFor o.ty) (n : Nat) (hn : 4 * ts.length + 5 ≤ n) :
    ∃ m, handleUnexpected n o s = .ok (true, { s2 with mute := m }) := by
  obtain ⟨oc1, oc2, oc3⟩ := open_close ho
  obtain ⟨N, rfl⟩ : ∃ N, n = N + 1 := ⟨n - 1, by omega⟩
  obtain ⟨m, hm⟩ := (skip_unclosed hu ts rfl _ _ _ t (closeFor o.ty) oc1 (has_self (a := s.acc) ho) ht
    (hr.acc (acceptFor o.ty s.acc) s.mute) (read_acc hc _ _) N (by omega)).2 rfl
  refine ⟨m, ?_⟩
  unfold handleUnexpected
  rw [bind_ok (stay_plain oc2 oc3), if_neg (by simp), if_pos ho]
  have e : s.acc = s2.acc := by rw [(read_keeps hc).1, hr.keeps.1]
  have hs : skipAnyScope (N + 1) o.ty s = .ok (true, { s2 with mute := m }) := by
    rw [skipAnyScope, withAccept_ok hm, e]
  rw [bind_ok hs]
  rfl

/-- The text ` { x ) y` from a position on, in a scope closed by a curly bracket. -/
def exAt (k : Nat) : PS :=
  { start [32, 123, 32, 120, 32, 41, 32, 121] with
    src := [32, 123, 32, 120, 32, 41, 32, 121].drop k, acc := ⟨true, false, false⟩ }

theorem exReads : Reads (exAt 0) [⟨.openCurly, 1, [123]⟩, ⟨.identifier, 3, [120]⟩] (exAt 4) ∧
    read (exAt 4) = .ok (⟨.closeParen, 5, [41]⟩, exAt 6) := by
  refine ⟨.cons _ (exAt 2) _ _ _ ?_ (.cons _ (exAt 4) _ _ _ ?_ (.nil _)), ?_⟩ <;> decide +kernel

theorem exUnclosed (c : TokTy) (h : c ≠ .closeCurly) : Unclosed c [.openCurly, .identifier] :=
  .lost [] [.identifier] .openCurly .nil rfl (fun h' => h h'.symm)
    (.group _ (.plain _ _ rfl (by simp [isClose]) (by simp) .nil))

/-- `( { x ) y` with the first bracket unexpected: parsing goes on with `y`. -/
example : ∃ m, handleUnexpected 13 ⟨.openParen, 0, [40]⟩ (exAt 0) = .ok (true, { exAt 6 with mute := m }) :=
  C65_recovery_skips ⟨.openParen, 0, [40]⟩ ⟨.closeParen, 5, [41]⟩ rfl _ (exAt 0) (exAt 4) (exAt 6)
    (exUnclosed _ (by decide)) exReads.1 exReads.2 rfl 13 (by decide)

/-- **C65**, recovery: when the bracket is never closed, the closing bracket of an outer scope that is still
open ends the search and is the next token: an error inside of a scope does not reach beyond it.  Errors are
reported again from there on. -/
theorem C65_recovery_stops (o t : Tok) (ho : isOpen o.ty = true) (ts : List Tok) (s s1 s2 : PS)
    (hu : Unclosed t.ty (ts.map (·.ty))) (hr : Reads s ts s1) (hc : read s1 = .ok (t, s2))
    (ht : t.ty ≠ closeFor o.ty) (hacc : s.acc.has t.ty) (n : Nat) (hn : 4 * ts.length + 5 ≤ n) :
    ∃ s', handleUnexpected n o s = .ok (true, s') ∧ s'.mute = false ∧ s'.acc = s.acc ∧
      read s' = .ok (t, { s2 with mute := false }) := by
  obtain ⟨oc1, oc2, oc3⟩ := open_close ho
  obtain ⟨N, rfl⟩ : ∃ N, n = N + 1 := ⟨n - 1, by omega⟩
  have hm := (skip_unclosed hu ts rfl _ _ _ t (closeFor o.ty) oc1 (has_or o.ty hacc) rfl
    (hr.acc (acceptFor o.ty s.acc) s.mute) (read_acc hc _ _) N (by omega)).1 (fun h => ht h.symm)
  have kc := read_keeps hc
  have e : s2.acc = s.acc := by rw [kc.1, hr.keeps.1]
  refine ⟨{ s2 with back := some t, mute := false }, ?_, rfl, e, ?_⟩
  · unfold handleUnexpected
    rw [bind_ok (stay_plain oc2 oc3), if_neg (by simp), if_pos ho]
    have hs : skipAnyScope (N + 1) o.ty s = .ok (false, { s2 with back := some t, mute := false }) := by
      rw [skipAnyScope, withAccept_ok hm, ← e]
    rw [bind_ok hs]
    rfl
  · have hcl : isClose t.ty := has_close hacc
    unfold read
    dsimp only
    rw [if_neg (by rintro ⟨h, _⟩; rw [h] at hcl; unfold isClose at hcl; simp at hcl)]
    have : s2.back = none := kc.2.2
    obtain ⟨tot, src, back, nl, inStr, mute, acc, errs⟩ := s2
    cases this
    rfl

/-- `{ { x ) y` in a scope that `)` ends: it does. -/
example : ∃ s', handleUnexpected 13 ⟨.openCurly, 0, [123]⟩ { exAt 0 with acc := ⟨true, true, false⟩ } = .ok (true, s') ∧
    s'.mute = false ∧ s'.acc = ⟨true, true, false⟩ ∧
    read s' = .ok (⟨.closeParen, 5, [41]⟩, { exAt 6 with acc := ⟨true, true, false⟩, mute := false }) :=
  C65_recovery_stops ⟨.openCurly, 0, [123]⟩ ⟨.closeParen, 5, [41]⟩ rfl _ _ _ _
    (exUnclosed _ (by decide)) (exReads.1.acc ⟨true, true, false⟩ false) (read_acc exReads.2 _ false)
    (by decide) (.inr (.inl ⟨rfl, rfl⟩)) 13 (by decide)

/-- **C65**, recovery: an unexpected closing bracket of an outer scope is left for that scope; any other
unexpected token that opens nothing is dropped. -/
theorem C65_recovery_single (t : Tok) (s : PS) (n : Nat) (ho : isOpen t.ty = false) (hb : s.back = none)
    (hne : t.ty ≠ .endOfFile) :
    (s.acc.has t.ty → ∃ s', handleUnexpected n t s = .ok (false, s') ∧ read s' = .ok (t, s)) ∧
    (¬ s.acc.has t.ty → handleUnexpected n t s = .ok (true, s)) := by
  refine ⟨fun h => ⟨{ s with back := some t }, ?_, ?_⟩, fun h => ?_⟩
  · unfold handleUnexpected
    rw [bind_ok (stay_outer h)]
    rfl
  · have hcl : isClose t.ty := has_close h
    unfold read
    dsimp only
    rw [if_neg (by rintro ⟨h, _⟩; rw [h] at hcl; unfold isClose at hcl; simp at hcl)]
    obtain ⟨tot, src, back, nl, inStr, mute, acc, errs⟩ := s
    cases hb
    rfl
  · unfold handleUnexpected
    have : okToStay t s = .ok (true, s) := by
      unfold okToStay
      rw [if_neg (fun h' => h (.inl h')), if_neg (fun h' => h (.inr (.inl h'))),
        if_neg (fun h' => h (.inr (.inr h'))), if_neg hne]
    rw [bind_ok this, if_neg (by simp), if_neg (by simp [ho])]
    rfl

end Verif.Crowbar
