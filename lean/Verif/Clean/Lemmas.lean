import Verif.Clean.Model
import Verif.Clean.Spec
import Verif.Cpp.LemmasWrite
/-!
# Putting the header of the project on top of a source file — reading tokens
-/
namespace Verif.Clean
open Verif Verif.Cpp

/-- What is read does not depend on where it is. -/
def strip : Lex → Lex
  | .skip r _ st => .skip r [] st
  | .tok t r _ st i => .tok t r [] st i
  | .ident r _ => .ident r []

theorem identLoop_strip (e e' loc loc' : Int) (b : Byte) : ∀ (fuel n : Nat) (errs errs' : List Err) (s : List Byte),
    (identLoop e loc b fuel n errs s).map (fun r => (r.1, r.2.1)) =
      (identLoop e' loc' b fuel n errs' s).map (fun r => (r.1, r.2.1)) := by
  intro fuel
  induction fuel with
  | zero => intros; rfl
  | succ fuel ih =>
    intro n errs errs' s
    cases s with
    | nil => unfold identLoop; by_cases h : n = 0 <;> simp [h]
    | cons c cs =>
      unfold identLoop
      split
      · exact ih _ _ _ _
      · split
        · split
          · split
            · rfl
            · rfl
            · exact ih _ _ _ _
          · split <;> rfl
        · split <;> rfl

theorem readDirective_strip (e e' : Int) (s : List Byte) :
    (readDirective e s).rest = (readDirective e' s).rest ∧ (readDirective e s).incl = (readDirective e' s).incl ∧
      (readDirective e s).setStart = (readDirective e' s).setStart := by
  unfold readDirective
  split
  · exact ⟨rfl, rfl, rfl⟩
  · dsimp only
    (repeat' split) <;> exact ⟨rfl, rfl, rfl⟩

theorem lex_strip (a : Bool) (e e' : Int) (st : Bool) (s : List Byte) :
    (lex a e st s).map strip = (lex a e' st s).map strip := by
  cases s with
  | nil => rfl
  | cons c cs =>
    unfold lex
    dsimp only
    split
    · rfl
    · split
      · split
        · obtain ⟨h1, h2, h3⟩ := readDirective_strip e e' cs
          simp [strip, h1, h2, h3]
        · rfl
      · split
        · split
          · rfl
          · repeat' split
            all_goals rfl
        · split
          · rfl
          · split
            · split <;> rfl
            · have h : (readIdentifierOrLiteral e (c :: cs)).map (fun r => (r.1, r.2.1)) =
                  (readIdentifierOrLiteral e' (c :: cs)).map (fun r => (r.1, r.2.1)) := by
                unfold readIdentifierOrLiteral
                dsimp only
                split
                · rfl
                · exact identLoop_strip ..
              revert h
              cases readIdentifierOrLiteral e (c :: cs) with
              | none =>
                cases readIdentifierOrLiteral e' (c :: cs) with
                | none => intro; rfl
                | some x => intro h; cases h
              | some x =>
                cases readIdentifierOrLiteral e' (c :: cs) with
                | none => intro h; cases h
                | some y =>
                  intro h
                  obtain ⟨t, r, x⟩ := x
                  obtain ⟨t', r', y⟩ := y
                  simp only [Option.map_some, Option.some.injEq, Prod.mk.injEq] at h
                  obtain ⟨rfl, rfl⟩ := h
                  dsimp only
                  split
                  · rfl
                  · split <;> rfl

/-- Two states from which the same is read, at different places. -/
structure Sim (e e' : Int) (p q : PP) : Prop where
  macros : p.macros = []
  macros' : q.macros = []
  angles : p.angles = q.angles
  start : p.atStart = q.atStart
  endLoc : p.endLoc = e
  endLoc' : q.endLoc = e'
  pos : 0 ≤ e
  pos' : 0 ≤ e'
  stack : (p.stack = [] ∧ q.stack = []) ∨ ∃ f g, p.stack = [f] ∧ q.stack = [g] ∧ f.rest = g.rest

/-- Two tokens that differ only in their place. -/
structure LikeTok (e e' : Int) (t u : Token) : Prop where
  type : t.type = u.type
  text : t.text = u.text
  loc : t.type ≠ .endOfFile → e - t.loc = e' - u.loc

/-- The same is read, and the same will be. -/
def LikeRead (e e' : Int) : Option (Token × PP) → Option (Token × PP) → Prop
  | none, none => True
  | some (t, p), some (u, q) => LikeTok e e' t u ∧ Sim e e' p q
  | _, _ => False

def LikeStep (e e' : Int) : Option Step → Option Step → Prop
  | none, none => True
  | some .ended, some .ended => True
  | some (.again p _), some (.again q _) => Sim e e' p q
  | some (.got t p), some (.got u q) => LikeTok e e' t u ∧ Sim e e' p q
  | _, _ => False

theorem step_sim {e e' : Int} {p q : PP} (h : Sim e e' p q) (l l' : Int) : LikeStep e e' (step p l) (step q l') := by
  obtain ⟨m, m', a, st, he, he', h0, h0', hs⟩ := h
  rcases hs with ⟨h1, h2⟩ | ⟨f, g, h1, h2, h3⟩
  · unfold step
    rw [h1, h2]
    trivial
  · unfold step
    rw [h1, h2]
    dsimp only
    rw [h3]
    split
    · exact ⟨m, m', a, st, he, he', h0, h0', Or.inl ⟨rfl, rfl⟩⟩
    · rw [if_neg (by omega), if_neg (by omega), a, st]
      have hl := lex_strip q.angles p.endLoc q.endLoc q.atStart g.rest
      have hloc : e - locAt p.endLoc g.rest = e' - locAt q.endLoc g.rest := by unfold locAt; omega
      revert hl
      cases lex q.angles p.endLoc q.atStart g.rest with
      | none =>
        cases lex q.angles q.endLoc q.atStart g.rest with
        | none => intro; trivial
        | some x => intro hl; cases hl
      | some x =>
        cases lex q.angles q.endLoc q.atStart g.rest with
        | none => intro hl; cases hl
        | some y =>
          intro hl
          cases x <;> cases y <;> simp only [strip, Option.map_some, Option.some.injEq, Lex.skip.injEq, Lex.tok.injEq,
            Lex.ident.injEq, reduceCtorEq, true_and, and_true] at hl
          · obtain ⟨rfl, rfl⟩ := hl
            exact ⟨m, m', rfl, rfl, he, he', h0, h0', Or.inr ⟨_, _, rfl, rfl, rfl⟩⟩
          · obtain ⟨rfl, rfl, rfl, rfl⟩ := hl
            exact ⟨⟨rfl, rfl, fun _ => hloc⟩, ⟨m, m', rfl, rfl, he, he', h0, h0', Or.inr ⟨_, _, rfl, rfl, rfl⟩⟩⟩
          · subst hl
            dsimp only
            unfold gotIdent
            dsimp only
            rw [m, m']
            exact ⟨⟨rfl, rfl, fun _ => hloc⟩, ⟨rfl, rfl, rfl, rfl, he, he', h0, h0', Or.inr ⟨_, _, rfl, rfl, rfl⟩⟩⟩

theorem sim_size {e e' : Int} {p q : PP} (h : Sim e e' p q) : p.size = q.size := by
  rcases h.stack with ⟨h1, h2⟩ | ⟨f, g, h1, h2, h3⟩
  · simp [PP.size, h1, h2]
  · simp [PP.size, h1, h2, h3]

theorem readLoop_sim {e e' : Int} : ∀ (n : Nat) (p q : PP) (l l' : Int), Sim e e' p q →
    LikeRead e e' (readLoop n p l) (readLoop n q l') := by
  intro n
  induction n with
  | zero => intros; trivial
  | succ n ih =>
    intro p q l l' h
    unfold readLoop
    have hs := step_sim h l l'
    revert hs
    cases step p l with
    | none =>
      cases step q l' with
      | none => intro; trivial
      | some y => intro hs; cases hs
    | some x =>
      cases step q l' with
      | none => intro hs; cases x <;> cases hs
      | some y =>
        intro hs
        cases x <;> cases y <;> first | (cases hs; done) | skip
        · exact ih _ _ _ _ hs
        · exact hs
        · exact ⟨⟨rfl, rfl, fun h => absurd rfl h⟩, h⟩

theorem readToken_sim {e e' : Int} {p q : PP} (h : Sim e e' p q) : LikeRead e e' (readToken p) (readToken q) := by
  unfold readToken
  rw [sim_size h]
  exact readLoop_sim _ _ _ _ _ h

/-! ## The same code -/

/-- The same code is read from two states, and its first token is as far from the end. -/
structure SameCode (e e' : Int) (p q : PP) : Prop where
  code : ∀ cs, CodeFrom p cs ↔ CodeFrom q cs
  first : ∀ t, FirstToken p t → ∃ u, FirstToken q u ∧ LikeTok e e' t u
  first' : ∀ u, FirstToken q u → ∃ t, FirstToken p t ∧ LikeTok e e' t u

theorem LikeTok.trans {a b c : Int} {t u v : Token} (h : LikeTok a b t u) (k : LikeTok b c u v) : LikeTok a c t v :=
  ⟨h.type.trans k.type, h.text.trans k.text, fun x => (h.loc x).trans (k.loc (h.type ▸ x))⟩

theorem SameCode.trans {a b c : Int} {p q r : PP} (h : SameCode a b p q) (k : SameCode b c q r) : SameCode a c p r := by
  refine ⟨fun cs => (h.code cs).trans (k.code cs), ?_, ?_⟩
  · intro t ht
    obtain ⟨u, h1, h2⟩ := h.first t ht
    obtain ⟨v, h3, h4⟩ := k.first u h1
    exact ⟨v, h3, h2.trans h4⟩
  · intro t ht
    obtain ⟨u, h1, h2⟩ := k.first' t ht
    obtain ⟨v, h3, h4⟩ := h.first' u h1
    exact ⟨v, h3, h4.trans h2⟩

def brief (r : Option (List Token × PP)) : Option (List (TT × List Byte)) :=
  r.map fun x => x.1.map fun t => (t.type, t.text)

theorem readAll_like {e e' : Int} : ∀ (n : Nat) (p q : PP), LikeRead e e' (readToken p) (readToken q) →
    brief (readAll n p) = brief (readAll n q) := by
  intro n
  induction n with
  | zero => intros; rfl
  | succ n ih =>
    intro p q h
    unfold readAll
    revert h
    cases readToken p with
    | none =>
      cases readToken q with
      | none => intro; rfl
      | some y => intro hs; cases hs
    | some x =>
      cases readToken q with
      | none => intro hs; cases hs
      | some y =>
        intro hs
        obtain ⟨t, p'⟩ := x
        obtain ⟨u, q'⟩ := y
        obtain ⟨h1, h2⟩ := hs
        dsimp only
        rw [h1.type]
        split
        · rfl
        · have := ih p' q' (readToken_sim h2)
          revert this
          cases readAll n p' <;> cases readAll n q' <;> simp [brief, h1.type, h1.text]

theorem code_like {e e' : Int} {p q : PP} (h : LikeRead e e' (readToken p) (readToken q)) (cs : List (TT × List Byte))
    (hc : CodeFrom p cs) : CodeFrom q cs := by
  obtain ⟨n, ts, r, h1, h2⟩ := hc
  have := readAll_like n p q h
  rw [h1] at this
  cases hq : readAll n q with
  | none => rw [hq] at this; cases this
  | some x =>
    rw [hq] at this
    simp only [brief, Option.map_some, Option.some.injEq] at this
    exact ⟨n, x.1, x.2, hq, by rw [h2, this]⟩

theorem likeTok_symm {e e' : Int} {t u : Token} (h : LikeTok e e' t u) : LikeTok e' e u t :=
  ⟨h.type.symm, h.text.symm, fun x => (h.loc (h.type ▸ x)).symm⟩

theorem sim_symm {e e' : Int} {p q : PP} (h : Sim e e' p q) : Sim e' e q p := by
  obtain ⟨m, m', a, st, he, he', h0, h0', hs⟩ := h
  refine ⟨m', m, a.symm, st.symm, he', he, h0', h0, ?_⟩
  rcases hs with ⟨h1, h2⟩ | ⟨f, g, h1, h2, h3⟩
  · exact Or.inl ⟨h2, h1⟩
  · exact Or.inr ⟨g, f, h2, h1, h3.symm⟩

theorem likeRead_symm {e e' : Int} {x y : Option (Token × PP)} (h : LikeRead e e' x y) : LikeRead e' e y x := by
  cases x <;> cases y <;> first | (cases h; done) | skip
  · trivial
  · exact ⟨likeTok_symm h.1, sim_symm h.2⟩

theorem first_like {e e' : Int} {p : PP} {t : Token} (h : FirstToken p t) : ∀ {q : PP},
    LikeRead e e' (readToken p) (readToken q) → ∃ u, FirstToken q u ∧ LikeTok e e' t u := by
  induction h with
  | here h1 h2 =>
    intro q hl
    rw [h1] at hl
    cases hq : readToken q with
    | none => rw [hq] at hl; cases hl
    | some y =>
      rw [hq] at hl
      exact ⟨y.1, .here hq (by rw [← hl.1.type]; exact h2), hl.1⟩
  | comment h1 h2 _ ih =>
    intro q hl
    rw [h1] at hl
    cases hq : readToken q with
    | none => rw [hq] at hl; cases hl
    | some y =>
      rw [hq] at hl
      obtain ⟨u, h4, h5⟩ := ih (readToken_sim hl.2)
      exact ⟨u, .comment hq (by rw [← hl.1.type]; exact h2) h4, h5⟩

theorem same_of_like {e e' : Int} {p q : PP} (h : LikeRead e e' (readToken p) (readToken q)) : SameCode e e' p q := by
  refine ⟨fun cs => ⟨code_like h cs, code_like (likeRead_symm h) cs⟩, fun t ht => first_like ht h, fun u hu => ?_⟩
  obtain ⟨t, h1, h2⟩ := first_like hu (likeRead_symm h)
  exact ⟨t, h1, likeTok_symm h2⟩

/-- A comment is passed over. -/
theorem same_of_comment {e : Int} {p q : PP} {t : Token} (h : readToken p = some (t, q)) (hc : IsComment t.type) :
    SameCode e e p q := by
  have hne : t.type ≠ .endOfFile := by rintro h; rw [h] at hc; rcases hc with h | h <;> cases h
  refine ⟨fun cs => ⟨?_, ?_⟩, ?_, ?_⟩
  · rintro ⟨n, ts, r, h1, h2⟩
    cases n with
    | zero => cases h1
    | succ n =>
      unfold readAll at h1
      rw [h] at h1
      dsimp only at h1
      rw [if_neg hne] at h1
      cases hr : readAll n q with
      | none => rw [hr] at h1; cases h1
      | some x =>
        rw [hr] at h1
        cases h1
        refine ⟨n, _, _, hr, ?_⟩
        rw [h2, List.map_cons, List.filter_cons_of_neg]
        simpa using hc
  · rintro ⟨n, ts, r, h1, h2⟩
    refine ⟨n + 1, t :: ts, r, ?_, ?_⟩
    · unfold readAll
      rw [h]
      dsimp only
      rw [if_neg hne, h1]
    · rw [h2, List.map_cons, List.filter_cons_of_neg]
      simpa using hc
  · intro u hu
    cases hu with
    | here h1 h2 => rw [h] at h1; cases h1; exact absurd hc h2
    | comment h1 h2 h3 => rw [h] at h1; cases h1; exact ⟨u, h3, rfl, rfl, fun _ => rfl⟩
  · intro u hu
    exact ⟨u, .comment h hc hu, rfl, rfl, fun _ => rfl⟩

/-! ## White space and comments -/

/-- A state in a file, with a rest to be read. -/
structure At (e : Int) (p : PP) (start : Bool) (rest : List Byte) : Prop where
  macros : p.macros = []
  angles : p.angles = false
  start : p.atStart = start
  endLoc : p.endLoc = e
  pos : 0 ≤ e
  stack : ∃ f, p.stack = [f] ∧ f.rest = rest

theorem At.sim {e e' : Int} {p q : PP} {a : Bool} {r : List Byte} (h : At e p a r) (k : At e' q a r) : Sim e e' p q := by
  obtain ⟨f, h1, h2⟩ := h.stack
  obtain ⟨g, k1, k2⟩ := k.stack
  exact ⟨h.macros, k.macros, by rw [h.angles, k.angles], by rw [h.start, k.start], h.endLoc, k.endLoc, h.pos, k.pos,
    Or.inr ⟨f, g, h1, k1, by rw [h2, k2]⟩⟩

/-- After a byte of white space a line may start. -/
def startAfter (b : Byte) (start : Bool) : Bool := if b = 10 then true else start

theorem skipWhite_ws {b : Byte} (hb : IsWS b) (a : Bool) (more : List Byte) :
    skipWhite a (b :: more) = skipWhite (startAfter b a) more := by
  conv => lhs; unfold skipWhite
  unfold startAfter
  by_cases h : b = 10
  · rw [if_pos h, if_pos h]
  · rw [if_neg h, if_neg h, if_pos]
    rcases hb with h1 | h1 | h1 | h1
    · exact Or.inr (Or.inr h1)
    · exact Or.inr (Or.inl h1)
    · exact absurd h1 h
    · exact Or.inl h1

theorem step_ws {e : Int} {p : PP} {a : Bool} {b : Byte} {more : List Byte} (h : At e p a (b :: more)) (hb : IsWS b)
    (l : Int) : ∃ q l', step p l = some (.again q l') ∧
      At e q (skipWhite (startAfter b a) more).2 (skipWhite (startAfter b a) more).1 := by
  obtain ⟨m, an, st, he, h0, f, h1, h2⟩ := h
  unfold step
  rw [h1]
  dsimp only
  rw [h2, if_neg (by simp), if_neg (by omega)]
  unfold lex
  dsimp only
  rw [if_pos (by rcases hb with h | h | h | h <;> simp [h]), skipWhite_ws hb, st]
  exact ⟨_, _, rfl, m, an, rfl, he, h0, _, rfl, rfl⟩

theorem like_of_step {e e' : Int} {p p' q : PP} {l l' : Int} (h : step p l = some (.again p' l')) (hl : l = -1)
    (hs : Sim e e' p' q) : LikeRead e e' (readToken p) (readToken q) := by
  subst hl
  unfold readToken
  have hsz := step_again_size h
  conv => lhs; unfold readLoop
  rw [h]
  dsimp only
  rw [readLoop_enough p.size (p'.size + 1) p' l' hsz (by omega), sim_size hs]
  exact readLoop_sim _ _ _ _ _ hs

theorem readToken_ws {e : Int} {p q : PP} {a : Bool} {b : Byte} {more : List Byte} (h : At e p a (b :: more))
    (hb : IsWS b) (hq : At e q (startAfter b a) more) : LikeRead e e (readToken p) (readToken q) := by
  obtain ⟨p1, l1, h1, h2⟩ := step_ws h hb (-1)
  cases more with
  | nil => exact like_of_step h1 rfl (h2.sim hq)
  | cons x v =>
    by_cases hx : IsWS x
    · obtain ⟨q1, l2, k1, k2⟩ := step_ws hq hx (-1)
      rw [skipWhite_ws hx] at h2
      have hs := h2.sim k2
      have hL := like_of_step k1 rfl (sim_symm hs)
      unfold readToken at hL ⊢
      have hsz := step_again_size h1
      conv => lhs; unfold readLoop
      rw [h1]
      dsimp only
      rw [readLoop_enough p.size (p1.size + 1) p1 l1 hsz (by omega)]
      have hne : LikeRead e e (readLoop (p1.size + 1) p1 l1) (readLoop (p1.size + 1) q1 l2) := readLoop_sim _ _ _ _ _ hs
      have hsz2 := step_again_size k1
      conv => rhs; unfold readLoop
      rw [k1]
      dsimp only
      rw [readLoop_enough q.size (p1.size + 1) q1 l2 hsz2 (by rw [sim_size hs]; omega)]
      exact hne
    · have hsk : skipWhite (startAfter b a) (x :: v) = (x :: v, startAfter b a) := by
        unfold skipWhite
        unfold IsWS at hx
        rw [if_neg (fun h => hx (Or.inr (Or.inr (Or.inl h)))), if_neg]
        rintro (h | h | h)
        · exact hx (Or.inr (Or.inr (Or.inr h)))
        · exact hx (Or.inr (Or.inl h))
        · exact hx (Or.inl h)
      rw [hsk] at h2
      exact like_of_step h1 rfl (h2.sim hq)

end Verif.Clean
