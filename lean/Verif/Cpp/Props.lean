import Verif.Cpp.LemmasWrite
/-!
# C72: the tokens of C++ source
-/
namespace Verif.Cpp
open Verif

/-- The bytes of a text of ASCII characters, for examples. -/
def txt (s : String) : List Byte := bs s.toList

/-- Types and texts of the tokens that are read, for examples. -/
def brief (n : Nat) (ms : List Macro) (s : String) : Option (List (TT × Int × List Byte)) :=
  (readAll n (PP.init ms (txt s))).map fun r => r.1.map fun t => (t.type, t.loc, t.text)

/-- **C72.** One call of `readToken` ends, in whatever state: as many passes as there are bytes and stack
items left, and one more, are enough, and more make no difference. -/
theorem C72_call_ends (pp : PP) (n : Nat) (h : pp.size < n) : readLoop n pp (-1) = readToken pp :=
  readLoop_enough n (pp.size + 1) pp (-1) h (Nat.lt_succ_self _)

example : (readToken (PP.init [] (txt "  \n /"))).map (·.1) = some ⟨4, .forwardSlash, [47]⟩ := by
  decide +kernel

/-- **C72.** Without macros, nothing of the source is lost or made up: the source is the texts of the tokens
in order, each at its location, with white space between them, and pieces for each of which an error was
reported at a place inside of it. -/
theorem C72_lossless (source : List Byte) (n : Nat) (ts : List Token) (q : PP)
    (h : readAll n (PP.init [] source) = some (ts, q)) : Covers q.errors 0 source ts := by
  have := (readAll_plain n _ ⟨0, source, source⟩ ts q rfl rfl h).2
  rwa [show locAt (PP.init [] source).endLoc source = 0 by simp [locAt, PP.init]] at this

/-- Without errors, gaps are white space. -/
theorem gap_blank {p : Int} {g : List Byte} (h : Gap [] p g) : Blank g := by
  induction h with
  | nil => intro b hb; cases hb
  | blank hb _ ih =>
    intro b h
    rcases List.mem_append.mp h with h | h
    · exact hb b h
    · exact ih b h
  | reported hx => cases hx

example : brief 20 [] "int x=0x1F; // hi\n@ \"a\\\"b\"" =
    some [(.identifier, 0, txt "int"), (.identifier, 4, txt "x"), (.singleEqual, 5, txt "="),
      (.numericLiteral, 6, txt "0x1F"), (.semicolon, 10, txt ";"), (.lineComment, 12, txt "// hi\n"),
      (.stringLiteral, 20, txt "\"a\\\"b\"")] := by decide +kernel

/-- **C72.** Whatever the macros and the source: of the tokens read, in order, each starts where the one
before it ends or later (for a macro: starts), has a text, and that text is found where the location map
says — also in every later state: the entry for the token's location leads to the file or to the expansion
of a macro, and at the offset it gives the text of the token stands there.  (Tokens of type `Macro` are
excepted, see `C72_macro_misplaced`.) -/
theorem C72_located (macros : List Macro) (source : List Byte) (n : Nat) (ts : List Token) (q : PP)
    (h : readN n (PP.init macros source) = some (ts, q)) :
    (∀ t ∈ ts, t.type ≠ .endOfFile → 0 ≤ t.loc ∧ t.text ≠ [] ∧
      (t.type ≠ .macro → ∃ it text, lookup q.locMap t.loc = some it ∧ it.loc ≤ t.loc ∧
        chainText macros source q.chains it.chain = some text ∧
        t.text <+: text.drop (it.offset + (t.loc - it.loc).toNat))) ∧
    (ts.filter (fun t => decide (t.type ≠ .endOfFile))).Pairwise (fun (a b : Token) =>
      (if a.type = .macro then a.loc else a.loc + (a.text.length : Int)) ≤ b.loc) := by
  obtain ⟨_, _, h3, h4⟩ := readN_ok n _ ts q (init_inv macros source) h
  exact ⟨fun t ht hne => ⟨(h3 t ht hne).2.1, (h3 t ht hne).2.2.1, (h3 t ht hne).2.2.2⟩, h4⟩

/-- Two macros, one within the other, for examples. -/
def twoMacros : List Macro := [⟨txt "A", txt "x B y", false⟩, ⟨txt "B", txt "z", true⟩]

example : brief 20 twoMacros "1 A 2 B(3) B" =
    some [(.numericLiteral, 0, txt "1"), (.macro, 2, txt "A"), (.identifier, 2, txt "x"),
      (.identifier, 4, txt "B"), (.identifier, 6, txt "y"), (.numericLiteral, 8, txt "2"),
      (.macro, 10, txt "B"), (.identifier, 10, txt "z"), (.identifier, 12, txt "B")] ∧
    ((readAll 20 (PP.init twoMacros (txt "1 A 2 B(3) B"))).map fun r => r.2.locMap) =
      some [⟨0, 0, 0⟩, ⟨2, 1, 0⟩, ⟨7, 0, 3⟩, ⟨10, 2, 0⟩, ⟨11, 0, 10⟩] := by decide +kernel

/-- **C72.** If no macro leads back to itself and no raw string starts anywhere, reading comes to an end, with
finitely many tokens, and no assertion fails — whatever else the source contains. -/
theorem C72_ends (macros : List Macro) (source : List Byte) (h : Acyclic macros) (hs : NoRaw source)
    (hm : ∀ m ∈ macros, NoRaw m.expansion) :
    ∃ n ts q, ∀ k, n ≤ k → readAll k (PP.init macros source) = some (ts, q) :=
  acyclic_ends h hs hm

instance (s : List Byte) : Decidable (NoRaw s) := by unfold NoRaw; infer_instance

example : Acyclic twoMacros ∧ (∀ m ∈ twoMacros, NoRaw m.expansion) ∧ NoRaw (txt "A /* ' @ \\") := by
  exact ⟨⟨fun m => m.expansion.length, by decide +kernel⟩, by decide +kernel, by decide +kernel⟩

/-- A macro that expands to itself. -/
def loopMacro : List Macro := [⟨[65], [65], false⟩]

/-- The state after the macro has been entered: the stack grows. -/
theorem loop_step (pp : PP) (g : Frame) (below : List Frame) (hm : pp.macros = loopMacro)
    (hs : pp.stack = g :: below) (hg : g.rest = [65]) (he : 0 ≤ pp.endLoc) :
    ∃ t q, readToken pp = some (t, q) ∧ t.type = .macro ∧ q.macros = loopMacro ∧
      (∃ g' b', q.stack = g' :: b' ∧ g'.rest = [65]) ∧ q.endLoc = pp.endLoc := by
  have hl : ∀ a e s, lex a e s [65] = some (.ident [] []) := fun a e s => rfl
  have hst : step pp (-1) = some (.got
      (gotIdent { pp with errors := pp.errors ++ [], atStart := false } { g with rest := [] } below [65]
        (locAt pp.endLoc [65])).1
      (gotIdent { pp with errors := pp.errors ++ [], atStart := false } { g with rest := [] } below [65]
        (locAt pp.endLoc [65])).2) := by
    unfold step
    rw [hs]
    dsimp only
    rw [hg, if_neg (by simp), if_neg (by omega), hl]
    rfl
  refine ⟨(gotIdent { pp with errors := pp.errors ++ [], atStart := false } { g with rest := [] } below [65]
        (locAt pp.endLoc [65])).1, (gotIdent { pp with errors := pp.errors ++ [], atStart := false }
        { g with rest := [] } below [65] (locAt pp.endLoc [65])).2, ?_, ?_⟩
  · unfold readToken readLoop
    rw [hst]
  · unfold gotIdent
    dsimp only
    rw [hm]
    simp [loopMacro, findMacro, enterMacro, locAt]

/-- **C72, a disagreement.** A macro that expands to itself is expanded again and again (C++ would stop at
the first): however many tokens are read, the end is never reached. -/
theorem C72_self_macro_never_ends (n : Nat) : readAll n (PP.init loopMacro [65]) = none := by
  have key : ∀ (n : Nat) (pp : PP) (g : Frame) (below : List Frame), pp.macros = loopMacro →
      pp.stack = g :: below → g.rest = [65] → 0 ≤ pp.endLoc → readAll n pp = none := by
    intro n
    induction n with
    | zero => intro pp g below _ _ _ _; unfold readAll; rfl
    | succ n ih =>
      intro pp g below hm hs hg he
      obtain ⟨t, q, h1, h2, h3, ⟨g', b', h4, h5⟩, h6⟩ := loop_step pp g below hm hs hg he
      unfold readAll
      rw [h1]
      dsimp only
      rw [if_neg (by rw [h2]; decide), ih q g' b' h3 h4 h5 (by rw [h6]; exact he)]
  have h0 : (0 : Int) ≤ (PP.init loopMacro [65]).endLoc := by simp [PP.init]
  exact key n (PP.init loopMacro [65]) ⟨0, [65], [65]⟩ [] rfl rfl rfl h0

/-- **C72.** Tokens that are written with white space behind each of them are read back: the same types,
texts and places, in the same order, and no errors — for every punctuation, identifier, string or character
literal, decimal or hexadecimal integer and comment, and with any macros of other names. -/
theorem C72_roundtrip (macros : List Macro) (l : List (TT × List Byte × List Byte)) (lead : List Byte)
    (h : ∀ x ∈ l, Written x.1 x.2.1 ∧ Blank x.2.2 ∧ x.2.2 ≠ [] ∧
      (x.1 = .identifier → ∀ m ∈ macros, m.name ≠ x.2.1))
    (hlead : Blank lead) :
    ∃ q, readAll (l.length + 1) (PP.init macros (lead ++ sourceOf l)) =
        some (tokensOf lead.length l, q) ∧ q.errors = [] := by
  obtain ⟨q, h1, h2⟩ := readAll_written macros l (PP.init macros (lead ++ sourceOf l))
    ⟨0, lead ++ sourceOf l, lead ++ sourceOf l⟩ lead h rfl rfl (by simp only [PP.init]; omega) rfl rfl rfl hlead
  refine ⟨q, ?_, h2⟩
  rw [h1]
  have : locAt (PP.init macros (lead ++ sourceOf l)).endLoc (sourceOf l) = lead.length := by
    simp only [locAt, PP.init, List.length_append]; omega
  rw [this]

example : Written .identifier (txt "std") ∧ Written .doubleColon (txt "::") ∧
    Written .stringLiteral (txt "'\\''") ∧ Written .numericLiteral (txt "0xff") ∧
    Written .cStyleComment (txt "/* a/b */") := by
  refine ⟨.identifier (by decide) (by decide) (by decide), .punctuation rfl (by decide) (by decide), ?_,
    .hex (by decide), ?_⟩
  · exact Written.string (q := 39) (body := [92, 39]) (Or.inl rfl) (.escaped .nil)
  · exact Written.comment (body := txt " a/b ") (by decide)

/-- **C72.** The longest possible piece of punctuation is read: what is read is the string of the type of the
token, and no punctuation (nor the start of a comment) that the source starts with is longer. -/
theorem C72_longest (e : Int) (start : Bool) (s : List Byte) (t : TT) (r : List Byte) (x : List Err)
    (st i : Bool) (w : List Byte) (h : lex false e start s = some (.tok t r x st i))
    (ht : punctuationString t = some w) (h1 : t ≠ .lineComment) (h2 : t ≠ .cStyleComment) :
    s = w ++ r ∧ ∀ t' w', punctuationString t' = some w' → w' <+: s → w'.length ≤ w.length := by
  have hp : ∀ c cs n, punct false c cs = some (t, n) → ∀ t' w', punctuationString t' = some w' →
      w' <+: c :: cs → w'.length ≤ n := by
    intro c cs n hn t' w' hw hpre
    have hn1 := (punct_len hn).2.1
    obtain ⟨r, hr⟩ := hpre
    cases t' <;> first
      | (cases hw; done)
      | (cases hw; exact hn1)
      | (cases hw
         cases hr
         first
           | (cases hn; decide)
           | (cases hn))
  cases s with
  | nil => cases h
  | cons c cs =>
  unfold lex at h
  dsimp only at h
  by_cases g1 : c = 10 ∨ c = 13 ∨ c = 9 ∨ c = 32
  · rw [if_pos g1] at h; cases h
  rw [if_neg g1] at h
  by_cases g2 : c = 35
  · rw [if_pos g2] at h
    split at h
    · cases h; cases ht
    · cases h
  rw [if_neg g2] at h
  by_cases g3 : c = 47
  · rw [if_pos g3] at h
    subst g3
    have hslash : ∀ cs : List Byte, (∀ d ds, cs = d :: ds → d ≠ 47 ∧ d ≠ 42 ∧ d ≠ 61) →
        ∀ t' w', punctuationString t' = some w' → w' <+: 47 :: cs → w'.length ≤ 1 := by
      intro cs hcs t' w' hw hpre
      obtain ⟨r, hr⟩ := hpre
      cases t' <;> first
        | (cases hw; done)
        | (cases hw; decide)
        | (cases hw; cases hr; done)
        | (cases hw
           cases hr
           first
             | exact absurd rfl (hcs _ _ rfl).1
             | exact absurd rfl (hcs _ _ rfl).2.1
             | exact absurd rfl (hcs _ _ rfl).2.2)
    cases cs with
    | nil =>
      cases h
      cases ht
      exact ⟨rfl, hslash [] (fun d ds h => by cases h)⟩
    | cons d ds =>
      dsimp only at h
      by_cases g4 : d = 47
      · rw [if_pos g4] at h; cases h; exact absurd rfl h1
      rw [if_neg g4] at h
      by_cases g5 : d = 42
      · rw [if_pos g5] at h
        split at h
        · cases h; exact absurd rfl h2
        · cases h
      rw [if_neg g5] at h
      by_cases g6 : d = 61
      · rw [if_pos g6] at h
        cases h
        cases ht
        subst g6
        refine ⟨rfl, ?_⟩
        intro t' w' hw hpre
        obtain ⟨r, hr⟩ := hpre
        cases t' <;> first
          | (cases hw; done)
          | (cases hw; decide)
          | (cases hw; cases hr)
      rw [if_neg g6] at h
      cases h
      cases ht
      exact ⟨rfl, hslash _ (fun d' ds' h => by cases h; exact ⟨g4, g5, g6⟩)⟩
  rw [if_neg g3] at h
  cases hpc : punct false c cs with
  | some q =>
    obtain ⟨t', n⟩ := q
    rw [hpc] at h
    cases h
    obtain ⟨l1, l2, l3, _⟩ := punct_len hpc
    rw [ht] at l1
    cases l1
    refine ⟨(List.take_append_drop n _).symm, ?_⟩
    intro t'' w'' hw hpre
    have := hp c cs n hpc t'' w'' hw hpre
    rw [List.length_take]
    omega
  | none =>
    rw [hpc] at h
    dsimp only at h
    split at h
    · split at h
      · cases h
      · cases h; cases ht
    · cases hi : readIdentifierOrLiteral e (c :: cs) with
      | none => rw [hi] at h; cases h
      | some q =>
        obtain ⟨ty, r', er⟩ := q
        rw [hi] at h
        dsimp only at h
        split at h
        · cases h
        · split at h
          · cases h
          · cases h
            exfalso
            unfold readIdentifierOrLiteral at hi
            dsimp only at hi
            split at hi
            · cases hi; cases ht
            · obtain ⟨_, _, _, i4⟩ := identLoop_spec _ _ _ _ _ _ _ _ _ _ hi (Int.le_refl _)
                (fun x hx => by cases hx)
              rcases i4 with rfl | rfl | ⟨rfl, _⟩ <;> cases ht

example : brief 20 [] "a->b>>=c...d" = some [(.identifier, 0, txt "a"), (.arrow, 1, txt "->"),
    (.identifier, 3, txt "b"), (.rightShift, 4, txt ">>"), (.singleEqual, 6, txt "="), (.identifier, 7, txt "c"),
    (.ellipsis, 8, txt "..."), (.identifier, 11, txt "d")] := by decide +kernel

/-- **C72.** While `tokenizeCloseAnglesOnly` is set, a closing angle bracket is always read alone, so that
the end of nested template arguments is seen. -/
theorem C72_angles (e : Int) (start : Bool) (s : List Byte) :
    lex true e start (62 :: s) = some (.tok .closeAngle s [] false false) := rfl

example : lex true 3 true (txt ">>") = some (.tok .closeAngle (txt ">") [] false false) ∧
    lex false 3 true (txt ">>") = some (.tok .rightShift [] [] false false) := by decide +kernel

/-- **C72.** A string or character literal ends at the first quote of its kind that is not behind a
backslash: between the quotes there are only other bytes, and backslashes with the byte that follows. -/
theorem C72_string (e : Int) (start : Bool) (q : Byte) (s r : List Byte) (st i : Bool) (x : List Err)
    (hq : q = 39 ∨ q = 34) (h : lex false e start (q :: s) = some (.tok .stringLiteral r x st i)) :
    ∃ body, s = body ++ q :: r ∧ Units q body := by
  have hp : punct false q s = none := by rcases hq with rfl | rfl <;> rfl
  unfold lex at h
  dsimp only at h
  rw [if_neg (by rcases hq with rfl | rfl <;> decide), if_neg (by rcases hq with rfl | rfl <;> decide),
    if_neg (by rcases hq with rfl | rfl <;> decide), hp] at h
  dsimp only at h
  rw [if_pos hq] at h
  cases hr : readString q s with
  | none => rw [hr] at h; cases h
  | some r' =>
    rw [hr] at h
    cases h
    exact readString_exact (by rcases hq with rfl | rfl <;> decide) _ _ _ (Nat.le_refl _) hr

example : lex false 9 true (txt "\"a\\\\\" x\"") = some (.tok .stringLiteral (txt " x\"") [] false false) := by
  decide +kernel

end Verif.Cpp
