import Verif.Cpp.Props
/-!
# C72: where the tokenizer departs from C++
-/
namespace Verif.Cpp
open Verif

/-! ## Comments -/

theorem scan_stars (rest : List Byte) : ∀ k : Nat,
    Esc.scanLoop [42, 47] 0 (List.replicate (2 * k + 1) 42 ++ 47 :: rest) = some rest ∧
    Esc.scanLoop [42, 47] 0 (List.replicate (2 * k) 42 ++ 47 :: rest) = Esc.scanLoop [42, 47] 0 rest := by
  have two : ∀ (s : List Byte), Esc.scanLoop [42, 47] 0 (42 :: 42 :: s) = Esc.scanLoop [42, 47] 0 s := by
    intro s; rfl
  intro k
  induction k with
  | zero => exact ⟨rfl, rfl⟩
  | succ k ih =>
    rw [show 2 * (k + 1) + 1 = 2 * k + 1 + 1 + 1 by omega, show 2 * (k + 1) = 2 * k + 1 + 1 by omega]
    simp only [List.replicate_succ, List.cons_append] at ih ⊢
    rw [two, two]
    exact ih

/-- **C72, a disagreement.** A comment that ends in several stars and a slash, as in a line of stars, ends
there only if their number is odd: otherwise it goes on to the next end of a comment, over all the
source in between.  (In C++ it always ends there.) -/
theorem C72_comment_stars (e : Int) (start : Bool) (body rest : List Byte) (k : Nat)
    (h : ∀ x ∈ body, x ≠ 42) :
    lex false e start (47 :: 42 :: body ++ (List.replicate (2 * k + 1) 42 ++ 47 :: rest)) =
      some (.tok .cStyleComment rest [] false false) ∧
    (∀ more, (∀ x ∈ more, x ≠ 42) →
      lex false e start (47 :: 42 :: body ++ (List.replicate (2 * k) 42 ++ 47 :: more ++ [42, 47] ++ rest)) =
        some (.tok .cStyleComment rest [] false false)) := by
  have key : ∀ (body : List Byte), (∀ x ∈ body, x ≠ 42) → ∀ s,
      Esc.scanLoop [42, 47] 0 (body ++ s) = Esc.scanLoop [42, 47] 0 s := by
    intro body
    induction body with
    | nil => intro _ s; rfl
    | cons x body ih =>
      intro h s
      rw [List.cons_append, Esc.scanLoop]
      have := h x List.mem_cons_self
      rw [if_neg (by simpa using fun h => this h.symm)]
      exact ih (fun y hy => h y (List.mem_cons_of_mem _ hy)) s
  have hl : ∀ s r, Esc.scanLoop [42, 47] 0 s = some r →
      lex false e start (47 :: 42 :: s) = some (.tok .cStyleComment r [] false false) := by
    intro s r hs
    unfold lex
    dsimp only
    rw [if_neg (by decide), if_neg (by decide), if_pos rfl, if_neg (by decide), if_pos rfl, hs]
  constructor
  · rw [List.cons_append, List.cons_append]
    refine hl _ _ ?_
    rw [key body h]
    exact (scan_stars rest k).1
  · intro more hm
    rw [List.cons_append, List.cons_append]
    refine hl _ _ ?_
    rw [key body h, List.append_assoc, List.append_assoc, List.cons_append, (scan_stars _ k).2, key more hm]
    rfl

example : brief 9 [] "/***/ x /* */" = some [(.cStyleComment, 0, txt "/***/ x /* */")] ∧
    brief 9 [] "/****/ x /* y */" = some [(.cStyleComment, 0, txt "/****/"), (.identifier, 7, txt "x"), (.cStyleComment, 9, txt "/* y */")] := by
  decide +kernel

/-! ## Raw strings -/

theorem rawLoop_no_paren (delim : List Byte) (n : Nat) : ∀ s : List Byte, (∀ x ∈ s, x ≠ 41) →
    rawLoop delim n none s = none := by
  intro s
  induction s with
  | nil => intro _; rfl
  | cons x s ih =>
    intro h
    unfold rawLoop
    rw [if_neg (h x List.mem_cons_self)]
    exact ih fun y hy => h y (List.mem_cons_of_mem _ hy)

/-- A byte of the delimiter of a raw string. -/
def IsDelim (b : Byte) : Prop := b ≠ 40 ∧ b ≠ 41 ∧ b ≠ 92 ∧ Str.isWhite b = false

theorem rawDelimiter_delim (rest : List Byte) : ∀ delim : List Byte, (∀ x ∈ delim, IsDelim x) →
    rawDelimiter (delim ++ 40 :: rest) = .ok (40 :: rest) := by
  intro delim
  induction delim with
  | nil => intro _; rfl
  | cons x delim ih =>
    intro h
    obtain ⟨h1, h2, h3, h4⟩ := h x List.mem_cons_self
    rw [List.cons_append, rawDelimiter, if_neg h1, if_neg (by simp [h2, h3, h4])]
    exact ih fun y hy => h y (List.mem_cons_of_mem _ hy)

theorem readToken_raw {s : List Byte} {t : ErrT} (h : readRaw s = .error (t, [])) :
    readToken (PP.init [] (82 :: 34 :: s)) = none := by
  have hl : lex false ((82 :: 34 :: s).length : Int) true (82 :: 34 :: s) = none := by
    unfold lex
    dsimp only
    rw [if_neg (by decide), if_neg (by decide), if_neg (by decide),
      show punct false 82 (34 :: s) = none from rfl]
    dsimp only
    rw [if_neg (by decide)]
    unfold readIdentifierOrLiteral
    dsimp only
    rw [if_neg (by decide)]
    unfold identLoop
    rw [if_pos (by decide +kernel), List.length_cons]
    unfold identLoop
    rw [if_neg (by decide +kernel), if_pos rfl, if_pos (by decide), h]
  have he : ¬ (PP.init [] (82 :: 34 :: s)).endLoc < 0 := by simp only [PP.init]; omega
  have hs : step (PP.init [] (82 :: 34 :: s)) (-1) = none := by
    unfold step
    rw [show (PP.init [] (82 :: 34 :: s)).stack = [⟨0, 82 :: 34 :: s, 82 :: 34 :: s⟩] from rfl]
    dsimp only
    rw [if_neg (by simp), if_neg he]
    rw [show lex (PP.init [] (82 :: 34 :: s)).angles (PP.init [] (82 :: 34 :: s)).endLoc
      (PP.init [] (82 :: 34 :: s)).atStart (82 :: 34 :: s) = none from hl]
  unfold readToken readLoop
  rw [hs]

/-- **C72, a disagreement.** Source that ends within a raw string makes an assertion fail: an error is
reported, but then the tokenizer goes on beyond the end of the view.  Here: a raw string without any closing
parenthesis. -/
theorem C72_raw_unfinished (delim body : List Byte) (hd : ∀ x ∈ delim, IsDelim x)
    (hb : ∀ x ∈ body, x ≠ 41) :
    readToken (PP.init [] (82 :: 34 :: (delim ++ 40 :: body))) = none := by
  refine readToken_raw (t := .eofInStringLiteral) ?_
  unfold readRaw
  rw [rawDelimiter_delim body delim hd]
  dsimp only
  rw [rawLoop_no_paren _ _ body hb]

example : readToken (PP.init [] (txt "R\"x(abc")) = none ∧
    (∀ x ∈ txt "x", IsDelim x) := by
  refine ⟨by decide +kernel, by unfold IsDelim; decide +kernel⟩

/-- **C72, a disagreement.** The same happens for raw strings that are closed: with a delimiter outside of ASCII
(which C++ compilers accept), or if a closing parenthesis is directly before the one that ends the string. -/
theorem C72_raw_missed : readToken (PP.init [] (txt "R\"())\"")) = none ∧
    readToken (PP.init [] (txt "R\"" ++ [0xc3, 0xa9] ++ txt "(a)" ++ [0xc3, 0xa9] ++ txt "\"")) = none ∧
    brief 5 [] "R\"(a) b)\"" = some [(.stringLiteral, 0, txt "R\"(a) b)\"")] := by
  decide +kernel

theorem rawLoop_end (delim : List Byte) (rest tail : List Byte) (hd : ∀ x ∈ delim, IsDelim x ∧ x ≠ 34 ∧ x.toNat < 128) :
    ∀ (d : List Byte), (∃ pre, delim = pre ++ d) →
      rawLoop (delim ++ tail) tail.length (some (d ++ tail)) (d ++ 34 :: rest) = some rest := by
  intro d
  induction d with
  | nil =>
    intro _
    rw [List.nil_append, List.nil_append, rawLoop.eq_def]
    dsimp only
    rw [if_pos ⟨rfl, rfl⟩]
  | cons x d ih =>
    intro hp
    obtain ⟨pre, hpre⟩ := hp
    obtain ⟨_, h2, h3⟩ := hd x (by rw [hpre]; simp)
    rw [List.cons_append, List.cons_append, rawLoop.eq_def]
    dsimp only
    rw [if_neg (fun h => h2 h.2)]
    rw [if_neg (by simp; omega)]
    exact ih ⟨pre ++ [x], by rw [hpre]; simp⟩

/-- **C72.** A raw string whose contents have no closing parenthesis, with a delimiter of ASCII characters, is
read as one token, up to and including its closing quote. -/
theorem C72_raw_partial (e : Int) (start : Bool) (delim body rest : List Byte)
    (hd : ∀ x ∈ delim, IsDelim x ∧ x ≠ 34 ∧ x.toNat < 128) (hb : ∀ x ∈ body, x ≠ 41) :
    lex false e start (82 :: 34 :: (delim ++ 40 :: (body ++ 41 :: (delim ++ 34 :: rest)))) =
      some (.tok .stringLiteral rest [] false false) := by
  have hbody : ∀ (D : List Byte) (n : Nat) (b s : List Byte), (∀ x ∈ b, x ≠ 41) →
      rawLoop D n none (b ++ 41 :: s) = rawLoop D n (some D) s := by
    intro D n b
    induction b with
    | nil => intro s _; rw [List.nil_append, rawLoop, if_pos rfl]
    | cons x b ih =>
      intro s h
      rw [List.cons_append, rawLoop, if_neg (h x List.mem_cons_self)]
      exact ih s fun y hy => h y (List.mem_cons_of_mem _ hy)
  have hr : readRaw (delim ++ 40 :: (body ++ 41 :: (delim ++ 34 :: rest))) = .ok rest := by
    unfold readRaw
    rw [rawDelimiter_delim _ delim (fun x hx => (hd x hx).1)]
    dsimp only
    rw [hbody _ _ body _ hb]
    have := rawLoop_end delim rest (40 :: (body ++ 41 :: (delim ++ 34 :: rest))) hd delim ⟨[], rfl⟩
    rw [List.length_cons] at this
    rw [this]
  unfold lex
  dsimp only
  rw [if_neg (by decide), if_neg (by decide), if_neg (by decide)]
  have hp : ∀ s, punct false 82 s = none := fun s => rfl
  rw [hp]
  dsimp only
  rw [if_neg (by decide)]
  unfold readIdentifierOrLiteral
  dsimp only
  rw [if_neg (by decide)]
  unfold identLoop
  rw [if_pos (by decide +kernel), List.length_cons]
  unfold identLoop
  rw [if_neg (by decide +kernel), if_pos rfl, if_pos (by decide), hr]
  rfl

example : brief 5 [] "R\"x(a\"b(\n)x\" y" = some [(.stringLiteral, 0, txt "R\"x(a\"b(\n)x\""), (.identifier, 13, txt "y")] := by
  decide +kernel

/-! ## Numbers -/

/-- **C72, a disagreement.** `0-` and digits (as in `0-5`, or `x[0-1]`) are read as one number. -/
theorem C72_zero_minus (e : Int) (start : Bool) (w : Byte) (ds rest : List Byte)
    (hd : ∀ x ∈ ds, IsDigit x) (hw : IsWS w) :
    lex false e start (48 :: 45 :: ds ++ w :: rest) =
      some (.tok .numericLiteral (w :: rest) [] false false) := by
  rw [List.cons_append, List.cons_append]
  refine lex_number (by decide) ?_
  unfold readNumericLiteral
  dsimp only
  rw [if_pos rfl, if_neg (by decide)]
  obtain ⟨_, _, w1, _, w3, w4, _, _, _, _, _, _, _, _, _, w5⟩ := ws_facts w hw
  have hreal : skipReal (45 :: (ds ++ w :: rest)) = w :: rest := by
    unfold skipReal Num.parseReal
    simp only [Nat.reduceLeDiff, gt_iff_lt, Nat.zero_lt_succ, and_self, if_true]
    rw [show (Num.takeMinus (45 :: (ds ++ w :: rest))).2 = ds ++ w :: rest from rfl,
      readComp_digits w w1 rest ds 0 false hd]
    have hfrac : ∀ v, (Num.takeFrac noArith 10 v (w :: rest)).2 = w :: rest := by
      intro v
      unfold Num.takeFrac
      dsimp only
      rw [if_neg w3]
    rw [hfrac]
    unfold Num.takeExp
    dsimp only
    rw [if_neg (fun h => w5 h.2)]
  rw [hreal, skipSuffix_ws hw]

example : brief 9 [] "0-5 " = some [(.numericLiteral, 0, txt "0-5")] ∧
    brief 9 [] "1-5 " = some [(.numericLiteral, 0, txt "1"), (.singleMinus, 1, txt "-"), (.numericLiteral, 2, txt "5")] := by
  decide +kernel

/-- **C72, disagreements.** Digit separators start a character literal, a leading point is a token of its own,
binary numbers and the suffix `u` are cut off. -/
theorem C72_number_cut : brief 9 [] "1'0'" = some [(.numericLiteral, 0, txt "1"), (.stringLiteral, 1, txt "'0'")] ∧
    brief 9 [] ".5" = some [(.dot, 0, txt "."), (.numericLiteral, 1, txt "5")] ∧
    brief 9 [] "0b1" = some [(.numericLiteral, 0, txt "0"), (.identifier, 1, txt "b1")] ∧
    brief 9 [] "1u" = some [(.numericLiteral, 0, txt "1"), (.identifier, 1, txt "u")] := by
  refine ⟨?_, ?_, ?_, ?_⟩ <;> decide +kernel

/-! ## Directives -/

/-- **C72, disagreements.** A line with only `#`, or a comment before the `#`, makes the next directive an
error: it is reported and its words are read as source. -/
theorem C72_directive_lost :
    brief 9 [] "#\n#if x\n" = some [(.directive, 0, txt "#\n"), (.identifier, 3, txt "if"), (.identifier, 6, txt "x")] ∧
    brief 9 [] "/**/ #if x\n" = some [(.cStyleComment, 0, txt "/**/"), (.identifier, 6, txt "if"), (.identifier, 9, txt "x")] ∧
    ((readAll 9 (PP.init [] (txt "#\n#if x\n"))).map fun r => r.2.errors) =
      some [⟨.directiveNotAtStartOfLine, 2, -1⟩] := by decide +kernel

theorem skipDefine_line (rest : List Byte) : ∀ (line : List Byte) (b : Bool),
    (∀ x ∈ line, x ≠ 10 ∧ x ≠ 92 ∧ x ≠ 13) → (line = [] → b = false) →
    skipDefine b (line ++ 10 :: rest) = rest := by
  intro line
  induction line with
  | nil => intro b _ hb; rw [hb rfl]; rfl
  | cons x line ih =>
    intro b h _
    obtain ⟨h1, h2, h3⟩ := h x List.mem_cons_self
    rw [List.cons_append, skipDefine, if_neg h1, if_pos h3]
    exact ih _ (fun y hy => h y (List.mem_cons_of_mem _ hy)) (fun _ => by simp [h2])

theorem skipDefine_cont (rest : List Byte) : ∀ (line : List Byte) (b : Bool),
    (∀ x ∈ line, x ≠ 10 ∧ x ≠ 92 ∧ x ≠ 13) →
    ∃ b', skipDefine b (line ++ 92 :: 10 :: rest) = skipDefine b' rest := by
  intro line
  induction line with
  | nil => intro b _; exact ⟨true, rfl⟩
  | cons x line ih =>
    intro b h
    obtain ⟨h1, h2, h3⟩ := h x List.mem_cons_self
    rw [List.cons_append, skipDefine, if_neg h1, if_pos h3]
    exact ih _ fun y hy => h y (List.mem_cons_of_mem _ hy)

/-- **C72.** A `#define` at the start of a line is one token with all its lines: those that end in a
backslash and the first that does not. -/
theorem C72_define (e : Int) (first last rest : List Byte) (lines : List (List Byte))
    (hf : ∀ x ∈ first, x ≠ 10 ∧ x ≠ 92 ∧ x ≠ 13)
    (hl : ∀ l ∈ lines, ∀ x ∈ l, x ≠ 10 ∧ x ≠ 92 ∧ x ≠ 13)
    (hlast : last ≠ [] ∧ ∀ x ∈ last, x ≠ 10 ∧ x ≠ 92 ∧ x ≠ 13) :
    lex false e true (txt "#define " ++ (first ++ 92 :: 10 :: ((lines.map (· ++ [92, 10])).flatten ++
      (last ++ 10 :: rest)))) = some (.tok .directive rest [] true false) := by
  have hdef : ∀ s, skipDefine false (32 :: (first ++ 92 :: 10 :: s)) =
      skipDefine false (first ++ 92 :: 10 :: s) := fun s => rfl
  have hall : ∀ (lines : List (List Byte)) (b : Bool), (∀ l ∈ lines, ∀ x ∈ l, x ≠ 10 ∧ x ≠ 92 ∧ x ≠ 13) →
      skipDefine b ((lines.map (· ++ [92, 10])).flatten ++ (last ++ 10 :: rest)) = rest := by
    intro lines
    induction lines with
    | nil =>
      intro b _
      exact skipDefine_line rest last b hlast.2 (fun h => absurd h hlast.1)
    | cons l lines ih =>
      intro b h
      obtain ⟨b', hb'⟩ := skipDefine_cont ((lines.map (· ++ [92, 10])).flatten ++ (last ++ 10 :: rest)) l b
        (h l List.mem_cons_self)
      have : ((l :: lines).map (· ++ [92, 10])).flatten ++ (last ++ 10 :: rest) =
          l ++ 92 :: 10 :: ((lines.map (· ++ [92, 10])).flatten ++ (last ++ 10 :: rest)) := by simp
      rw [this, hb']
      exact ih b' fun m hm => h m (List.mem_cons_of_mem _ hm)
  have hdir : ∀ s, readDirective e (txt "define " ++ s) = { rest := skipDefine false (32 :: s) } := by
    intro s
    have h1 : directiveWhite (txt "define " ++ s) = some (txt "define" ++ 32 :: s) := by
      have : txt "define " ++ s = txt "define" ++ 32 :: s := by
        simp [txt, bs]
      rw [this]
      rfl
    have h2 : (Esc.parseIdentifier true false (txt "define" ++ 32 :: s)).2 = 32 :: s := by
      unfold Esc.parseIdentifier
      simp [txt, bs, Esc.identLoop, Esc.identByte, Str.isAsciiLetter, Str.isDecimalDigit]
    unfold readDirective
    rw [h1]
    dsimp only
    rw [h2]
    have h3 : (txt "define" ++ 32 :: s).take ((txt "define" ++ 32 :: s).length - (32 :: s).length) = txt "define" := by
      simp
    rw [h3, if_neg (by decide), if_neg (by decide), if_neg (by decide), if_pos (by decide)]
  obtain ⟨b', hb'⟩ := skipDefine_cont ((lines.map (· ++ [92, 10])).flatten ++ (last ++ 10 :: rest)) first false hf
  have hsrc : ∀ s, txt "#define " ++ s = 35 :: (txt "define " ++ s) := fun s => rfl
  rw [hsrc]
  unfold lex
  dsimp only
  rw [if_neg (by decide), if_pos rfl, if_pos rfl, hdir, hdef, hb', hall lines b' hl]

example : brief 9 [] "#define A \\\n b\n c" = some [(.directive, 0, txt "#define A \\\n b\n"), (.identifier, 16, txt "c")] := by
  decide +kernel

/-! ## Macros and the end -/

/-- **C72, a disagreement.** The location of a token of type `Macro` is that of the first byte of the
expansion: looked up, it leads to the expansion, where the name of the macro does not stand. -/
theorem C72_macro_misplaced : ∃ t ∈ ((readN 1 (PP.init twoMacros (txt "A"))).map (·.1)).getD [],
    t.type = .macro ∧ t.text = txt "A" ∧
    ∃ q, (readN 1 (PP.init twoMacros (txt "A"))).map (·.2) = some q ∧
      lookup q.locMap t.loc = some ⟨0, 1, 0⟩ ∧ chainText twoMacros (txt "A") q.chains 1 = some (txt "x B y") := by
  refine ⟨⟨0, .macro, txt "A"⟩, by decide +kernel, rfl, rfl, _, rfl, by decide +kernel, by decide +kernel⟩

/-- **C72, a disagreement.** The token for the end of the file has location -1, which nothing in the location
map leads to, if a token stands at the very end of the source, and else the location of the white space at
the end. -/
theorem C72_end_location : ((readN 2 (PP.init [] (txt "x"))).map (·.1)) =
      some [⟨0, .identifier, txt "x"⟩, ⟨-1, .endOfFile, []⟩] ∧
    ((readN 2 (PP.init [] (txt "x  "))).map (·.1)) = some [⟨0, .identifier, txt "x"⟩, ⟨1, .endOfFile, []⟩] ∧
    (∀ ms s n ts q, readN n (PP.init ms s) = some (ts, q) → lookup q.locMap (-1) = none) := by
  refine ⟨by decide +kernel, by decide +kernel, ?_⟩
  intro ms s n ts q h
  obtain ⟨I, _⟩ := readN_ok n _ ts q (init_inv ms s) h
  unfold lookup
  exact lookup_fold_keep (-1) _ none fun it hit => by have := I.nonneg it hit; omega

/-- **C72.** A macro that takes arguments is expanded only if a parenthesis follows (white space in between
is skipped); otherwise its name is an identifier. -/
theorem C72_macro_args (pp : PP) (f : Frame) (below : List Frame) (name : List Byte) (loc : Int)
    (m : Macro) (i : Nat) (hm : findMacro pp.macros name = some (m, i)) (ht : m.takesArgs = true) :
    ((gotIdent pp f below name loc).1.type = .macro →
      ∃ r, (f.rest.dropWhile Str.isWhite) = 40 :: r) ∧
    ((∀ r, (f.rest.dropWhile Str.isWhite) ≠ 40 :: r) →
      (gotIdent pp f below name loc).1 = ⟨loc, .identifier, name⟩ ∧
      (gotIdent pp f below name loc).2.stack = f :: below ∧
      (gotIdent pp f below name loc).2.locMap = pp.locMap) := by
  have hw : ∀ s : List Byte, Esc.scanWhite false s = s.dropWhile Str.isWhite := by
    intro s
    induction s with
    | nil => rfl
    | cons c cs ih =>
      unfold Esc.scanWhite
      cases hc : Str.isWhite c with
      | true => simp [hc, ih]
      | false => simp [hc]
  have hargs : (∀ r, (f.rest.dropWhile Str.isWhite) ≠ 40 :: r) →
      (readMacroArguments pp.endLoc f.rest).args = [] := by
    intro h
    unfold readMacroArguments
    rw [hw]
    cases hd : f.rest.dropWhile Str.isWhite with
    | nil => rfl
    | cons c cs =>
      dsimp only
      rw [if_neg (by rintro rfl; exact h cs hd)]
  have hno : (∀ r, (f.rest.dropWhile Str.isWhite) ≠ 40 :: r) →
      (gotIdent pp f below name loc).1 = ⟨loc, .identifier, name⟩ ∧
      (gotIdent pp f below name loc).2.stack = f :: below ∧
      (gotIdent pp f below name loc).2.locMap = pp.locMap := by
    intro h
    unfold gotIdent
    rw [hm]
    dsimp only
    rw [if_pos ht, if_pos (hargs h)]
    exact ⟨rfl, rfl, rfl⟩
  refine ⟨?_, hno⟩
  intro h
  apply Classical.byContradiction
  intro hc
  have := (hno (fun r hr => hc ⟨r, hr⟩)).1
  rw [this] at h
  cases h

example : (gotIdent (PP.init twoMacros []) ⟨0, txt "B (x, (y,z)) w", txt " (x, (y,z)) w"⟩ [] (txt "B") 0).1.type = .macro ∧
    ((gotIdent (PP.init twoMacros []) ⟨0, txt "B (x, (y,z)) w", txt " (x, (y,z)) w"⟩ [] (txt "B") 0).2.macroArgs.map (·.text)) =
      [txt "x", txt " (y,z)"] := by decide +kernel

end Verif.Cpp
