import Verif.Cpp.LemmasEnd
/-!
# The tokenizer for C++ — tokens that are written and read again
-/
namespace Verif.Cpp
open Verif

theorem isWS_cases {b : Byte} (h : IsWS b) : b = 32 ∨ b = 9 ∨ b = 10 ∨ b = 13 := h

theorem identByte_iff : ∀ b : Byte, Esc.identByte true false false b = true ↔ IsWord b := by
  unfold IsWord
  apply forall_byte; decide +kernel

theorem ws_facts : ∀ b : Byte, IsWS b → Esc.identByte true false false b = false ∧ b ≠ 34 ∧
    Num.digitOf b ≥ 10 ∧ Num.digitOf b ≥ 16 ∧ b ≠ 46 ∧ b ≠ 45 ∧ b ≠ 101 ∧ b ≠ 69 ∧ b ≠ 102 ∧ b ≠ 85 ∧
    b ≠ 76 ∧ b ≠ 120 ∧ b ≠ 47 ∧ b ≠ 42 ∧ b ≠ 61 ∧ b.toNat ||| 32 ≠ 101 := by
  intro b h
  rcases h with rfl | rfl | rfl | rfl <;> decide +kernel

/-! ## Identifiers -/

theorem identLoop_word (e loc : Int) (b w : Byte) (hw : IsWS w) (rest : List Byte) :
    ∀ (text : List Byte) (fuel n : Nat), (∀ x ∈ text, IsWord x) → (text ++ w :: rest).length < fuel →
    1 ≤ n + text.length →
    identLoop e loc b fuel n [] (text ++ w :: rest) = some (.identifier, w :: rest, []) := by
  intro text
  induction text with
  | nil =>
    intro fuel n _ hf hn
    simp only [List.length_nil, Nat.add_zero] at hn
    obtain ⟨h1, h2, _⟩ := ws_facts w hw
    cases fuel with
    | zero => omega
    | succ fuel =>
      rw [List.nil_append]
      unfold identLoop
      rw [if_neg (by rw [h1]; simp), if_neg h2, if_neg (by omega)]
  | cons x text ih =>
    intro fuel n hx hf hn
    cases fuel with
    | zero => omega
    | succ fuel =>
      rw [List.cons_append]
      unfold identLoop
      rw [if_pos ((identByte_iff x).mpr (hx x List.mem_cons_self))]
      simp only [List.cons_append, List.length_cons] at hf
      exact ih fuel (n + 1) (fun y hy => hx y (List.mem_cons_of_mem _ hy)) (by omega) (by omega)

/-- The bytes that punctuation starts with. -/
def punctStarts : List Byte :=
  [123, 125, 59, 40, 41, 60, 62, 91, 93, 58, 44, 63, 61, 42, 37, 38, 124, 43, 45, 46, 126, 94, 33]

theorem punct_none {b : Byte} (h : b ∉ punctStarts) (angles : Bool) (s : List Byte) :
    punct angles b s = none := by
  simp only [punctStarts, List.mem_cons, List.not_mem_nil, or_false, not_or] at h
  obtain ⟨a1, a2, a3, a4, a5, a6, a7, a8, a9, a10, a11, a12, a13, a14, a15, a16, a17, a18, a19, a20,
    a21, a22, a23⟩ := h
  unfold punct
  rw [if_neg a1, if_neg a2, if_neg a3, if_neg a4, if_neg a5, if_neg a6, if_neg a7, if_neg a8, if_neg a9,
    if_neg a10, if_neg a11, if_neg a12, if_neg a13, if_neg a14, if_neg a15, if_neg a16, if_neg a17,
    if_neg a18, if_neg a19, if_neg a20, if_neg a21, if_neg a22, if_neg a23]

theorem word_start : ∀ b : Byte, IsWord b → ¬ IsDigit b → ∀ angles s,
    ¬ (b = 10 ∨ b = 13 ∨ b = 9 ∨ b = 32) ∧ b ≠ 35 ∧ b ≠ 47 ∧ punct angles b s = none ∧
      ¬ (b = 39 ∨ b = 34) ∧ ¬ (48 ≤ b ∧ b ≤ 57) := by
  intro b h1 h2 angles s
  have hne : ∀ b : Byte, IsWord b → b ∉ punctStarts ∧ b ≠ 35 ∧ b ≠ 47 ∧
      ¬ (b = 10 ∨ b = 13 ∨ b = 9 ∨ b = 32) ∧ ¬ (b = 39 ∨ b = 34) := by
    apply forall_byte; decide +kernel
  obtain ⟨a1, a24, a25, a26, a27⟩ := hne b h1
  exact ⟨a26, a24, a25, punct_none a1 _ _, a27, h2⟩

theorem lex_word {angles : Bool} {e : Int} {start : Bool} {b w : Byte} {text rest : List Byte}
    (hb : IsWord b) (hd : ¬ IsDigit b) (ht : ∀ x ∈ text, IsWord x) (hw : IsWS w) :
    lex angles e start (b :: text ++ w :: rest) = some (.ident (w :: rest) []) := by
  obtain ⟨h1, h2, h3, h4, h5, h6⟩ := word_start b hb hd angles (text ++ w :: rest)
  rw [List.cons_append]
  unfold lex
  dsimp only
  rw [if_neg h1, if_neg h2, if_neg h3, h4]
  dsimp only
  rw [if_neg h5]
  unfold readIdentifierOrLiteral
  dsimp only
  rw [if_neg h6]
  have := identLoop_word e (locAt e (b :: (text ++ w :: rest))) b w hw rest (b :: text)
    ((b :: (text ++ w :: rest)).length + 1) 0
    (fun x hx => by
      rcases List.mem_cons.mp hx with rfl | hx
      · exact hb
      · exact ht x hx) (by simp) (by simp)
  rw [List.cons_append] at this
  rw [this]
  rfl

/-! ## Numbers -/

theorem digit_facts : ∀ b : Byte, IsDigit b → Num.digitOf b < 10 ∧ b ≠ 45 ∧ b ≠ 120 := by
  unfold IsDigit
  apply forall_byte; decide +kernel

theorem readComp_digits (w : Byte) (hw : Num.digitOf w ≥ 10) (rest : List Byte) :
    ∀ (ds : List Byte) (v : Rat) (any : Bool), (∀ x ∈ ds, IsDigit x) →
    (Num.readComp noArith 10 v any (ds ++ w :: rest)).2.2 = w :: rest := by
  intro ds
  induction ds with
  | nil =>
    intro v any _
    rw [List.nil_append]
    unfold Num.readComp
    dsimp only
    rw [if_pos hw]
  | cons x ds ih =>
    intro v any hx
    have := (digit_facts x (hx x List.mem_cons_self)).1
    rw [List.cons_append]
    unfold Num.readComp
    dsimp only
    rw [if_neg (by omega)]
    exact ih _ _ fun y hy => hx y (List.mem_cons_of_mem _ hy)

theorem skipReal_digits {w : Byte} (hw : IsWS w) (rest ds : List Byte) (hd : ∀ x ∈ ds, IsDigit x) :
    skipReal (ds ++ w :: rest) = w :: rest := by
  obtain ⟨_, _, w1, _, w3, w4, _, _, _, _, _, _, _, _, _, w5⟩ := ws_facts w hw
  have hminus : (Num.takeMinus (ds ++ w :: rest)).2 = ds ++ w :: rest := by
    unfold Num.takeMinus
    cases ds with
    | nil => simp only [List.nil_append]; rw [if_neg w4]
    | cons x ds =>
      simp only [List.cons_append]
      rw [if_neg (digit_facts x (hd x List.mem_cons_self)).2.1]
  unfold skipReal Num.parseReal
  simp only [Nat.reduceLeDiff, gt_iff_lt, Nat.zero_lt_succ, and_self, if_true]
  rw [hminus, readComp_digits w w1 rest ds 0 false hd]
  have hfrac : ∀ v, (Num.takeFrac noArith 10 v (w :: rest)).2 = w :: rest := by
    intro v
    unfold Num.takeFrac
    dsimp only
    rw [if_neg w3]
  rw [hfrac]
  unfold Num.takeExp
  dsimp only
  rw [if_neg (fun h => w5 h.2)]

theorem skipSuffix_ws {w : Byte} (hw : IsWS w) (rest : List Byte) : skipSuffix (w :: rest) = w :: rest := by
  obtain ⟨_, _, _, _, _, _, _, _, w1, w2, w3, _⟩ := ws_facts w hw
  unfold skipSuffix
  dsimp only
  rw [if_neg w1]
  have : skipByte 85 (w :: rest) = w :: rest := by unfold skipByte; dsimp only; rw [if_neg w2]
  rw [this]
  dsimp only
  rw [if_neg w3]

theorem numeric_digits {w : Byte} (hw : IsWS w) (rest : List Byte) {b : Byte} {ds : List Byte}
    (hb : IsDigit b) (hd : ∀ x ∈ ds, IsDigit x) :
    readNumericLiteral (b :: ds ++ w :: rest) = w :: rest := by
  rw [List.cons_append]
  unfold readNumericLiteral
  dsimp only
  by_cases h0 : b = 48
  · rw [if_pos h0]
    cases ds with
    | nil =>
      simp only [List.nil_append]
      rw [if_neg (ws_facts w hw).2.2.2.2.2.2.2.2.2.2.2.1]
      rw [show skipReal (w :: rest) = w :: rest from skipReal_digits hw rest [] (fun x h => by cases h),
        skipSuffix_ws hw]
    | cons x ds =>
      simp only [List.cons_append]
      rw [if_neg (digit_facts x (hd x List.mem_cons_self)).2.2]
      have := skipReal_digits hw rest (x :: ds) hd
      rw [List.cons_append] at this
      rw [this, skipSuffix_ws hw]
  · rw [if_neg h0]
    have := skipReal_digits hw rest (b :: ds) (fun x hx => by
      rcases List.mem_cons.mp hx with rfl | hx
      · exact hb
      · exact hd x hx)
    rw [List.cons_append] at this
    rw [this, skipSuffix_ws hw]

theorem parseLoop_hex {w : Byte} (hw : IsWS w) (rest : List Byte) :
    ∀ (ds : List Byte) (v : Nat) (any over : Bool), (∀ x ∈ ds, IsHexDigit x) →
    (Num.parseLoop 16 v any over (ds ++ w :: rest)).rest = w :: rest := by
  have hx : ∀ b : Byte, IsHexDigit b → Num.digitOf b < 16 := by
    unfold IsHexDigit IsDigit
    apply forall_byte; decide +kernel
  intro ds
  induction ds with
  | nil =>
    intro v any over _
    have := (ws_facts w hw).2.2.2.1
    rw [List.nil_append]
    unfold Num.parseLoop
    dsimp only
    rw [if_pos this]
    split <;> rfl
  | cons x ds ih =>
    intro v any over hd
    have := hx x (hd x List.mem_cons_self)
    rw [List.cons_append]
    unfold Num.parseLoop
    dsimp only
    rw [if_neg (by omega)]
    exact ih _ _ _ fun y hy => hd y (List.mem_cons_of_mem _ hy)

theorem numeric_hex {w : Byte} (hw : IsWS w) (rest : List Byte) {ds : List Byte}
    (hd : ∀ x ∈ ds, IsHexDigit x) :
    readNumericLiteral (48 :: 120 :: ds ++ w :: rest) = w :: rest := by
  simp only [List.cons_append]
  unfold readNumericLiteral
  dsimp only
  rw [if_pos rfl, if_pos rfl]
  unfold skipHex
  rw [parseLoop_hex hw rest ds 0 false false hd, skipSuffix_ws hw]

theorem digit_start : ∀ b : Byte, IsDigit b → ∀ angles s,
    ¬ (b = 10 ∨ b = 13 ∨ b = 9 ∨ b = 32) ∧ b ≠ 35 ∧ b ≠ 47 ∧ punct angles b s = none ∧
      ¬ (b = 39 ∨ b = 34) ∧ (48 ≤ b ∧ b ≤ 57) := by
  intro b h2 angles s
  have hne : ∀ b : Byte, IsDigit b → b ∉ punctStarts ∧ b ≠ 35 ∧ b ≠ 47 ∧
      ¬ (b = 10 ∨ b = 13 ∨ b = 9 ∨ b = 32) ∧ ¬ (b = 39 ∨ b = 34) := by
    apply forall_byte; decide +kernel
  obtain ⟨a1, a24, a25, a26, a27⟩ := hne b h2
  exact ⟨a26, a24, a25, punct_none a1 _ _, a27, h2⟩

theorem lex_number {angles : Bool} {e : Int} {start : Bool} {b : Byte} {s r : List Byte}
    (hb : IsDigit b) (hr : readNumericLiteral (b :: s) = r) :
    lex angles e start (b :: s) = some (.tok .numericLiteral r [] false false) := by
  obtain ⟨h1, h2, h3, h4, h5, h6⟩ := digit_start b hb angles s
  unfold lex
  dsimp only
  rw [if_neg h1, if_neg h2, if_neg h3, h4]
  dsimp only
  rw [if_neg h5]
  unfold readIdentifierOrLiteral
  dsimp only
  rw [if_pos h6, hr]
  rfl

/-! ## Strings -/

theorem readString_units {q : Byte} {body : List Byte} (hq : q ≠ 92) (h : Units q body)
    (rest : List Byte) : readString q (body ++ q :: rest) = some rest := by
  induction h with
  | nil =>
    rw [List.nil_append, readString.eq_def]
    dsimp only
    rw [if_neg hq, if_pos rfl]
  | plain h1 h2 _ ih =>
    rw [List.cons_append, readString.eq_def]
    dsimp only
    rw [if_neg h1, if_neg h2, ih]
  | escaped _ ih =>
    simp only [List.cons_append]
    rw [readString.eq_def]
    dsimp only
    rw [if_pos rfl, ih]

theorem readString_exact {q : Byte} (hq : q ≠ 92) : ∀ (n : Nat) (s r : List Byte), s.length ≤ n →
    readString q s = some r → ∃ body, s = body ++ q :: r ∧ Units q body := by
  intro n
  induction n with
  | zero =>
    intro s r hn h
    have : s = [] := List.length_eq_zero_iff.mp (by omega)
    subst this
    simp [readString] at h
  | succ n ih =>
    intro s r hn h
    cases s with
    | nil => simp [readString] at h
    | cons c cs =>
      rw [readString.eq_def] at h
      dsimp only at h
      simp only [List.length_cons] at hn
      by_cases h1 : c = 92
      · rw [if_pos h1] at h
        cases cs with
        | nil => cases h
        | cons d ds =>
          dsimp only at h
          simp only [List.length_cons] at hn
          obtain ⟨body, e, u⟩ := ih ds r (by omega) h
          exact ⟨c :: d :: body, by rw [e]; rfl, by rw [h1]; exact Units.escaped u⟩
      · rw [if_neg h1] at h
        by_cases h2 : c = q
        · rw [if_pos h2] at h
          cases h
          exact ⟨[], by rw [h2]; rfl, Units.nil⟩
        · rw [if_neg h2] at h
          obtain ⟨body, e, u⟩ := ih cs r (by omega) h
          exact ⟨c :: body, by rw [e]; rfl, Units.plain h1 h2 u⟩

theorem lex_string {angles : Bool} {e : Int} {start : Bool} {q : Byte} {body rest : List Byte}
    (hq : q = 39 ∨ q = 34) (h : Units q body) :
    lex angles e start (q :: body ++ [q] ++ rest) = some (.tok .stringLiteral rest [] false false) := by
  have hr := readString_units (by rcases hq with rfl | rfl <;> decide) h rest
  have hs : q :: body ++ [q] ++ rest = q :: (body ++ q :: rest) := by simp
  rw [hs]
  unfold lex
  dsimp only
  rw [if_neg (by rcases hq with rfl | rfl <;> decide), if_neg (by rcases hq with rfl | rfl <;> decide),
    if_neg (by rcases hq with rfl | rfl <;> decide)]
  have hp : punct angles q (body ++ q :: rest) = none := by
    rcases hq with rfl | rfl <;> rfl
  rw [hp]
  dsimp only
  rw [if_pos hq, hr]

/-! ## Comments -/

theorem skipLine_body (rest : List Byte) : ∀ body : List Byte, (∀ x ∈ body, x ≠ 10) →
    skipLine (body ++ 10 :: rest) = rest := by
  have key : ∀ body : List Byte, (∀ x ∈ body, x ≠ 10) →
      Esc.scanLoop [10] 0 (body ++ 10 :: rest) = some rest := by
    intro body
    induction body with
    | nil => intro _; rfl
    | cons x body ih =>
      intro h
      rw [List.cons_append]
      unfold Esc.scanLoop
      have := h x List.mem_cons_self
      rw [if_neg (by simpa using fun h => this h.symm)]
      exact ih fun y hy => h y (List.mem_cons_of_mem _ hy)
  intro body h
  unfold skipLine
  rw [key body h]
  rfl

theorem scan_comment (rest : List Byte) : ∀ body : List Byte, (∀ x ∈ body, x ≠ 42) →
    Esc.scanLoop [42, 47] 0 (body ++ 42 :: 47 :: rest) = some rest := by
  intro body
  induction body with
  | nil => intro _; rfl
  | cons x body ih =>
    intro h
    rw [List.cons_append]
    unfold Esc.scanLoop
    have := h x List.mem_cons_self
    rw [if_neg (by simpa using fun h => this h.symm)]
    exact ih fun y hy => h y (List.mem_cons_of_mem _ hy)

/-! ## One token -/

/-- Whether a token of the type is read as such: while `tokenizeCloseAnglesOnly` is set, `>>` and `>=` are not. -/
def Reads (a : Bool) (t : TT) : Prop := a = false ∨ (t ≠ .rightShift ∧ t ≠ .greaterThanOrEqual)

theorem lex_punct {a : Bool} {e : Int} {start : Bool} {t : TT} {w rest : List Byte} {x : Byte} (ha : Reads a t)
    (h : punctuationString t = some w) (h1 : t ≠ .lineComment) (h2 : t ≠ .cStyleComment) (hx : IsWS x) :
    lex a e start (w ++ x :: rest) = some (.tok t (x :: rest) [] false false) := by
  rcases hx with rfl | rfl | rfl | rfl <;> cases a <;> cases t <;>
    first
      | exact absurd rfl h1
      | exact absurd rfl h2
      | (cases h; done)
      | (rcases ha with ha | ha; exact absurd ha (by decide); exact absurd rfl ha.1)
      | (rcases ha with ha | ha; exact absurd ha (by decide); exact absurd rfl ha.2)
      | (cases h; rfl)

/-- A written token with white space behind it is read. -/
theorem lex_written {a : Bool} {e : Int} {start : Bool} {t : TT} {w rest : List Byte} {x : Byte} (ha : Reads a t)
    (h : Written t w) (hx : IsWS x) :
    (t = .identifier ∧ lex a e start (w ++ x :: rest) = some (.ident (x :: rest) [])) ∨
    (t ≠ .identifier ∧ t ≠ .endOfFile ∧
      ∃ st, lex a e start (w ++ x :: rest) = some (.tok t (x :: rest) [] st false)) := by
  cases h with
  | punctuation h h1 h2 =>
    refine Or.inr ⟨?_, ?_, false, lex_punct ha h h1 h2 hx⟩
    · rintro rfl; cases h
    · rintro rfl; cases h
  | identifier h1 h2 h3 => exact Or.inl ⟨rfl, lex_word h1 h2 h3 hx⟩
  | string h1 h2 => exact Or.inr ⟨by decide, by decide, false, lex_string h1 h2⟩
  | number h1 h2 =>
    exact Or.inr ⟨by decide, by decide, false, lex_number h1 (numeric_digits hx rest h1 h2)⟩
  | hex h1 =>
    exact Or.inr ⟨by decide, by decide, false, lex_number (by decide) (numeric_hex hx rest h1)⟩
  | @lineComment body h1 =>
    refine Or.inr ⟨by decide, by decide, true, ?_⟩
    have := skipLine_body (x :: rest) body h1
    rw [show 47 :: 47 :: body ++ [10] ++ x :: rest = 47 :: 47 :: (body ++ 10 :: x :: rest) by simp]
    unfold lex
    dsimp only
    rw [if_neg (by decide), if_neg (by decide), if_pos rfl, if_pos rfl, this]
  | @comment body h1 =>
    refine Or.inr ⟨by decide, by decide, false, ?_⟩
    have := scan_comment (x :: rest) body h1
    rw [show 47 :: 42 :: body ++ [42, 47] ++ x :: rest = 47 :: 42 :: (body ++ 42 :: 47 :: x :: rest) by simp]
    unfold lex
    dsimp only
    rw [if_neg (by decide), if_neg (by decide), if_pos rfl, if_neg (by decide), if_pos rfl, this]

/-- No written token starts with white space. -/
theorem written_start {t : TT} {w : List Byte} (h : Written t w) : ∃ b v, w = b :: v ∧ ¬ IsWS b := by
  have hw : ∀ b : Byte, IsWord b → ¬ IsWS b := by apply forall_byte; decide +kernel
  have hd : ∀ b : Byte, IsDigit b → ¬ IsWS b := by apply forall_byte; decide +kernel
  cases h with
  | punctuation h h1 h2 => cases t <;> first | (cases h; done) | (cases h; exact ⟨_, _, rfl, by decide⟩)
  | identifier h1 h2 h3 => exact ⟨_, _, rfl, hw _ h1⟩
  | string h1 h2 => exact ⟨_, _, rfl, by rcases h1 with rfl | rfl <;> decide⟩
  | number h1 h2 => exact ⟨_, _, rfl, hd _ h1⟩
  | hex h1 => exact ⟨_, _, rfl, by decide⟩
  | lineComment h1 => exact ⟨_, _, rfl, by decide⟩
  | comment h1 => exact ⟨_, _, rfl, by decide⟩

theorem skipWhite_exact : ∀ (gap : List Byte) (b : Bool) (more : List Byte), Blank gap →
    (∀ x v, more = x :: v → ¬ IsWS x) → (skipWhite b (gap ++ more)).1 = more := by
  intro gap
  induction gap with
  | nil =>
    intro b more _ hm
    cases more with
    | nil => rfl
    | cons x v =>
      have := hm x v rfl
      unfold IsWS at this
      rw [List.nil_append]
      unfold skipWhite
      rw [if_neg (fun h => this (Or.inr (Or.inr (Or.inl h)))), if_neg]
      rintro (h | h | h)
      · exact this (Or.inr (Or.inr (Or.inr h)))
      · exact this (Or.inr (Or.inl h))
      · exact this (Or.inl h)
  | cons x gap ih =>
    intro b more hb hm
    have hb' : Blank gap := fun y hy => hb y (List.mem_cons_of_mem _ hy)
    rw [List.cons_append]
    unfold skipWhite
    by_cases h1 : x = 10
    · rw [if_pos h1]; exact ih _ _ hb' hm
    · rw [if_neg h1, if_pos]
      · exact ih _ _ hb' hm
      · rcases hb x List.mem_cons_self with h | h | h | h
        · exact Or.inr (Or.inr h)
        · exact Or.inr (Or.inl h)
        · exact absurd h h1
        · exact Or.inl h

theorem findMacro_none : ∀ {ms : List Macro} {name : List Byte}, (∀ m ∈ ms, m.name ≠ name) →
    findMacro ms name = none := by
  intro ms
  induction ms with
  | nil => intro name _; rfl
  | cons x xs ih =>
    intro name h
    unfold findMacro
    rw [if_neg (h x List.mem_cons_self)]
    exact ih fun m hm => h m (List.mem_cons_of_mem _ hm)

/-- A state that differs only in what is left to read and in `atStartOfLine`. -/
structure Same (pp q : PP) : Prop where
  macros : q.macros = pp.macros
  angles : q.angles = pp.angles
  endLoc : q.endLoc = pp.endLoc
  errors : q.errors = pp.errors

/-- White space is skipped. -/
theorem step_gap {pp : PP} {loc : Int} {f : Frame} {gap more : List Byte} (hs : pp.stack = [f])
    (he : 0 ≤ pp.endLoc) (hf : f.rest = gap ++ more) (hb : Blank gap) (hne : gap ≠ [])
    (hm : ∀ x v, more = x :: v → ¬ IsWS x) :
    ∃ q, step pp loc = some (.again q (locAt pp.endLoc f.rest)) ∧ q.stack = [{ f with rest := more }] ∧
      Same pp q := by
  have hex := skipWhite_exact gap pp.atStart more hb hm
  cases gap with
  | nil => exact absurd rfl hne
  | cons x gap =>
    unfold step
    rw [hs]
    dsimp only
    rw [hf] at *
    rw [List.cons_append] at hex ⊢
    rw [if_neg (by simp), if_neg (by omega)]
    unfold lex
    dsimp only
    rw [if_pos (by
      rcases hb x List.mem_cons_self with h | h | h | h
      · exact Or.inr (Or.inr (Or.inr h))
      · exact Or.inr (Or.inr (Or.inl h))
      · exact Or.inl h
      · exact Or.inr (Or.inl h)), hex]
    exact ⟨_, rfl, rfl, rfl, rfl, rfl, by simp⟩

/-- A written token is read. -/
theorem step_written {pp : PP} {loc : Int} {f : Frame} {t : TT} {w more : List Byte} {x : Byte}
    (hs : pp.stack = [f]) (ha : Reads pp.angles t) (he : 0 ≤ pp.endLoc) (hf : f.rest = w ++ x :: more)
    (hw : Written t w) (hx : IsWS x) (hm : t = .identifier → ∀ m ∈ pp.macros, m.name ≠ w) :
    ∃ q, step pp loc = some (.got ⟨locAt pp.endLoc f.rest, t, w⟩ q) ∧
      q.stack = [{ f with rest := x :: more }] ∧ Same pp q := by
  obtain ⟨b, v, hb, _⟩ := written_start hw
  have hne : f.rest ≠ [] := by rw [hf, hb]; simp
  have htext : f.rest.take (f.rest.length - (x :: more).length) = w := by
    rw [hf]; simp
  unfold step
  rw [hs]
  dsimp only
  rw [if_neg hne, if_neg (by omega)]
  rcases lex_written ha (e := pp.endLoc) (start := pp.atStart) (rest := more) hw hx with ⟨ht, h⟩ | ⟨_, _, st, h⟩
  · rw [hf] at htext ⊢
    rw [h]
    dsimp only
    rw [htext]
    unfold gotIdent
    dsimp only
    rw [findMacro_none (hm ht)]
    subst ht
    exact ⟨_, rfl, rfl, rfl, rfl, rfl, by simp⟩
  · rw [hf] at htext ⊢
    rw [h]
    dsimp only
    rw [htext]
    exact ⟨_, rfl, rfl, rfl, rfl, rfl, by simp⟩

theorem readToken_written {pp : PP} {f : Frame} {gap : List Byte} {t : TT} {w more : List Byte} {x : Byte}
    (hs : pp.stack = [f]) (ha : Reads pp.angles t) (he : 0 ≤ pp.endLoc)
    (hf : f.rest = gap ++ (w ++ x :: more)) (hb : Blank gap)
    (hw : Written t w) (hx : IsWS x) (hm : t = .identifier → ∀ m ∈ pp.macros, m.name ≠ w) :
    ∃ q, readToken pp = some (⟨locAt pp.endLoc (w ++ x :: more), t, w⟩, q) ∧
      q.stack = [{ f with rest := x :: more }] ∧ Same pp q := by
  obtain ⟨b, v, hbv, hbw⟩ := written_start hw
  by_cases hg : gap = []
  · subst hg
    rw [List.nil_append] at hf
    obtain ⟨q, h1, h2, h3⟩ := step_written (loc := -1) hs ha he hf hw hx hm
    refine ⟨q, ?_, h2, h3⟩
    unfold readToken readLoop
    rw [h1, hf]
  · obtain ⟨q, h1, h2, h3⟩ := step_gap (loc := -1) hs he hf hb hg (by
      intro y u hy; rw [hbv, List.cons_append] at hy; cases hy; exact hbw)
    obtain ⟨q', h4, h5, h6⟩ := step_written (pp := q) (loc := locAt pp.endLoc f.rest) h2
      (by rw [h3.angles]; exact ha) (by rw [h3.endLoc]; exact he) rfl hw hx (by rw [h3.macros]; exact hm)
    refine ⟨q', ?_, h5, ⟨by rw [h6.macros, h3.macros], by rw [h6.angles, h3.angles],
      by rw [h6.endLoc, h3.endLoc], by rw [h6.errors, h3.errors]⟩⟩
    have hsz : 0 < pp.size := by rw [size_cons pp f [] hs]; omega
    unfold readToken
    obtain ⟨k, hk⟩ : ∃ k, pp.size = k + 1 := ⟨pp.size - 1, by omega⟩
    rw [hk]
    unfold readLoop
    rw [h1]
    dsimp only
    unfold readLoop
    rw [h4, h3.endLoc]

theorem readToken_gap_end {pp : PP} {f : Frame} (hs : pp.stack = [f]) (he : 0 ≤ pp.endLoc)
    (hb : Blank f.rest) :
    ∃ t q, readToken pp = some (t, q) ∧ t.type = .endOfFile ∧ Same pp q := by
  have hpop : ∀ (p : PP) (g : Frame) (l : Int), p.stack = [g] → g.rest = [] →
      step p l = some (.again { p with stack := [] } l) := by
    intro p g l h1 h2
    unfold step
    rw [h1]
    dsimp only
    rw [if_pos h2]
    rfl
  by_cases hg : f.rest = []
  · refine ⟨⟨-1, .endOfFile, []⟩, { pp with stack := [] }, ?_, rfl, rfl, rfl, rfl, rfl⟩
    · unfold readToken
      rw [size_cons pp f [] hs, hg]
      simp only [List.length_nil, List.map_nil, List.sum_nil]
      unfold readLoop
      rw [hpop pp f (-1) hs hg]
      dsimp only
      unfold readLoop
      rfl
  · obtain ⟨q, h1, h2, h3⟩ := step_gap (loc := -1) (more := []) hs he (by simp) hb hg
      (fun x v h => by cases h)
    refine ⟨⟨locAt pp.endLoc f.rest, .endOfFile, []⟩, { q with stack := [] }, ?_, rfl, h3.macros, h3.angles,
      h3.endLoc, h3.errors⟩
    have hlen : 0 < f.rest.length := List.length_pos_iff.mpr hg
    unfold readToken
    rw [size_cons pp f [] hs]
    simp only [List.map_nil, List.sum_nil]
    obtain ⟨k, hk⟩ : ∃ k, f.rest.length = k + 1 := ⟨f.rest.length - 1, by omega⟩
    rw [hk]
    unfold readLoop
    rw [h1]
    dsimp only
    unfold readLoop
    rw [hpop q _ _ h2 rfl]
    dsimp only
    unfold readLoop
    rfl

/-- A written source is read. -/
theorem readAll_written (macros : List Macro) : ∀ (l : List (TT × List Byte × List Byte)) (pp : PP) (f : Frame)
    (gap : List Byte), (∀ x ∈ l, Written x.1 x.2.1 ∧ Blank x.2.2 ∧ x.2.2 ≠ [] ∧
      (x.1 = .identifier → ∀ m ∈ macros, m.name ≠ x.2.1)) →
    pp.stack = [f] → pp.angles = false → 0 ≤ pp.endLoc → pp.macros = macros → pp.errors = [] →
    f.rest = gap ++ sourceOf l → Blank gap →
    ∃ q, readAll (l.length + 1) pp = some (tokensOf (locAt pp.endLoc (sourceOf l)) l, q) ∧
      q.errors = [] := by
  intro l
  induction l with
  | nil =>
    intro pp f gap _ hs _ he _ herr hf hb
    simp only [sourceOf, List.append_nil] at hf
    obtain ⟨t, q, h1, h2, h3⟩ := readToken_gap_end hs he (by rw [hf]; exact hb)
    refine ⟨q, ?_, by rw [h3.errors, herr]⟩
    unfold readAll
    rw [h1]
    dsimp only
    rw [if_pos h2]
    rfl
  | cons x l ih =>
    intro pp f gap hl hs ha he hmac herr hf hb
    obtain ⟨t, w, g⟩ := x
    obtain ⟨x1, x2, x3, x4⟩ := hl _ List.mem_cons_self
    dsimp only at x1 x2 x3 x4
    cases g with
    | nil => exact absurd rfl x3
    | cons y g =>
      have hsrc : sourceOf ((t, w, y :: g) :: l) = w ++ y :: (g ++ sourceOf l) := by
        simp [sourceOf]
      rw [hsrc] at hf
      obtain ⟨q, h1, h2, h3⟩ := readToken_written hs (Or.inl ha) he hf hb x1 (x2 y List.mem_cons_self)
        (by rw [hmac]; exact x4)
      obtain ⟨q', h4, h5⟩ := ih q _ (y :: g) (fun z hz => hl z (List.mem_cons_of_mem _ hz)) h2
        (by rw [h3.angles, ha]) (by rw [h3.endLoc]; exact he) (by rw [h3.macros, hmac])
        (by rw [h3.errors, herr]) rfl x2
      refine ⟨q', ?_, h5⟩
      rw [hsrc]
      unfold readAll
      rw [h1]
      dsimp only
      have hE : t ≠ .endOfFile := by
        rcases lex_written (a := false) (Or.inl rfl) (e := 0) (start := true) (rest := []) x1 (x2 y List.mem_cons_self) with
          ⟨h, _⟩ | ⟨_, h, _⟩
        · rw [h]; decide
        · exact h
      rw [if_neg hE, List.length_cons, h4]
      dsimp only
      simp only [tokensOf]
      rw [h3.endLoc]
      congr 3
      congr 1
      simp only [locAt, List.length_append, List.length_cons]
      omega

end Verif.Cpp
