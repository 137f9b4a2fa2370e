import Verif.CppParse.LemmasFile
import Verif.CppParse.LemmasHang
import Verif.Cpp.Props
/-!
# C74: the parser for C++ declarations — what holds for every text
-/
namespace Verif.CppParse
open Verif Verif.Cpp

/-- How parsing ends, for examples: the number of declarations, of errors reported, and of errors found. -/
def sum_ {σ : Type} : R σ (List Decl) → Option (Nat × Nat × Nat)
  | .ok ds q => some (ds.length, q.errs.length, q.raw)
  | .stop _ => none

/-- Whether parsing ends with the given outcome. -/
def stops {σ β : Type} (s : Stop) : R σ β → Bool
  | .ok _ _ => false
  | .stop s' => decide (s' = s)

theorem stops_eq {σ β : Type} {s : Stop} {r : R σ β} (h : stops s r = true) : r = .stop s := by
  cases r with
  | ok _ _ => cases h
  | stop s' =>
    have : s' = s := by simpa [stops] using h
    rw [this]

/-- **C74.** Whatever function of the parser is called, in whatever state, with tokens from whatever source,
and however deep its calls go: if it ends, the tokens it consumed (`w`), followed by those that it read and
pushed back, are the tokens pushed back before followed by those it took from the source (`e`), in order: none
is lost, doubled or moved by pushing tokens back and by going back to restore points.  The flags and the
restore point are as before; no error that was reported is taken back; while there is a restore point no error
is reported; and without errors found, none is reported. -/
theorem C74_tokens_in_order {σ : Type} [Source σ] [Lawful σ] (n : Nat) (c : Call) (p q : P σ) (out : c.Out)
    (hp : Between p) (h : go n c p = .ok out q) :
    ∃ e w, Supply p.src e q.src ∧ pending p ++ e = w ++ pending q ∧
      Between q ∧ q.restore = p.restore ∧ q.accept = p.accept ∧ q.angles = p.angles ∧
      p.raw ≤ q.raw ∧ p.errs <+: q.errs ∧ p.seen <+: q.seen ∧
      (p.restore = true → q.errs = p.errs) ∧ (q.raw = p.raw → q.errs = p.errs) := by
  obtain ⟨e, w, h1, h2, f, -, -⟩ := go_fwd (ρ := True) n c p out q hp h
  exact ⟨e, w, h1, h2, f.between, f.restore, f.accept, f.angles, f.raw, f.errs, f.seen, f.quiet, f.noErr⟩

example : Between ({ src := [], restore := true, queue := [{}], pos := 1 } : P (List Token)) :=
  ⟨fun h => (by cases h), by decide⟩

/-- **C74.** If parsing a text ends, every token of it was consumed in order up to an end of file, and what was
read beyond it is pushed back; and if a token has no text `operator`, then errors that were found were
reported: either none was found, or at least one was passed to the error handler.  (`C74_operator_silent`: this
is false with the word `operator`.) -/
theorem C74_whole_file_partial (n : Nat) (text : List Byte) (ds : List Decl) (q : P PP)
    (h : parseText n text = .ok ds q) :
    ∃ e w t, Supply (PP.init [] text) e q.src ∧ e = w ++ t :: pending q ∧ t.type = .endOfFile ∧
      q.restore = false ∧ q.pos = 0 ∧ q.accept = {} ∧ q.angles = false ∧
      (q.raw = 0 → q.errs = []) ∧
      ((∀ t ∈ e, t.text ≠ operatorWord) → q.raw = 0 ∨ q.errs ≠ []) := by
  obtain ⟨p', t, ⟨e1, w1, a1⟩, ⟨_, ⟨e2, a2⟩, _⟩, ht⟩ :=
    file_fwd (ρ := True) n { src := PP.init [] text } q ds ⟨fun _ => rfl, by simp⟩ h
  obtain ⟨s, pe, f, -, r⟩ := a1.trans a2
  refine ⟨e1 ++ e2, w1, t, s, ?_, ht, f.restore, f.between.start f.restore, f.accept, f.angles,
    fun h0 => f.noErr h0, fun ho => ?_⟩
  · simpa [pending] using pe
  · rcases (r trivial (by simpa [pending] using ho) rfl).2 rfl with ⟨h0, -⟩ | hl
    · exact .inl h0
    · right
      intro he
      rw [he] at hl
      simp at hl

example : sum_ (parseText 40 (txt "int f(const A<B, C*>& a, int b[3]); struct S : T { S(); ~S() {} };")) =
    some (3, 0, 0) := by decide +kernel

example : sum_ (parseText 40 (txt "int f() noexcept;")) = some (3, 2, 2) := by decide +kernel

/-- **C74.** The same for tokens from any source, and for every restore point: with tokens given as a list, all
of them up to the end are consumed. -/
theorem C74_whole_list (n : Nat) (l : List Token) (ds : List Decl) (q : P (List Token))
    (h : parseTokens n l = .ok ds q) :
    ∃ e w t, Supply l e q.src ∧ e = w ++ t :: pending q ∧ t.type = .endOfFile ∧ q.restore = false := by
  obtain ⟨p', t, ⟨e1, w1, a1⟩, ⟨_, ⟨e2, a2⟩, _⟩, ht⟩ :=
    file_fwd (ρ := True) n { src := l } q ds ⟨fun _ => rfl, by simp⟩ h
  obtain ⟨s, pe, f, -, -⟩ := a1.trans a2
  exact ⟨e1 ++ e2, w1, t, s, by simpa [pending] using pe, ht, f.restore⟩

/-- **C74, negation.** The word `operator` followed by something that is no operator makes the parser forget
errors: the declaration is wrong, two errors are found, and none is reported. -/
theorem C74_operator_silent (n : Nat) (hn : 40 ≤ n) :
    sum_ (parseText n (txt "int f(int (operator ,));")) = some (1, 0, 2) := by
  have h : sum_ (parseText 40 (txt "int f(int (operator ,));")) = some (1, 0, 2) := by decide +kernel
  unfold parseText at h ⊢
  rw [translationUnit_mono hn _ (fun e => by rw [e] at h; cases h)]
  exact h

/-- **C74.** The limit on the depth of calls makes no difference: where parsing ends, it ends in the same way
with every larger limit. -/
theorem C74_limit (n m : Nat) (h : n ≤ m) (text : List Byte) (hn : parseText n text ≠ .stop .fuel) :
    parseText m text = parseText n text :=
  translationUnit_mono h _ hn

/-! ## Parsing that does not end -/

/-- **C74, negation of "parsing ends".** In a parameter list that is only tried — after the name of the class, or
where a type may be followed by a parameter list — a token that can be nothing there makes the parser loop
for ever, whatever follows and whatever the source of tokens: with no limit on the depth is there a result. -/
theorem C74_tried_params_hang {σ : Type} [Source σ] (t : Token) (p : P σ) (acc : List Param)
    (hr : p.restore = true) (ht : p.queue[p.pos]? = some t) (hv : skipped t.type = false)
    (hk : t.type ∉ paramTokens) (hs : leaves p.accept t.type = false)
    (hh : ∀ h ∈ p.queue.head?, h.loc ≠ t.loc) (n : Nat) : go n (.paramLoop false acc) p = .stop .fuel :=
  Stuck.loop n p acc ⟨hr, ht, hv, hk, hs, hh⟩

example : ∃ (t : Token) (p : P (List Token)), p.restore = true ∧ p.queue[p.pos]? = some t ∧
    skipped t.type = false ∧ t.type ∉ paramTokens ∧ leaves p.accept t.type = false ∧
    ∀ h ∈ p.queue.head?, h.loc ≠ t.loc :=
  ⟨⟨1, .numericLiteral, txt "5"⟩, { src := [], restore := true, pos := 1, accept := { closeParen := true }, queue :=
    [⟨0, .openParen, txt "("⟩, ⟨1, .numericLiteral, txt "5"⟩] }, by decide, by decide, by decide, by decide, by decide,
    by decide⟩

/-- A whole text hangs if the parser gets stuck in it. -/
theorem text_hangs (text : List Byte) (m : Nat)
    (h : stops .fuel (translationUnit (goK stuckCall m) { src := PP.init [] text }) = true) (n : Nat) :
    parseText n text = .stop .fuel :=
  hangs stuckCall_spec (stops_eq h) n

/-- **C74, negation of "parsing ends".** Three texts for which parsing never ends; the first two are correct C++.
The first one declares a constructor with a parameter whose type starts with `::`. -/
theorem C74_texts_hang :
    (∀ n, parseText n (txt "struct A { A(::B b); };") = .stop .fuel) ∧
    (∀ n, parseText n (txt "X<(1+2)> y;") = .stop .fuel) ∧
    (∀ n, parseText n (txt "struct A { A(;); };") = .stop .fuel) :=
  ⟨text_hangs _ 40 (by decide +kernel), text_hangs _ 40 (by decide +kernel), text_hangs _ 40 (by decide +kernel)⟩

/-! ## Assertions that fail -/

/-- A whole text ends in an assertion if it does with some limit. -/
theorem text_asserts (text : List Byte) (m : Nat) (h : stops .assert (parseText m text) = true) (n : Nat)
    (hn : m ≤ n) : parseText n text = .stop .assert := by
  have e := stops_eq h
  rw [C74_limit m n hn text (by rw [e]; intro x; cases x), e]

/-- **C74, negation of "no text makes the parser fail an assertion".** The first four are correct C++. -/
theorem C74_texts_assert (n : Nat) (hn : 40 ≤ n) :
    parseText n (txt "int x = a > b;") = .stop .assert ∧
    parseText n (txt "int x = +1;") = .stop .assert ∧
    parseText n (txt "int x = ~y;") = .stop .assert ∧
    parseText n (txt "X<(N)> y;") = .stop .assert ∧
    parseText n (txt "int x = ;") = .stop .assert ∧
    parseText n (txt "int x = f(") = .stop .assert ∧
    parseText n (txt "int A::;") = .stop .assert ∧
    parseText n (txt "template <typename T> }") = .stop .assert ∧
    parseText n (txt "extern int x y;") = .stop .assert ∧
    parseText n (txt "operator inline int();") = .stop .assert := by
  refine ⟨?_, ?_, ?_, ?_, ?_, ?_, ?_, ?_, ?_, ?_⟩ <;> exact text_asserts _ 40 (by decide +kernel) n hn

/-! ## Correct declarations that are refused -/

/-- The number of declarations, of errors reported and of errors found does not depend on the limit. -/
theorem sum_limit (text : List Byte) (m : Nat) {x : Nat × Nat × Nat} (h : sum_ (parseText m text) = some x)
    (n : Nat) (hn : m ≤ n) : sum_ (parseText n text) = some x := by
  rw [C74_limit m n hn text (by intro e; rw [e] at h; cases h), h]

/-- **C74, negation of "correct declarations are accepted".** For each of these correct declarations an error is
reported: types of two words, `noexcept`, `&&` and `[]` in an initializer, an initializer in parentheses,
`using` of a member, braces inside the parentheses of a member initializer, a function pointer with a
declarator behind it. -/
theorem C74_texts_refused (n : Nat) (hn : 40 ≤ n) :
    sum_ (parseText n (txt "long long x;")) = some (3, 2, 2) ∧
    sum_ (parseText n (txt "unsigned x;")) = some (2, 1, 1) ∧
    sum_ (parseText n (txt "void f() noexcept;")) = some (3, 2, 2) ∧
    sum_ (parseText n (txt "int x = a && b;")) = some (3, 2, 3) ∧
    sum_ (parseText n (txt "int x = a[3];")) = some (2, 1, 2) ∧
    sum_ (parseText n (txt "A a(1, 2);")) = some (1, 1, 6) ∧
    sum_ (parseText n (txt "using A::x;")) = some (2, 2, 3) ∧
    sum_ (parseText n (txt "struct A { A() : x({1}) {} };")) = some (2, 2, 3) := by
  refine ⟨?_, ?_, ?_, ?_, ?_, ?_, ?_, ?_⟩ <;> exact sum_limit _ 40 (by decide +kernel) n hn

/-! ## What is lost or doubled -/

/-- The comments passed on, for examples. -/
def comments {σ : Type} : R σ (List Decl) → Option (List (Int × List Byte))
  | .ok _ q => some (q.seen.map fun t => (t.loc, t.text))
  | .stop _ => none

/-- **C74, negation of "each comment is passed on once".** A comment inside a region that is tried and then read
again is passed on twice. -/
theorem C74_comment_twice (n : Nat) (hn : 40 ≤ n) :
    comments (parseText n (txt "struct A { A(/*c*/ int (/*d*/ *x)); };")) =
      some [(13, txt "/*c*/"), (24, txt "/*d*/"), (24, txt "/*d*/")] := by
  have h : comments (parseText 40 (txt "struct A { A(/*c*/ int (/*d*/ *x)); };")) =
      some [(13, txt "/*c*/"), (24, txt "/*d*/"), (24, txt "/*d*/")] := by decide +kernel
  rw [C74_limit 40 n hn _ (by intro e; rw [e] at h; cases h), h]

/-- The production kinds of the declarators of the first declaration, for examples. -/
def kinds {σ : Type} : R σ (List Decl) → Option (List (List Nat))
  | .ok (.simple _ ds _ :: _) _ => some (ds.map fun
    | .mk d _ _ => d.prods.map fun
      | .paren _ _ => 0
      | .ptr _ _ => 1
      | .array _ _ => 2
      | .func _ _ _ _ => 3
      | .qual _ => 4)
  | _ => none

/-- The numbers of `kinds` do not depend on the limit. -/
theorem kinds_limit (text : List Byte) (m : Nat) {x : List (List Nat)} (h : kinds (parseText m text) = some x)
    (n : Nat) (hn : m ≤ n) : kinds (parseText n text) = some x := by
  rw [C74_limit m n hn text (by intro e; rw [e] at h; cases h), h]

/-- **C74, negation of "the chain says what the name is".** Read from its start, the chain of `int *f(int)` says:
function (3) to pointer (1), and that of `int *a[3]`: array (2) of pointer.  The chains of the pointer to
function `int (*f)(int)` and of the pointer to array `int (*a)[3]` start with function and array too, and only
then come the parentheses (0) and the pointer. -/
theorem C74_function_pointer (n : Nat) (hn : 40 ≤ n) :
    kinds (parseText n (txt "int *f(int);")) = some [[3, 1]] ∧
    kinds (parseText n (txt "int (*f)(int);")) = some [[3, 0, 1]] ∧
    kinds (parseText n (txt "int *a[3];")) = some [[2, 1]] ∧
    kinds (parseText n (txt "int (*a)[3];")) = some [[2, 0, 1]] := by
  refine ⟨?_, ?_, ?_, ?_⟩ <;> exact kinds_limit _ 40 (by decide +kernel) n hn

/-- **C74, negation of "the tree tells a type definition from a declaration".** The word `typedef` leaves no trace
in the specifiers: what follows is parsed into the same result as if it was not there. -/
theorem C74_typedef_lost (n : Nat) (t : Token) (l : List Token) (cls : List Byte) (acc : List Spec) (ty : Bool)
    (p : P (List Token)) (hs : p.src = t :: l) (hq : p.queue = []) (hr : p.restore = false) (hp : p.pos = 0)
    (ht : t.type = .identifier) (hx : t.text = bs ['t', 'y', 'p', 'e', 'd', 'e', 'f']) :
    go (n + 1) (.specs .globalOrMember cls acc ty) p =
      go n (.specs .globalOrMember cls acc ty) { p with src := l, mute := false } := by
  have hread : readToken p = .ok t { p with src := l } := by
    unfold readToken
    rw [hq, hp]
    simp only [List.drop_nil, readQueued, Source.next, hs]
    have : (t :: l).takeWhile (fun t : Token => skipped t.type) = [] := by
      rw [List.takeWhile_cons_of_neg (by rw [ht]; decide)]
    simp [this, hr, hq, hp]
  refine (bind_ok hread).trans ?_
  refine (ifp ht).trans ?_
  rw [hx]
  refine (ifn (by decide)).trans ?_
  refine (ifn (by decide)).trans ?_
  refine (ifn (by decide)).trans ?_
  refine (ifp (by decide)).trans ?_
  exact bind_ok rfl

example : sum_ (parseText 40 (txt "typedef int A; A x;")) = some (2, 0, 0) := by decide +kernel

/-- The texts of the commas behind the bases of the first class, for examples. -/
def baseCommas {σ : Type} : R σ (List Decl) → Option (List (List Byte))
  | .ok (.simple (.record _ _ _ _ bases _ _ _ :: _) _ _ :: _) _ => some (bases.map fun
    | .mk _ _ comma => comma.text)
  | _ => none

/-- **C74, negation of "the tree has the token it names".** Behind a base class the tree has, as the comma, the
name of the base. -/
theorem C74_base_comma (n : Nat) (hn : 40 ≤ n) :
    baseCommas (parseText n (txt "struct A : B, C, D {};")) = some [txt "B", txt "C", []] := by
  have h : baseCommas (parseText 40 (txt "struct A : B, C, D {};")) = some [txt "B", txt "C", []] := by
    decide +kernel
  rw [C74_limit 40 n hn _ (by intro e; rw [e] at h; cases h), h]

end Verif.CppParse
