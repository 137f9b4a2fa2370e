import Verif.CppParse.LemmasText
import Verif.CppParse.Props
/-!
# C75: the parser for C++ declarations — correct declarations become their trees
-/
namespace Verif.CppParse
open Verif Verif.Cpp

/-! The tokens and the trees of the examples. -/

private def wd (n : Int) (s : String) : Token := ⟨n, .identifier, txt s⟩
private def pu (n : Int) (x : TT) (s : String) : Token := ⟨n, x, txt s⟩

private theorem qid_wd {t : Token} (h : Name t) : QIdT (.mk [] (.ident t)) [t] :=
  ⟨[], .ident t, [], [t], rfl, rfl, .nil, .ident h⟩

private theorem specs_wd {t : Token} (h : Name t) : SpecsT [.typeId noTok (.mk [] (.ident t))] [t] :=
  ⟨[], _, [t], [], rfl, rfl, nofun, qid_wd h, nofun⟩

/-- `int f(A *x) ;` -/
private theorem ex_func (cls : List Byte) : DeclT cls
    (.simple [.typeId noTok (.mk [] (.ident (wd 0 "int")))]
      [.mk (.mk [.func (.mk (pu 2 .openParen "(") (pu 6 .closeParen ")")
        [.mk [.typeId noTok (.mk [] (.ident (wd 3 "A")))] (.mk [.ptr [] (pu 4 .star "*")] (.mk [] (.ident (wd 5 "x")))) .none noTok]) []
        noTok .none] (.mk [] (.ident (wd 1 "f")))) .none noTok] (pu 7 .semicolon ";"))
    [wd 0 "int", wd 1 "f", pu 2 .openParen "(", wd 3 "A", pu 4 .star "*", wd 5 "x", pu 6 .closeParen ")", pu 7 .semicolon ";"] :=
  .func (specs_wd ⟨rfl, by decide +kernel⟩)
    (.mk (p := []) .nil .nil (.ident ⟨rfl, by decide +kernel⟩)
      (.func (quals := []) (.some rfl (.last (.named (p := [pu 4 .star "*"]) (specs_wd ⟨rfl, by decide +kernel⟩) (.star rfl .nil)
        ⟨rfl, by decide +kernel⟩ .nil .none) rfl)) nofun .nil)) rfl (.semi rfl)

/-- `struct B { public: B(); int f(A *x); };` -/
private theorem ex_struct : DeclsT []
    [.simple [.record (wd 10 "struct") (.mk [] (.ident (wd 11 "B"))) [] noTok [] (pu 12 .openCurly "{") (pu 19 .closeCurly "}")
      [.access (wd 13 "public") (pu 14 .singleColon ":"),
       .simple [] [.mk (.mk [.func (.mk (pu 16 .openParen "(") (pu 17 .closeParen ")") []) [] noTok .none]
        (.mk [] (.ident (wd 15 "B")))) .none noTok] (pu 18 .semicolon ";"),
       .simple [.typeId noTok (.mk [] (.ident (wd 0 "int")))]
        [.mk (.mk [.func (.mk (pu 2 .openParen "(") (pu 6 .closeParen ")")
        [.mk [.typeId noTok (.mk [] (.ident (wd 3 "A")))] (.mk [.ptr [] (pu 4 .star "*")] (.mk [] (.ident (wd 5 "x")))) .none noTok]) []
        noTok .none] (.mk [] (.ident (wd 1 "f")))) .none noTok] (pu 7 .semicolon ";")]] [] noTok,
     .empty (pu 20 .semicolon ";")]
    [wd 10 "struct", wd 11 "B", pu 12 .openCurly "{", wd 13 "public", pu 14 .singleColon ":", wd 15 "B", pu 16 .openParen "(",
     pu 17 .closeParen ")", pu 18 .semicolon ";", wd 0 "int", wd 1 "f", pu 2 .openParen "(", wd 3 "A", pu 4 .star "*", wd 5 "x",
     pu 6 .closeParen ")", pu 7 .semicolon ";", pu 19 .closeCurly "}", pu 20 .semicolon ";"] :=
  .type (semi := pu 20 .semicolon ";") (.type (k := []) nofun
    (.record (key := wd 10 "struct") (o := pu 12 .openCurly "{") ⟨rfl, by decide +kernel⟩ (.name (qid_wd (t := wd 11 "B") ⟨rfl, by decide +kernel⟩)) .none ⟨rfl, by decide +kernel⟩
      (.cons (.access (t := wd 13 "public") ⟨rfl, by decide +kernel⟩ rfl)
        (.cons (.ctor (n := wd 15 "B") (k := []) (quals := []) nofun ⟨rfl, by decide +kernel⟩ (by decide +kernel) (.none rfl rfl)
          nofun (.semi rfl)) (.cons (ex_func _) .nil))) rfl)) ⟨rfl, by decide +kernel⟩ .nil

/-- **C75.** Tokens that are declarations by the grammar — variables, functions with and without body, constructors,
destructors, operators, classes with members and a base, enumerations, templates, namespaces, linkage
specifications, `using`, `static_assert` and access specifiers, nested as deep as you like — are parsed into
exactly the declarations the grammar gives for them, to the last token, and no error is found or reported. -/
theorem C75_declarations_parse_partial (ds : List Decl) (w : List Token) (eof : Token) (h : DeclsT [] ds w)
    (he : eof.type = .endOfFile) :
    ∃ N, ∀ n, N ≤ n → ∃ q, parseTokens n (w ++ [eof]) = .ok ds q ∧ q.errs = [] ∧ q.raw = 0 ∧ q.seen = [] ∧
      q.src = [] := by
  obtain ⟨N, hN⟩ := lim_parses (e' := ⟨-1, .endOfFile, []⟩) h he rfl
  refine ⟨N, fun n hn => ?_⟩
  obtain ⟨q, h1, h2, h3, h4, h5⟩ := hN n hn
  obtain ⟨l, h6, h7⟩ := file_sim list_gives n _ (w ++ [eof]) (Or.inl (by simp)) ds q h1
  refine ⟨q.put l, h6, h2, h3, h4, ?_⟩
  rcases h7 with h7 | h7
  · rw [h5] at h7; simp at h7
  · exact h7.2

/-- The example parses with a depth of 60. -/
example : sum_ (parseTokens 60 ([wd 10 "struct", wd 11 "B", pu 12 .openCurly "{", wd 13 "public", pu 14 .singleColon ":", wd 15 "B",
    pu 16 .openParen "(", pu 17 .closeParen ")", pu 18 .semicolon ";", wd 0 "int", wd 1 "f", pu 2 .openParen "(", wd 3 "A",
    pu 4 .star "*", wd 5 "x", pu 6 .closeParen ")", pu 7 .semicolon ";", pu 19 .closeCurly "}", pu 20 .semicolon ";",
    pu 21 .endOfFile ""])) = some (2, 0, 0) := by decide +kernel

example : ∃ ds w, DeclsT [] ds w ∧ ds.length = 2 ∧ w.length = 19 := ⟨_, _, ex_struct, rfl, rfl⟩

/-- **C75.** The same for texts: if the tokens of a text are declarations by the grammar, the text is parsed into
exactly these declarations, and neither the tokenizer nor the parser finds an error.  The text consists of an
optional white space and the tokens, each with white space behind it; comments, `>>` and `>=` are left out. -/
theorem C75_texts_parse_partial (ds : List Decl) (l : List (TT × List Byte × List Byte)) (lead : List Byte)
    (hl : ∀ x ∈ l, Written x.1 x.2.1 ∧ Blank x.2.2 ∧ x.2.2 ≠ [] ∧ skipped x.1 = false ∧ x.1 ≠ .rightShift ∧
      x.1 ≠ .greaterThanOrEqual) (hlead : Blank lead) (h : DeclsT [] ds (tokensOf lead.length l)) :
    ∃ N, ∀ n, N ≤ n → ∃ q, parseText n (lead ++ sourceOf l) = .ok ds q ∧ q.errs = [] ∧ q.raw = 0 ∧ q.seen = [] ∧
      q.src.errors = [] := by
  have hs := written_supp l (PP.init [] (lead ++ sourceOf l)) ⟨0, lead ++ sourceOf l, lead ++ sourceOf l⟩ lead hl rfl
    (by simp only [PP.init]; omega) rfl rfl rfl hlead
  have e : locAt (PP.init [] (lead ++ sourceOf l)).endLoc (sourceOf l) = lead.length := by
    simp only [locAt, PP.init, List.length_append]; omega
  rw [e] at hs
  obtain ⟨N, hN⟩ := lim_parses (e := ⟨eofLoc (PP.init [] (lead ++ sourceOf l)).endLoc lead l, .endOfFile, []⟩)
    (e' := ⟨-1, .endOfFile, []⟩) h rfl rfl
  refine ⟨N, fun n hn => ?_⟩
  obtain ⟨q, h1, h2, h3, h4, h5⟩ := hN n hn
  obtain ⟨t, h6, h7⟩ := file_sim supp_gives n _ _ hs ds q h1
  refine ⟨q.put t, h6, h2, h3, h4, ?_⟩
  rw [h5] at h7
  exact h7

/-- ` enum E { A , } ;` -/
example : ∃ ds l, (∀ x ∈ l, Written x.1 x.2.1 ∧ Blank x.2.2 ∧ x.2.2 ≠ [] ∧ skipped x.1 = false ∧ x.1 ≠ .rightShift ∧
      x.1 ≠ .greaterThanOrEqual) ∧ DeclsT [] ds (tokensOf (txt " ").length l) ∧ txt " " ++ sourceOf l = txt " enum E { A , } ; " := by
  refine ⟨[.simple [.enum (wd 1 "enum") noTok (.mk [] (.ident (wd 6 "E"))) noTok .none (pu 8 .openCurly "{")
    (pu 14 .closeCurly "}") [.mk (wd 10 "A") .none (pu 12 .comma ",")]] [] noTok, .empty (pu 16 .semicolon ";")],
    [(.identifier, txt "enum", txt " "), (.identifier, txt "E", txt " "), (.openCurly, txt "{", txt " "),
    (.identifier, txt "A", txt " "), (.comma, txt ",", txt " "), (.closeCurly, txt "}", txt " "),
    (.semicolon, txt ";", txt " ")], ?_, ?_, by decide⟩
  · have hid : ∀ b w, IsWord b → ¬ IsDigit b → (∀ x ∈ w, IsWord x) → Written .identifier (b :: w) :=
      fun b w h1 h2 h3 => .identifier h1 h2 h3
    intro x hx
    simp only [List.mem_cons, List.not_mem_nil, or_false] at hx
    rcases hx with rfl | rfl | rfl | rfl | rfl | rfl | rfl
    · exact ⟨hid 101 (txt "num") (by decide) (by decide) (by decide), by unfold Blank; decide, by decide, rfl, by decide, by decide⟩
    · exact ⟨hid 69 [] (by decide) (by decide) (by decide), by unfold Blank; decide, by decide, rfl, by decide, by decide⟩
    · exact ⟨.punctuation rfl (by decide) (by decide), by unfold Blank; decide, by decide, rfl, by decide, by decide⟩
    · exact ⟨hid 65 [] (by decide) (by decide) (by decide), by unfold Blank; decide, by decide, rfl, by decide, by decide⟩
    all_goals exact ⟨.punctuation rfl (by decide) (by decide), by unfold Blank; decide, by decide, rfl, by decide, by decide⟩
  · exact .type (semi := pu 16 .semicolon ";") (.type (k := []) nofun (.enum (key := wd 1 "enum") ⟨rfl, rfl⟩
      (.name (qid_wd (t := wd 6 "E") ⟨rfl, by decide +kernel⟩)) rfl
      (.more (n := wd 10 "A") (w := []) ⟨rfl, by decide +kernel⟩ .none rfl (.nil rfl)))) ⟨rfl, by decide +kernel⟩ .nil

/-- **C75.** So the grammar is unambiguous: the same tokens are not two different lists of declarations. -/
theorem C75_one_tree (ds ds' : List Decl) (w : List Token) (h : DeclsT [] ds w) (h' : DeclsT [] ds' w) : ds = ds' := by
  obtain ⟨N, r⟩ := C75_declarations_parse_partial ds w ⟨0, .endOfFile, []⟩ h rfl
  obtain ⟨N', r'⟩ := C75_declarations_parse_partial ds' w ⟨0, .endOfFile, []⟩ h' rfl
  obtain ⟨q, r, -⟩ := r (max N N') (by omega)
  obtain ⟨q', r', -⟩ := r' (max N N') (by omega)
  rw [r] at r'
  cases r'
  rfl

example (ds : List Decl) (h : DeclsT [] ds [wd 0 "int", wd 1 "f", pu 2 .openParen "(", wd 3 "A", pu 4 .star "*", wd 5 "x",
    pu 6 .closeParen ")", pu 7 .semicolon ";"]) : ds.length = 1 := by
  rw [C75_one_tree ds _ _ h (.cons (ex_func []) .nil)]; rfl

/-- **C75.** The body of a function is skipped to the brace that closes it, whatever tokens are in it, as long as
its parentheses, brackets and braces match: what stands inside makes no difference to the declarations. -/
theorem C75_body_opaque (specs : List Spec) (d : Dcor) (o c : Token) (w w' b b' : List Token) (hs : SpecsT specs w)
    (hd : DcorT d w') (hf : d.isFunction = true) (ho : o.type = .openCurly) (hc : c.type = .closeCurly) (hb : Bal b)
    (hb' : Bal b') (eof : Token) (he : eof.type = .endOfFile) :
    ∃ N, ∀ n, N ≤ n → ∃ q q', parseTokens n (w ++ (w' ++ o :: (b ++ [c])) ++ [eof]) = .ok [.simple specs [.mk d (.body noTok o c) noTok] noTok] q ∧
      parseTokens n (w ++ (w' ++ o :: (b' ++ [c])) ++ [eof]) = .ok [.simple specs [.mk d (.body noTok o c) noTok] noTok] q' ∧
      q.errs = [] ∧ q'.errs = [] := by
  have one : ∀ b, Bal b → DeclsT [] [.simple specs [.mk d (.body noTok o c) noTok] noTok] (w ++ (w' ++ o :: (b ++ [c]))) := by
    intro b hb
    have := DeclsT.cons (cls := []) (.func hs hd hf (.body ho hb hc)) .nil
    simpa using this
  obtain ⟨N, r⟩ := C75_declarations_parse_partial _ _ eof (one b hb) he
  obtain ⟨N', r'⟩ := C75_declarations_parse_partial _ _ eof (one b' hb') he
  refine ⟨max N N', fun n hn => ?_⟩
  obtain ⟨q, r, e, -⟩ := r n (by omega)
  obtain ⟨q', r', e', -⟩ := r' n (by omega)
  exact ⟨q, q', r, r', e, e'⟩

/-- A body with parentheses and a loop in it, `(n) { ; }`. -/
example : Bal [pu 1 .openParen "(", wd 2 "n", pu 3 .closeParen ")", pu 4 .openCurly "{", pu 5 .semicolon ";", pu 6 .closeCurly "}"] :=
  .paren (w := [wd 2 "n"]) rfl rfl (.tok rfl (by decide) .nil) (.curly (w := [pu 5 .semicolon ";"]) rfl rfl (.tok rfl (by decide) .nil) .nil)

end Verif.CppParse
