import Verif.CppParse.ModelGo
/-!
# The parser for C++ — specification: which tokens belong to which tree

A grammar of declarations: `DeclsT cls ds w` says that the tokens `w` are the declarations `ds`, as they stand in
the class `cls` (or outside of classes, if `cls` is empty).  It does not refer to the functions of the parser, only
to the trees and to the kinds and texts of tokens.
-/
namespace Verif.CppParse
open Verif Verif.Cpp

/-! ## Words -/

/-- The words that cannot be names. -/
def reserved : List (List Byte) :=
  [(bs ['a', 'l', 'i', 'g', 'n', 'a', 's']), (bs ['c', 'l', 'a', 's', 's']), (bs ['c', 'o', 'n', 's', 't']), (bs ['c', 'o', 'n', 's', 't', 'e', 'x', 'p', 'r']), (bs ['d', 'e', 'c', 'l', 't', 'y', 'p', 'e']), (bs ['e', 'n', 'u', 'm']), (bs ['e', 'x', 'p', 'l', 'i', 'c', 'i', 't']), (bs ['e', 'x', 't', 'e', 'r', 'n']), (bs ['f', 'i', 'n', 'a', 'l']), (bs ['f', 'r', 'i', 'e', 'n', 'd']), (bs ['i', 'n', 'l', 'i', 'n', 'e']),
   (bs ['m', 'u', 't', 'a', 'b', 'l', 'e']), (bs ['n', 'a', 'm', 'e', 's', 'p', 'a', 'c', 'e']), (bs ['o', 'p', 'e', 'r', 'a', 't', 'o', 'r']), (bs ['o', 'v', 'e', 'r', 'r', 'i', 'd', 'e']), (bs ['p', 'r', 'i', 'v', 'a', 't', 'e']), (bs ['p', 'r', 'o', 't', 'e', 'c', 't', 'e', 'd']), (bs ['p', 'u', 'b', 'l', 'i', 'c']), (bs ['s', 't', 'a', 't', 'i', 'c']), (bs ['s', 't', 'a', 't', 'i', 'c', '_', 'a', 's', 's', 'e', 'r', 't']),
   (bs ['s', 't', 'r', 'u', 'c', 't']), (bs ['t', 'e', 'm', 'p', 'l', 'a', 't', 'e']), (bs ['t', 'h', 'r', 'e', 'a', 'd', '_', 'l', 'o', 'c', 'a', 'l']), (bs ['t', 'y', 'p', 'e', 'd', 'e', 'f']), (bs ['t', 'y', 'p', 'e', 'n', 'a', 'm', 'e']), (bs ['u', 'n', 'i', 'o', 'n']), (bs ['u', 'n', 's', 'i', 'g', 'n', 'e', 'd']), (bs ['u', 's', 'i', 'n', 'g']), (bs ['v', 'i', 'r', 't', 'u', 'a', 'l']), (bs ['v', 'o', 'l', 'a', 't', 'i', 'l', 'e'])]

/-- The words that may stand before and behind a type. -/
def specWords : List (List Byte) :=
  [(bs ['i', 'n', 'l', 'i', 'n', 'e']), (bs ['c', 'o', 'n', 's', 't']), (bs ['v', 'o', 'l', 'a', 't', 'i', 'l', 'e']), (bs ['s', 't', 'a', 't', 'i', 'c']), (bs ['f', 'r', 'i', 'e', 'n', 'd']), (bs ['v', 'i', 'r', 't', 'u', 'a', 'l']), (bs ['c', 'o', 'n', 's', 't', 'e', 'x', 'p', 'r']), (bs ['t', 'h', 'r', 'e', 'a', 'd', '_', 'l', 'o', 'c', 'a', 'l']), (bs ['u', 'n', 's', 'i', 'g', 'n', 'e', 'd']), (bs ['m', 'u', 't', 'a', 'b', 'l', 'e']),
   (bs ['e', 'x', 'p', 'l', 'i', 'c', 'i', 't'])]

/-- A name. -/
def Name (t : Token) : Prop := t.type = .identifier ∧ t.text ∉ reserved

/-- The given word. -/
def Word (w : List Byte) (t : Token) : Prop := t.type = .identifier ∧ t.text = w

/-- A punctuation mark of the given kind.  (The parser tells the word `final` by its text alone.) -/
def Sym (x : TT) (t : Token) : Prop := t.type = x ∧ t.text ≠ (bs ['f', 'i', 'n', 'a', 'l'])

/-- Words before or behind a type. -/
def Kws (l : List Token) : Prop := ∀ t ∈ l, t.type = .identifier ∧ t.text ∈ specWords

/-- `const` or `volatile`. -/
def CV (t : Token) : Prop := t.type = .identifier ∧ (t.text = (bs ['c', 'o', 'n', 's', 't']) ∨ t.text = (bs ['v', 'o', 'l', 'a', 't', 'i', 'l', 'e']))

/-! ## Types -/

/-- Pointers and references, with `const` and `volatile` behind pointers (`q` = allowed now). -/
inductive PtrToks : Bool → List Token → Prop where
  | nil {q : Bool} : PtrToks q []
  | star {q : Bool} {t : Token} {w : List Token} (h : t.type = .star) (r : PtrToks true w) : PtrToks q (t :: w)
  | ref {q : Bool} {t : Token} {w : List Token} (h : t.type = .singleAmpersand ∨ t.type = .doubleAmpersand)
      (r : PtrToks false w) : PtrToks q (t :: w)
  | qual {t : Token} {w : List Token} (h : CV t) (r : PtrToks true w) : PtrToks true (t :: w)

/-- What pointers and references become: the last one first. -/
def ptrTrees (w : List Token) : List Prod :=
  (w.map fun t => if t.type = .identifier then Prod.qual t else Prod.ptr [] t).reverse

mutual

/-- The parts of a name that end with `::`. -/
inductive CompsT : List NComp → List Token → Prop where
  | nil : CompsT [] []
  | ident {n sep : Token} {ns : List NComp} {w : List Token} (hn : Name n) (hs : sep.type = .doubleColon)
      (r : CompsT ns w) : CompsT (.ident n noTok noTok [] sep :: ns) (n :: sep :: w)
  | tmpl {n o c sep : Token} {args : List TArg} {ns : List NComp} {w w' : List Token} (hn : Name n)
      (ho : o.type = .openAngle) (ha : TArgsT args c w) (hs : sep.type = .doubleColon) (r : CompsT ns w') :
      CompsT (.ident n o c args sep :: ns) (n :: o :: (w ++ sep :: w'))

/-- The last part of the name of a type. -/
inductive UnqT : Unqual → List Token → Prop where
  | ident {n : Token} (hn : Name n) : UnqT (.ident n) [n]
  | tmpl {n o c : Token} {args : List TArg} {w : List Token} (hn : Name n) (ho : o.type = .openAngle)
      (ha : TArgsT args c w) : UnqT (.templateId n o c args) (n :: o :: w)

/-- Template arguments, up to and with the closing token. -/
inductive TArgsT : List TArg → Token → List Token → Prop where
  | last {specs : List Spec} {abs : List Prod} {c : Token} {w : List Token} (h : TypeIdT specs abs w)
      (hc : c.type = .closeAngle) : TArgsT [.typeId specs abs noTok] c (w ++ [c])
  | more {specs : List Spec} {abs : List Prod} {comma c : Token} {args : List TArg} {w w' : List Token}
      (h : TypeIdT specs abs w) (hm : comma.type = .comma) (r : TArgsT args c w') :
      TArgsT (.typeId specs abs comma :: args) c (w ++ comma :: w')

/-- A type: words, a name, words, pointers and references. -/
inductive TypeIdT : List Spec → List Prod → List Token → Prop where
  | mk {k k' w w' p : List Token} {ns : List NComp} {u : Unqual} (hk : Kws k) (hn : CompsT ns w) (hu : UnqT u w')
      (hk' : Kws k') (hp : PtrToks false p) :
      TypeIdT (k.map .keyword ++ .typeId noTok (.mk ns u) :: k'.map .keyword) (ptrTrees p)
        (k ++ (w ++ (w' ++ (k' ++ p))))

end

/-- The name of a type. -/
def QIdT (q : QId) (w : List Token) : Prop :=
  ∃ ns u w1 w2, q = .mk ns u ∧ w = w1 ++ w2 ∧ CompsT ns w1 ∧ UnqT u w2

/-- The specifiers of a declaration: words, the name of a type, words. -/
def SpecsT (specs : List Spec) (w : List Token) : Prop :=
  ∃ k q w' k', specs = k.map .keyword ++ .typeId noTok q :: k'.map .keyword ∧ w = k ++ (w' ++ k') ∧ Kws k ∧
    QIdT q w' ∧ Kws k'

/-! ## Expressions -/

/-- Operators between two operands.  (`<` is left out: behind a name it is taken for template arguments; `>` makes
an assertion fail, see `C74_texts_assert`.) -/
def BinOp (t : Token) : Prop :=
  t.type ∈ [TT.singleVerticalBar, .doubleEqual, .notEqual, .lessThanOrEqual, .greaterThanOrEqual, .leftShift,
    .rightShift, .singlePlus, .singleMinus, .percent, .arrow, .star, .dot, .forwardSlash]

mutual

/-- An expression with its first and its last token. -/
inductive ExprT : Token → Token → List Token → Prop where
  | prim {s e : Token} {w : List Token} (h : PrimT s e w) : ExprT s e w
  | bin {s e s' e' o : Token} {w w' : List Token} (h : PrimT s e w) (ho : BinOp o) (r : ExprT s' e' w') :
      ExprT s e' (w ++ o :: w')
  | unary {s' e o : Token} {w : List Token} (ho : o.type ∈ [TT.bang, .singleAmpersand, .singleMinus])
      (r : ExprT s' e w) : ExprT o e (o :: w)

/-- An operand: a number, a string, a name or a call. -/
inductive PrimT : Token → Token → List Token → Prop where
  | num {t : Token} (h : t.type = .numericLiteral) : PrimT t t [t]
  | str {t : Token} (h : t.type = .stringLiteral) : PrimT t t [t]
  | name {t : Token} (h : Name t) : PrimT t t [t]
  | call0 {t o c : Token} (h : Name t) (ho : o.type = .openParen) (hc : c.type = .closeParen) :
      PrimT t c [t, o, c]
  | call {t o c : Token} {w : List Token} (h : Name t) (ho : o.type = .openParen) (r : ArgsT c w) :
      PrimT t c (t :: o :: w)

/-- The arguments of a call, up to and with the closing parenthesis. -/
inductive ArgsT : Token → List Token → Prop where
  | last {s e c : Token} {w : List Token} (h : ExprT s e w) (hc : c.type = .closeParen) : ArgsT c (w ++ [c])
  | more {s e m c : Token} {w w' : List Token} (h : ExprT s e w) (hm : m.type = .comma) (r : ArgsT c w') :
      ArgsT c (w ++ m :: w')

end

/-- An initializer of a variable, or none. -/
inductive InitT : Init → List Token → Prop where
  | none : InitT .none []
  | assign {eq s e : Token} {w : List Token} (h : eq.type = .singleEqual) (r : ExprT s e w) :
      InitT (.assignExpr eq s e) (eq :: w)

/-! ## Declarators -/

/-- The name of what is declared: the name of a variable or function, a destructor or an operator. -/
inductive LastT : Unqual → List Token → Prop where
  | ident {n : Token} (hn : Name n) : LastT (.ident n) [n]
  | dtor {t n : Token} (ht : t.type = .tilde) (hn : Name n) : LastT (.dtor t n) [t, n]
  | op {k o : Token} (hk : Word (bs ['o', 'p', 'e', 'r', 'a', 't', 'o', 'r']) k)
      (ho : o.type ∈ [TT.leftShift, .rightShift, .singlePlus, .doublePlus, .singleMinus, .doubleMinus, .star, .arrow,
        .forwardSlash, .singleEqual, .doubleEqual, .notEqual, .plusEqual, .minusEqual, .starEqual, .slashEqual,
        .openAngle, .closeAngle, .lessThanOrEqual, .greaterThanOrEqual]) : LastT (.opFunc k o noTok) [k, o]
  | opCall {k o c : Token} (hk : Word (bs ['o', 'p', 'e', 'r', 'a', 't', 'o', 'r']) k) (ho : o.type = .openParen) (hc : c.type = .closeParen) :
      LastT (.opFunc k o c) [k, o, c]
  | opIndex {k o c : Token} (hk : Word (bs ['o', 'p', 'e', 'r', 'a', 't', 'o', 'r']) k) (ho : o.type = .openSquare) (hc : c.type = .closeSquare) :
      LastT (.opFunc k o c) [k, o, c]

/-- The qualifiers of a function. -/
def QualsT (l : List Token) : Prop :=
  ∀ t ∈ l, (t.type = .identifier ∧ (t.text = (bs ['c', 'o', 'n', 's', 't']) ∨ t.text = (bs ['o', 'v', 'e', 'r', 'r', 'i', 'd', 'e']))) ∨ t.type = .singleAmpersand ∨
    t.type = .doubleAmpersand

mutual

/-- What stands behind the name: arrays and parameters. -/
inductive SufsT : List Prod → List Token → Prop where
  | nil : SufsT [] []
  | array0 {o c : Token} {ps : List Prod} {w : List Token} (ho : o.type = .openSquare) (hc : c.type = .closeSquare)
      (r : SufsT ps w) : SufsT (.array o c :: ps) (o :: c :: w)
  | array {o c s e : Token} {ps : List Prod} {w w' : List Token} (ho : o.type = .openSquare) (h : ExprT s e w)
      (hc : c.type = .closeSquare) (r : SufsT ps w') : SufsT (.array o c :: ps) (o :: (w ++ c :: w'))
  | func {pl : Params} {quals : List Token} {ps : List Prod} {w w' : List Token} (h : ParamsT pl w)
      (hq : QualsT quals) (r : SufsT ps w') : SufsT (.func pl quals noTok .none :: ps) (w ++ (quals ++ w'))

/-- A list of parameters in parentheses. -/
inductive ParamsT : Params → List Token → Prop where
  | none {o c : Token} (ho : o.type = .openParen) (hc : c.type = .closeParen) : ParamsT (.mk o c []) [o, c]
  | some {o c : Token} {l : List Param} {w : List Token} (ho : o.type = .openParen) (h : ParamListT l c w) :
      ParamsT (.mk o c l) (o :: w)

/-- Parameters, up to and with the closing parenthesis. -/
inductive ParamListT : List Param → Token → List Token → Prop where
  | last {specs : List Spec} {d : Dcor} {i : Init} {c : Token} {w : List Token} (h : ParamT specs d i w)
      (hc : c.type = .closeParen) : ParamListT [.mk specs d i noTok] c (w ++ [c])
  | ellipsis {e c : Token} (he : e.type = .ellipsis) (hc : c.type = .closeParen) :
      ParamListT [.mk [.ellipsis e] (.mk [] .none) .none noTok] c [e, c]
  | more {specs : List Spec} {d : Dcor} {i : Init} {m c : Token} {l : List Param} {w w' : List Token}
      (h : ParamT specs d i w) (hm : m.type = .comma) (r : ParamListT l c w') :
      ParamListT (.mk specs d i m :: l) c (w ++ m :: w')

/-- A parameter, with or without a name. -/
inductive ParamT : List Spec → Dcor → Init → List Token → Prop where
  | named {specs : List Spec} {i : Init} {n : Token} {ps : List Prod} {w p w' wi : List Token} (hs : SpecsT specs w)
      (hp : PtrToks false p) (hn : Name n) (hf : SufsT ps w') (hi : InitT i wi) :
      ParamT specs (.mk (ps ++ ptrTrees p) (.mk [] (.ident n))) i (w ++ (p ++ (n :: (w' ++ wi))))
  | abs {specs : List Spec} {i : Init} {w p wi : List Token} (hs : SpecsT specs w) (hp : PtrToks false p)
      (hi : InitT i wi) : ParamT specs (.mk (ptrTrees p) .none) i (w ++ (p ++ wi))

end

/-- A declarator with a name. -/
inductive DcorT : Dcor → List Token → Prop where
  | mk {p w w' w'' : List Token} {ns : List NComp} {u : Unqual} {ps : List Prod} (hp : PtrToks false p)
      (hn : CompsT ns w) (hu : LastT u w') (hf : SufsT ps w'') :
      DcorT (.mk (ps ++ ptrTrees p) (.mk ns u)) (p ++ (w ++ (w' ++ w'')))

/-- Declarators of variables with their initializers. -/
inductive VarsT : List InitDcor → List Token → Prop where
  | last {d : Dcor} {i : Init} {w w' : List Token} (h : DcorT d w) (hv : d.isFunction = false) (hi : InitT i w') :
      VarsT [.mk d i noTok] (w ++ w')
  | more {d : Dcor} {i : Init} {m : Token} {ds : List InitDcor} {w w' w'' : List Token} (h : DcorT d w)
      (hv : d.isFunction = false) (hi : InitT i w') (hm : m.type = .comma) (r : VarsT ds w'') :
      VarsT (.mk d i m :: ds) (w ++ (w' ++ m :: w''))

/-! ## Scopes that are skipped -/

/-- Tokens in which parentheses, brackets and braces match. -/
inductive Bal : List Token → Prop where
  | nil : Bal []
  | tok {t : Token} {w : List Token} (hv : skipped t.type = false)
      (h : t.type ∉ [TT.openCurly, .closeCurly, .openParen, .closeParen, .openSquare, .closeSquare, .endOfFile])
      (r : Bal w) : Bal (t :: w)
  | curly {o c : Token} {w w' : List Token} (ho : o.type = .openCurly) (hc : c.type = .closeCurly) (h : Bal w)
      (r : Bal w') : Bal (o :: (w ++ c :: w'))
  | paren {o c : Token} {w w' : List Token} (ho : o.type = .openParen) (hc : c.type = .closeParen) (h : Bal w)
      (r : Bal w') : Bal (o :: (w ++ c :: w'))
  | square {o c : Token} {w w' : List Token} (ho : o.type = .openSquare) (hc : c.type = .closeSquare) (h : Bal w)
      (r : Bal w') : Bal (o :: (w ++ c :: w'))

/-- What ends the declaration of a function: a semicolon, perhaps behind `= 0` or the like, or a body. -/
inductive FuncEndT : Init → Token → List Token → Prop where
  | semi {s : Token} (h : s.type = .semicolon) : FuncEndT .none s [s]
  | assign {eq s e semi : Token} {w : List Token} (h : eq.type = .singleEqual) (r : ExprT s e w)
      (hs : semi.type = .semicolon) : FuncEndT (.assignExpr eq noTok noTok) semi (eq :: (w ++ [semi]))
  | body {o c : Token} {w : List Token} (ho : o.type = .openCurly) (hb : Bal w) (hc : c.type = .closeCurly) :
      FuncEndT (.body noTok o c) noTok (o :: (w ++ [c]))

/-! ## Declarations -/

/-- The name of a class or enumeration, or none. -/
def OptQIdT (q : QId) (w : List Token) : Prop := (q = .none ∧ w = []) ∨ QIdT q w

/-- The name of a class, with `final` or without. -/
inductive HeadT : QId → List Token → List Token → Prop where
  | none : HeadT .none [] []
  | name {q : QId} {w : List Token} (h : QIdT q w) : HeadT q [] w
  | final {q : QId} {f : Token} {w : List Token} (h : QIdT q w) (hf : Word (bs ['f', 'i', 'n', 'a', 'l']) f) : HeadT q [f] (w ++ [f])

/-- The base class, or none.  (More than one: see `C74_base_comma`.) -/
inductive BasesT : Token → List Base → List Token → Prop where
  | none : BasesT noTok [] []
  | one {colon : Token} {q : QId} {w : List Token} (h : Sym .singleColon colon) (hq : QIdT q w) :
      BasesT colon [.mk noTok q noTok] (colon :: w)
  | access {colon a : Token} {q : QId} {w : List Token} (h : Sym .singleColon colon)
      (ha : a.type = .identifier ∧ a.text ∈ [(bs ['p', 'u', 'b', 'l', 'i', 'c']), (bs ['p', 'r', 'i', 'v', 'a', 't', 'e']), (bs ['p', 'r', 'o', 't', 'e', 'c', 't', 'e', 'd'])]) (hq : QIdT q w) :
      BasesT colon [.mk a q noTok] (colon :: a :: w)

/-- What stands between `enum` and the opening brace: `class`, the name and the type below it, each optional;
only enumerations with a name have a type below them. -/
inductive EnumHeadT : Token → QId → Token → QId → List Token → Prop where
  | none : EnumHeadT noTok .none noTok .none []
  | name {q : QId} {w : List Token} (h : QIdT q w) : EnumHeadT noTok q noTok .none w
  | base {colon : Token} {q b : QId} {w w' : List Token} (h : QIdT q w) (hc : colon.type = .singleColon)
      (hb : QIdT b w') : EnumHeadT noTok q colon b (w ++ colon :: w')
  | cls {cls : Token} {q : QId} {w : List Token} (hl : Word (bs ['c', 'l', 'a', 's', 's']) cls) (h : QIdT q w) :
      EnumHeadT cls q noTok .none (cls :: w)
  | clsBase {cls colon : Token} {q b : QId} {w w' : List Token} (hl : Word (bs ['c', 'l', 'a', 's', 's']) cls) (h : QIdT q w)
      (hc : colon.type = .singleColon) (hb : QIdT b w') : EnumHeadT cls q colon b (cls :: (w ++ colon :: w'))

/-- The enumerators, up to and with the closing brace. -/
inductive EnorsT : List Enor → Token → List Token → Prop where
  | nil {c : Token} (h : c.type = .closeCurly) : EnorsT [] c [c]
  | last {n c : Token} {i : Init} {w : List Token} (hn : Name n) (hi : InitT i w) (hc : c.type = .closeCurly) :
      EnorsT [.mk n i noTok] c (n :: (w ++ [c]))
  | more {n m c : Token} {i : Init} {l : List Enor} {w w' : List Token} (hn : Name n) (hi : InitT i w)
      (hm : m.type = .comma) (r : EnorsT l c w') : EnorsT (.mk n i m :: l) c (n :: (w ++ m :: w'))

/-- The parameters of a template, up to and with the closing token: type parameters. -/
inductive TParamsT : List Param → Token → List Token → Prop where
  | last {t n c : Token} (ht : Word (bs ['t', 'y', 'p', 'e', 'n', 'a', 'm', 'e']) t) (hn : Name n) (hc : c.type = .closeAngle) :
      TParamsT [.mk [.typeParam t noTok n] (.mk [] (.mk [] (.ident n))) .none noTok] c [t, n, c]
  | more {t n m c : Token} {l : List Param} {w : List Token} (ht : Word (bs ['t', 'y', 'p', 'e', 'n', 'a', 'm', 'e']) t) (hn : Name n)
      (hm : m.type = .comma) (r : TParamsT l c w) :
      TParamsT (.mk [.typeParam t noTok n] (.mk [] (.mk [] (.ident n))) .none m :: l) c (t :: n :: m :: w)

mutual

/-- A class or an enumeration. -/
inductive TypeT : Spec → List Token → Prop where
  | decl {key : Token} {q : QId} {w : List Token}
      (hk : key.type = .identifier ∧ key.text ∈ [(bs ['s', 't', 'r', 'u', 'c', 't']), (bs ['c', 'l', 'a', 's', 's']), (bs ['u', 'n', 'i', 'o', 'n'])]) (hq : QIdT q w) :
      TypeT (.record key q [] noTok [] noTok noTok []) (key :: w)
  | record {key colon o c : Token} {q : QId} {virts : List Token} {bases : List Base} {ds : List Decl}
      {w w' w'' : List Token} (hk : key.type = .identifier ∧ key.text ∈ [(bs ['s', 't', 'r', 'u', 'c', 't']), (bs ['c', 'l', 'a', 's', 's']), (bs ['u', 'n', 'i', 'o', 'n'])])
      (hq : HeadT q virts w) (hb : BasesT colon bases w') (ho : Sym .openCurly o)
      (hd : DeclsT q.className ds w'') (hc : c.type = .closeCurly) :
      TypeT (.record key q virts colon bases o c ds) (key :: (w ++ (w' ++ o :: (w'' ++ [c]))))
  | enum {key cls colon o c : Token} {q base : QId} {es : List Enor} {w w' : List Token} (hk : Word (bs ['e', 'n', 'u', 'm']) key)
      (hh : EnumHeadT cls q colon base w) (ho : o.type = .openCurly) (he : EnorsT es c w') :
      TypeT (.enum key cls q colon base o c es) (key :: (w ++ o :: w'))

/-- A declaration in the class `cls`. -/
inductive DeclT : List Byte → Decl → List Token → Prop where
  | empty {cls : List Byte} {s : Token} (h : s.type = .semicolon) : DeclT cls (.empty s) [s]
  | vars {cls : List Byte} {specs : List Spec} {ds : List InitDcor} {semi : Token} {w w' : List Token}
      (hs : SpecsT specs w) (hd : VarsT ds w') (h : semi.type = .semicolon) :
      DeclT cls (.simple specs ds semi) (w ++ (w' ++ [semi]))
  | func {cls : List Byte} {specs : List Spec} {d : Dcor} {i : Init} {semi : Token} {w w' w'' : List Token}
      (hs : SpecsT specs w) (hd : DcorT d w') (hf : d.isFunction = true) (he : FuncEndT i semi w'') :
      DeclT cls (.simple specs [.mk d i noTok] semi) (w ++ (w' ++ w''))
  | dtor {cls : List Byte} {t n : Token} {pl : Params} {quals : List Token} {i : Init} {semi : Token} {k w w' : List Token}
      (hk : Kws k) (ht : t.type = .tilde) (hn : Name n) (hp : ParamsT pl w) (hq : QualsT quals)
      (he : FuncEndT i semi w') :
      DeclT cls (.simple (k.map .keyword) [.mk (.mk [.func pl quals noTok .none] (.mk [] (.dtor t n))) i noTok] semi)
        (k ++ (t :: n :: (w ++ (quals ++ w'))))
  | ctor {n : Token} {pl : Params} {quals : List Token} {i : Init} {semi : Token} {k w w' : List Token}
      (hk : Kws k) (hn : Name n) (h0 : n.text ≠ []) (hp : ParamsT pl w) (hq : QualsT quals) (he : FuncEndT i semi w') :
      DeclT n.text (.simple (k.map .keyword) [.mk (.mk [.func pl quals noTok .none] (.mk [] (.ident n))) i noTok] semi)
        (k ++ (n :: (w ++ (quals ++ w'))))
  | access {cls : List Byte} {t c : Token}
      (h : t.type = .identifier ∧ t.text ∈ [(bs ['p', 'u', 'b', 'l', 'i', 'c']), (bs ['p', 'r', 'i', 'v', 'a', 't', 'e']), (bs ['p', 'r', 'o', 't', 'e', 'c', 't', 'e', 'd'])]) (hc : c.type = .singleColon) :
      DeclT cls (.access t c) [t, c]
  | staticAssert {cls : List Byte} {t o c s : Token} {w : List Token} (h : Word (bs ['s', 't', 'a', 't', 'i', 'c', '_', 'a', 's', 's', 'e', 'r', 't']) t)
      (ho : o.type = .openParen) (hb : Bal w) (hc : c.type = .closeParen) (hs : s.type = .semicolon) :
      DeclT cls (.staticAssert t o c s) (t :: o :: (w ++ [c, s]))
  | ns {cls : List Byte} {t o c : Token} {q : QId} {ds : List Decl} {w w' : List Token} (h : Word (bs ['n', 'a', 'm', 'e', 's', 'p', 'a', 'c', 'e']) t)
      (hq : OptQIdT q w) (ho : o.type = .openCurly) (hd : DeclsT [] ds w') (hc : c.type = .closeCurly) :
      DeclT cls (.ns t q o c ds) (t :: (w ++ o :: (w' ++ [c])))
  | usingDir {cls : List Byte} {u n s : Token} {q : QId} {w : List Token} (hu : Word (bs ['u', 's', 'i', 'n', 'g']) u)
      (hn : Word (bs ['n', 'a', 'm', 'e', 's', 'p', 'a', 'c', 'e']) n) (hq : QIdT q w) (hs : s.type = .semicolon) :
      DeclT cls (.usingDir u n q s) (u :: n :: (w ++ [s]))
  | alias {cls : List Byte} {u n e s : Token} {specs : List Spec} {abs : List Prod} {w : List Token}
      (hu : Word (bs ['u', 's', 'i', 'n', 'g']) u) (hn : Name n) (he : e.type = .singleEqual) (ht : TypeIdT specs abs w)
      (hs : s.type = .semicolon) : DeclT cls (.alias u n e specs (.mk abs .none) s) (u :: n :: e :: (w ++ [s]))
  | linkage {cls : List Byte} {e l o c : Token} {ds : List Decl} {w : List Token} (he : Word (bs ['e', 'x', 't', 'e', 'r', 'n']) e)
      (hl : l.type = .stringLiteral) (ho : o.type = .openCurly) (hd : DeclsT [] ds w) (hc : c.type = .closeCurly) :
      DeclT cls (.linkage e l o c ds) (e :: l :: o :: (w ++ [c]))
  | tmpl {cls : List Byte} {t o c : Token} {ps : List Param} {d : Decl} {w w' : List Token} (h : Word (bs ['t', 'e', 'm', 'p', 'l', 'a', 't', 'e']) t)
      (ho : o.type = .openAngle) (hp : TParamsT ps c w) (hd : DeclT cls d w') :
      DeclT cls (.tmpl t (.mk o c ps) d) (t :: o :: (w ++ w'))

/-- The declaration of a type, perhaps of a template, without the semicolon. -/
inductive TypeDeclT : List Byte → Decl → List Token → Prop where
  | type {cls : List Byte} {k : List Token} {s : Spec} {w : List Token} (hk : Kws k) (h : TypeT s w) :
      TypeDeclT cls (.simple (k.map .keyword ++ [s]) [] noTok) (k ++ w)
  | tmpl {cls : List Byte} {t o c : Token} {ps : List Param} {d : Decl} {w w' : List Token} (h : Word (bs ['t', 'e', 'm', 'p', 'l', 'a', 't', 'e']) t)
      (ho : o.type = .openAngle) (hp : TParamsT ps c w) (hd : TypeDeclT cls d w') :
      TypeDeclT cls (.tmpl t (.mk o c ps) d) (t :: o :: (w ++ w'))

/-- Declarations.  The semicolon behind a class or an enumeration is a declaration of its own. -/
inductive DeclsT : List Byte → List Decl → List Token → Prop where
  | nil {cls : List Byte} : DeclsT cls [] []
  | cons {cls : List Byte} {d : Decl} {ds : List Decl} {w w' : List Token} (h : DeclT cls d w)
      (r : DeclsT cls ds w') : DeclsT cls (d :: ds) (w ++ w')
  | type {cls : List Byte} {d : Decl} {semi : Token} {ds : List Decl} {w w' : List Token} (h : TypeDeclT cls d w)
      (hs : Sym .semicolon semi) (r : DeclsT cls ds w') :
      DeclsT cls (d :: .empty semi :: ds) (w ++ semi :: w')

end

end Verif.CppParse
