import Verif.Cpp.Model
/-!
# The parser for C++ — model: the syntax tree, the state, and reading tokens

repos/plywood/src/cpp/ply-cpp/ (here `cpp/`): Grammar.h, Parser.h, Parser.cpp, ParseMisc.cpp, RestorePoint.h
and ParseDeclarations.h.  The functions that parse are in `ModelGo`.
-/
namespace Verif.CppParse
open Verif Verif.Cpp

/-! ## The syntax tree -/

mutual

/-- `grammar::UnqualifiedID`, cpp/Grammar.h. -/
inductive Unqual where
  | empty
  | ident (name : Token)
  | templateId (name openA closeA : Token) (args : List TArg)
  | declType (keyword openP closeP : Token)
  | dtor (tilde name : Token)
  | opFunc (keyword punc punc2 : Token)
  | conv (keyword : Token) (specs : List Spec) (abs : List Prod)

/-- `grammar::NestedNameComponent`, cpp/Grammar.h. -/
inductive NComp where
  | ident (name openA closeA : Token) (args : List TArg) (sep : Token)
  | declType (keyword openP closeP sep : Token)

/-- `grammar::TemplateArgumentWithComma`, cpp/Grammar.h. -/
inductive TArg where
  | unknown (start stop comma : Token)
  | typeId (specs : List Spec) (abs : List Prod) (comma : Token)

/-- `grammar::QualifiedID`, cpp/Grammar.h. -/
inductive QId where
  | mk (nested : List NComp) (unqual : Unqual)

/-- `grammar::DeclSpecifier`, cpp/Grammar.h (`wasAssumed` is never set). -/
inductive Spec where
  | keyword (token : Token)
  | linkage (extern literal : Token)
  | record (key : Token) (qid : QId) (virts : List Token) (colon : Token) (bases : List Base)
      (openC closeC : Token) (decls : List Decl)
  | enum (enumKey classKey : Token) (qid : QId) (basePunc : Token) (base : QId) (openC closeC : Token)
      (enors : List Enor)
  | typeId (typename : Token) (qid : QId)
  | typeParam (keyword ellipsis ident : Token)
  | ellipsis (token : Token)

/-- `grammar::BaseSpecifierWithComma`, cpp/Grammar.h. -/
inductive Base where
  | mk (access : Token) (qid : QId) (comma : Token)

/-- `grammar::InitEnumeratorWithComma`, cpp/Grammar.h. -/
inductive Enor where
  | mk (ident : Token) (init : Init) (comma : Token)

/-- `grammar::DeclaratorProduction`, cpp/Grammar.h, without `target`: a chain of productions is a list, the
target of each being what follows it. -/
inductive Prod where
  | paren (openP closeP : Token)
  | ptr (nested : List NComp) (punc : Token)
  | array (openS closeS : Token)
  | func (params : Params) (quals : List Token) (arrow : Token) (ret : QId)
  | qual (keyword : Token)

/-- `grammar::ParamDeclarationList`, cpp/Grammar.h. -/
inductive Params where
  | mk (openP closeP : Token) (params : List Param)

/-- `grammar::ParamDeclarationWithComma`, cpp/Grammar.h. -/
inductive Param where
  | mk (specs : List Spec) (dcor : Dcor) (init : Init) (comma : Token)

/-- `grammar::Declarator`, cpp/Grammar.h: the chain of productions and the name. -/
inductive Dcor where
  | mk (prods : List Prod) (qid : QId)

/-- `grammar::Initializer` and `grammar::AssignmentType`, cpp/Grammar.h (the member initializers are never
filled in). -/
inductive Init where
  | none
  | assignExpr (equal start stop : Token)
  | assignType (equal : Token) (specs : List Spec) (abs : List Prod)
  | body (colon openC closeC : Token)
  | bits (colon start stop : Token)

/-- `grammar::InitDeclaratorWithComma`, cpp/Grammar.h. -/
inductive InitDcor where
  | mk (dcor : Dcor) (init : Init) (comma : Token)

/-- `grammar::Declaration`, cpp/Grammar.h.  What the supervisor puts into `visor_decls` and `visor_decl` is
here put there by the functions that parse. -/
inductive Decl where
  | ns (keyword : Token) (qid : QId) (openC closeC : Token) (decls : List Decl)
  | tmpl (keyword : Token) (params : Params) (decl : Decl)
  | simple (specs : List Spec) (dcors : List InitDcor) (semi : Token)
  | access (keyword colon : Token)
  | staticAssert (keyword openP closeP semi : Token)
  | usingDir (using_ namespace_ : Token) (qid : QId) (semi : Token)
  | alias (using_ name equals : Token) (specs : List Spec) (dcor : Dcor) (semi : Token)
  | linkage (extern literal openC closeC : Token) (decls : List Decl)
  | empty (semi : Token)

end

/-- `Token::isValid`, cpp/Token.h. -/
def valid (t : Token) : Bool := decide (t.type ≠ .invalid)

/-- A token that is not there. -/
def noTok : Token := {}

/-- An empty `QualifiedID`. -/
def QId.none : QId := .mk [] .empty

/-- `nestedName` of a `QualifiedID`. -/
def QId.nested : QId → List NComp
  | .mk n _ => n

/-- `unqual` of a `QualifiedID`. -/
def QId.unqual : QId → Unqual
  | .mk _ u => u

/-- `unqual.empty()`. -/
def Unqual.isEmpty : Unqual → Bool
  | .empty => true
  | _ => false

/-- `QualifiedID::isEmpty`, cpp/Grammar.h. -/
def QId.isEmpty (q : QId) : Bool := q.nested.isEmpty && q.unqual.isEmpty

/-- `QualifiedID::isNestedNameOnly`, cpp/Grammar.h. -/
def QId.isNestedOnly (q : QId) : Bool := !q.nested.isEmpty && q.unqual.isEmpty

/-- `QualifiedID::isComplete`, cpp/Grammar.h. -/
def QId.isComplete (q : QId) : Bool := !q.unqual.isEmpty

/-- `QualifiedID::getClassName`, cpp/Grammar.h. -/
def QId.className (q : QId) : List Byte :=
  match q.unqual with
  | .ident name => name.text
  | .templateId name _ _ _ => name.text
  | _ => []

/-- `UnqualifiedID::getCtorDtorName`, cpp/Grammar.cpp:12-21. -/
def Unqual.ctorDtorName : Unqual → List Byte
  | .ident name => name.text
  | .dtor _ name => name.text
  | .templateId name _ _ _ => name.text
  | _ => []

/-- `NestedNameComponent::getFirstToken`, cpp/Grammar.cpp:80-94. -/
def NComp.first : NComp → Token
  | .ident name _ _ _ _ => name
  | .declType keyword _ _ _ => keyword

/-- `UnqualifiedID::getFirstToken`, cpp/Grammar.cpp:96-124. -/
def Unqual.first : Unqual → Token
  | .empty => noTok
  | .ident name => name
  | .templateId name _ _ _ => name
  | .declType keyword _ _ => keyword
  | .dtor tilde _ => tilde
  | .opFunc keyword _ _ => keyword
  | .conv keyword _ _ => keyword

/-- `QualifiedID::getFirstToken`, cpp/Grammar.cpp:127-133. -/
def QId.first (q : QId) : Token :=
  match q.nested with
  | c :: _ => c.first
  | [] => q.unqual.first

/-- `prod` of a `Declarator`. -/
def Dcor.prods : Dcor → List Prod
  | .mk p _ => p

/-- `qid` of a `Declarator`. -/
def Dcor.qid : Dcor → QId
  | .mk _ q => q

/-- `Declarator::isFunction`, cpp/Grammar.h. -/
def Dcor.isFunction (d : Dcor) : Bool :=
  match d.prods with
  | .func _ _ _ _ :: _ => true
  | _ => false

/-- `init.functionBody()`. -/
def Init.isBody : Init → Bool
  | .body _ _ _ => true
  | _ => false

/-- `isTypeDeclaration`, cpp/ParseDeclarations.cpp:26-37, for one specifier. -/
def Spec.isType : Spec → Bool
  | .record _ _ _ _ _ _ _ _ => true
  | .enum _ _ _ _ _ _ _ _ => true
  | _ => false

/-! ## Errors and the state -/

/-- `ExpectedToken`, cpp/Parser.h:60-91. -/
inductive Exp where
  | none | identifier | nestedNamePrefix | openParen | openCurly | openAngle | openCurlyOrParen
  | closeParen | closeSquare | destructorClassName | operatorToken | colon | equal | qualifiedID
  | unqualifiedID | semicolon | comma | commaOrCloseParen | commaOrCloseCurly | commaOrOpenCurly
  | declaration | enumeratorOrCloseCurly | commaOrCloseAngle | trailingReturnType | baseOrMember
  | parameterType | templateParameterDecl | typeSpecifier | classKeyword
  deriving DecidableEq, Repr

/-- `ParseError::Type`, cpp/Parser.h:94-111. -/
inductive PET where
  | invalid | expected | unexpectedEOF | unclosedToken | missingCommaAfterEnumerator
  | unmatchedCloseToken | qualifierNotAllowedHere | typeIDCannotHaveName | nestedNameNotAllowedHere
  | tooManyTypeSpecifiers | expectedFunctionBodyAfterMemberInitList | cantMixFunctionDefAndDecl
  | scopedEnumRequiresName | missingDeclaration | duplicateVirtSpecifier
  deriving DecidableEq, Repr

/-- `ParseError`, cpp/Parser.h:93-125. -/
structure PErr where
  type : PET
  token : Token
  expected : Exp := .none
  preceding : Token := {}
  deriving DecidableEq, Repr

/-- `outerAcceptFlags`, cpp/Parser.h:128-134 (`AcceptComma` and `AcceptSemicolon` are never used). -/
structure Accept where
  openCurly : Bool := false
  closeCurly : Bool := false
  closeParen : Bool := false
  closeSquare : Bool := false
  closeAngle : Bool := false
  deriving DecidableEq, Repr

/-- Where tokens come from.  `next angles s` is the next token that is not a comment, directive or macro, and
the tokens of those kinds before it, when `tokenizeCloseAnglesOnly` is `angles`.  `none` = assertion in the
tokenizer.  That several comments are read at once is a simplification of cpp/ParseMisc.cpp:99-117. -/
class Source (σ : Type) where
  next : Bool → σ → Option (List Token × Token × σ)

/-- `Parser`, cpp/Parser.h:127-164, with `tokenizeCloseAnglesOnly` of the preprocessor (`angles`), what was
passed to the error handler (`errs`) and to `gotMacroOrComment` (`seen`).  `passNumber` is always 1;
`atDeclarationScope` is never read. -/
structure P (σ : Type) where
  src : σ
  angles : Bool := false
  restore : Bool := false
  queue : List Token := []
  pos : Nat := 0
  raw : Nat := 0
  mute : Bool := false
  accept : Accept := {}
  errs : List PErr := []
  seen : List Token := []

/-- Why there is no result: an assertion failed, or the number of steps allowed was not enough. -/
inductive Stop where
  | assert | fuel
  deriving DecidableEq, Repr

/-- The result of a function on the parser. -/
inductive R (σ β : Type) where
  | ok (b : β) (p : P σ)
  | stop (s : Stop)

/-- A function on the parser. -/
def M (σ β : Type) : Type := P σ → R σ β

/-- One after the other. -/
def M.bind {σ α β : Type} (m : M σ α) (f : α → M σ β) : M σ β := fun p =>
  match m p with
  | .ok a q => f a q
  | .stop s => .stop s

instance {σ : Type} : Monad (M σ) where
  pure a := fun p => .ok a p
  bind := M.bind

/-- `PLY_ASSERT`. -/
def check {σ : Type} (b : Bool) : M σ Unit := fun p => if b = true then .ok () p else .stop .assert

/-- The state. -/
def getP {σ : Type} : M σ (P σ) := fun p => .ok p p

/-- Change of the state. -/
def modP {σ : Type} (f : P σ → P σ) : M σ Unit := fun p => .ok () (f p)

/-! ## Reading tokens -/

/-- The kinds of tokens that the parser does not see, cpp/ParseMisc.cpp:104-107. -/
def skipped (t : TT) : Bool :=
  t == .cStyleComment || t == .lineComment || t == .directive || t == .macro

/-- `Token::operator==`, cpp/Token.h:82-91. -/
def sameTok (a b : Token) : Bool :=
  if a.type ≠ b.type then false
  else if a.type = .identifier ∨ a.type = .numericLiteral then decide (a.text = b.text)
  else true

/-- `readToken`, cpp/ParseMisc.cpp:78-117, as long as tokens are taken from the queue; `l` is what is left of
the queue.  `none` = the queue is empty. -/
def readQueued {σ : Type} : List Token → P σ → R σ (Option Token)
  | [], p => .ok none p
  | t :: l, p =>
    if p.restore = false ∧ p.pos ≠ 0 then .stop .assert
    else
      let p' : P σ := if p.restore = true then { p with pos := p.pos + 1 } else { p with queue := l }
      if skipped t.type = true then readQueued l { p' with seen := p'.seen ++ [t] }
      else .ok (some t) p'

variable {σ : Type} [Source σ]

/-- `readToken`, cpp/ParseMisc.cpp:78-117. -/
def readToken : M σ Token := fun p =>
  match readQueued (p.queue.drop p.pos) p with
  | .stop s => .stop s
  | .ok (some t) q => .ok t q
  | .ok none q =>
    match Source.next q.angles q.src with
    | none => .stop .assert
    | some (cs, t, src) =>
      if q.restore = true then
        .ok t { q with src := src, queue := q.queue ++ cs ++ [t], pos := q.pos + cs.length + 1,
                       seen := q.seen ++ cs }
      else .ok t { q with src := src, seen := q.seen ++ cs }

omit [Source σ] in
/-- `pushBackToken`, cpp/ParseMisc.cpp:119-126. -/
def pushBack (t : Token) : M σ Unit := fun p =>
  if p.pos > 0 then
    match p.queue[p.pos - 1]? with
    | none => .stop .assert
    | some u => if sameTok u t = true then .ok () { p with pos := p.pos - 1 } else .stop .assert
  else .ok () { p with queue := t :: p.queue }

/-- Reading a token and pushing it back, as done at many places. -/
def peek : M σ Token := do
  let t ← readToken
  pushBack t
  return t

omit [Source σ] in
/-- `Parser::error`, cpp/Parser.cpp:11-24. -/
def error (beginMuting : Bool) (e : PErr) : M σ Unit := modP fun p =>
  let p := { p with raw := p.raw + 1 }
  if p.restore = true then p
  else
    { p with errs := if p.mute = true then p.errs else p.errs ++ [e],
             mute := if beginMuting = true then true else p.mute }

omit [Source σ] in
/-- `parser->error(true, {ParseError::Expected, …})`. -/
def expected (t : Token) (x : Exp) (prec : Token := {}) : M σ Unit := error true ⟨.expected, t, x, prec⟩

omit [Source σ] in
/-- `stopMutingErrors`, cpp/Parser.h:158-160. -/
def unmute : M σ Unit := modP fun p => { p with mute := false }

/-- Whether a token ends the scope that the given flags describe, cpp/ParseMisc.cpp:129-166. -/
def leaves (a : Accept) : TT → Bool
  | .openCurly => a.openCurly
  | .closeCurly => a.closeCurly
  | .closeParen => a.closeParen
  | .closeAngle => a.closeAngle
  | .closeSquare => a.closeSquare
  | _ => false

omit [Source σ] in
/-- `okToStayInScope`, cpp/ParseMisc.cpp:128-171. -/
def okToStay (t : Token) : M σ Bool := do
  let p ← getP
  if leaves p.accept t.type = true then
    pushBack t
    return false
  else return decide (t.type ≠ .endOfFile)

/-- The type behind the given one in the enumeration, for opening punctuation: `openToken.type + 1`,
cpp/ParseMisc.cpp:181 and cpp/ParseSpecifiersAndDeclarators.cpp:104. -/
def closing : TT → TT
  | .openCurly => .closeCurly
  | .openParen => .closeParen
  | .openAngle => .closeAngle
  | .openSquare => .closeSquare
  | _ => .invalid

/-- `SetAcceptFlagsInScope::SetAcceptFlagsInScope`, cpp/ParseMisc.cpp:260-294: the flags and
`tokenizeCloseAnglesOnly` inside. -/
def scopeFlags (a : Accept) : TT → Option (Accept × Bool)
  | .openCurly => some ({ closeCurly := true }, false)
  | .openParen => some ({ a with closeParen := true, closeAngle := false }, false)
  | .openAngle => some ({ a with closeAngle := true }, true)
  | .openSquare => some ({ a with closeSquare := true, closeAngle := false }, false)
  | _ => none

omit [Source σ] in
/-- The life of a `SetAcceptFlagsInScope`, cpp/ParseMisc.cpp:260-299. -/
def inScope {β : Type} (t : TT) (m : M σ β) : M σ β := fun p =>
  match scopeFlags p.accept t with
  | none => .stop .assert
  | some (a, b) =>
    match m { p with accept := a, angles := b } with
    | .ok r q => .ok r { q with accept := p.accept, angles := p.angles }
    | .stop s => .stop s

omit [Source σ] in
/-- `PLY_SET_IN_SCOPE(parser->pp->tokenizeCloseAnglesOnly, true)`. -/
def withAngles {β : Type} (m : M σ β) : M σ β := fun p =>
  match m { p with angles := true } with
  | .ok r q => .ok r { q with angles := p.angles }
  | .stop s => .stop s

omit [Source σ] in
/-- `PLY_SET_IN_SCOPE(parser->outerAcceptFlags, parser->outerAcceptFlags | AcceptOpenCurly)`,
cpp/ParseSpecifiersAndDeclarators.cpp:396. -/
def acceptingCurly {β : Type} (m : M σ β) : M σ β := fun p =>
  match m { p with accept := { p.accept with openCurly := true } } with
  | .ok r q => .ok r { q with accept := p.accept }
  | .stop s => .stop s

/-! ## Restore points -/

/-- `RestorePoint`, cpp/RestorePoint.h:12-16. -/
structure RP where
  was : Bool
  pos : Nat
  raw : Nat
  deriving DecidableEq, Repr

omit [Source σ] in
/-- `RestorePoint::RestorePoint`, cpp/RestorePoint.h:18-35. -/
def mark : M σ RP := fun p =>
  if p.restore = false ∧ p.pos ≠ 0 then .stop .assert
  else .ok ⟨p.restore, p.pos, p.raw⟩ { p with restore := true }

omit [Source σ] in
/-- `errorOccurred` of `RestorePoint`, cpp/RestorePoint.h:41-43, and of `ParseActivity`,
cpp/ParseDeclarations.h:54-56. -/
def failedSince (raw : Nat) : M σ Bool := fun p => .ok (decide (p.raw ≠ raw)) p

omit [Source σ] in
/-- `RestorePoint::backtrack`, cpp/RestorePoint.h:44-48. -/
def RP.backtrack (r : RP) : M σ Unit := modP fun p => { p with pos := r.pos, raw := r.raw }

omit [Source σ] in
/-- `RestorePoint::cancel`, cpp/RestorePoint.h:49-59; also `~RestorePoint`, lines 36-40. -/
def RP.cancel (r : RP) : M σ Unit := fun p =>
  if p.raw ≠ r.raw then .stop .assert
  else if r.pos = 0 then
    if r.was = true then .stop .assert
    else .ok () { p with restore := r.was, queue := p.queue.drop p.pos, pos := 0 }
  else .ok () { p with restore := r.was }

/-- `ParseActivity::ParseActivity`, cpp/ParseDeclarations.h:47-52: `savedErrorCount` and
`savedTokenLoc`. -/
def activity : M σ (Nat × Int) := do
  let p ← getP
  let t ← peek
  return (p.raw, t.loc)

omit [Source σ] in
/-- `ParseActivity::anyTokensConsumed`, cpp/ParseDeclarations.h:58-62. -/
def anyTokensConsumed (loc : Int) : M σ Bool := fun p =>
  match p.queue with
  | [] => .ok false p
  | t :: _ => .ok (decide (t.loc = loc)) p

end Verif.CppParse
