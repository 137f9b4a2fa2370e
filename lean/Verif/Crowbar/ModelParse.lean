import Verif.Crowbar.ModelTok

/-!
# The Crowbar parser

`cb/` is `crowbar/ply-crowbar/`.  The hooks of the host are the default ones of cb/Parser.h:17-22 (no custom
blocks, no expression traits); `onError` records the error.  The positions stored in the tree for error
messages at run time are left out.  Every function that may call itself takes a number of nested calls it may
make; running out of it is `Res.deep`, an assertion is `Res.assert`.
-/

namespace Verif.Crowbar

/-- `MethodTable::UnaryOp`, reflect/ply-reflect/methods/MethodTable.h:24-44, the operators of the language. -/
inductive UnOp | negate | logicalNot | bitComplement
  deriving DecidableEq, Repr

/-- `MethodTable::BinaryOp`, reflect/ply-reflect/methods/MethodTable.h:46-68. -/
inductive BinOp
  | multiply | divide | modulo | add | subtract
  | lessThan | lessThanOrEqual | greaterThan | greaterThanOrEqual | doubleEqual
  | logicalAnd | logicalOr
  deriving DecidableEq, Repr

mutual
/-- `Expression`, cb/ParseTree.h:14-49.  `null` is an empty `Owned<Expression>`. -/
inductive Expr
  | null
  | name (n : List Byte)
  | int (v : Nat)
  | str (pieces : List Piece)
  | prop (obj : Expr) (n : List Byte)
  | bin (op : BinOp) (left right : Expr)
  | un (op : UnOp) (e : Expr)
  | call (callable : Expr) (args : List Expr)

/-- `Expression::InterpolatedString::Piece`, cb/ParseTree.h:25-28. -/
inductive Piece
  | mk (literal : List Byte) (embed : Expr)
end

/-- `Statement`, cb/ParseTree.h:51-92, without custom blocks.  `none` is an empty
`Owned<StatementBlock>`. -/
inductive Stmt
  | if_ (cond : Expr) (t f : Option (List Stmt))
  | while_ (cond : Expr) (body : Option (List Stmt))
  | assign (left right : Expr)
  | eval (e : Expr)
  | ret (e : Expr)
  | func (name : List Byte) (params : List (List Byte)) (body : Option (List Stmt))

/-- The messages given to `onError`, by the place in cb/Parser.cpp they come from. -/
inductive ErrKind
  | commaOrParen | closeEmbed | closeParen | expression | property | trailing | statement
  | eofInBlock | braces | openCurly | parameter | commaAfterParameter | functionName | openParen | unexpected
  deriving DecidableEq, Repr

/-- `Parser::RecoveryState::outerAcceptFlags`, cb/Parser.h:34-37. -/
structure Accept where
  curly : Bool
  paren : Bool
  square : Bool
  deriving DecidableEq, Repr

/-- The state of parser and tokenizer: what is left of the input (`vin`), the token that was pushed back if
any, the two switches of `Tokenizer::Behavior` (cb/Tokenizer.h:110-113), `Parser::recovery` (cb/Parser.h:29-39)
and the errors given to the host.  Only the token read last is ever pushed back (the token queue of
`Tokenizer` as such is in `ModelStore`). -/
structure PS where
  total : Nat
  src : List Byte
  back : Option Tok
  nl : Bool
  inStr : Bool
  mute : Bool
  acc : Accept
  errs : List (Nat × ErrKind)
  deriving DecidableEq, Repr

/-- How a call ends: it returns, stops at an assertion, or needs more nested calls than allowed. -/
inductive Res (α : Type)
  | ok (a : α)
  | assert
  | deep
  deriving DecidableEq, Repr

/-- A member function of `Parser` or a function taking a `Parser*`. -/
def P (α : Type) := PS → Res (α × PS)

/-- Sequencing of C++ statements. -/
def P.bind (m : P α) (f : α → P β) : P β := fun s =>
  match m s with
  | .ok (a, s') => f a s'
  | .assert => .assert
  | .deep => .deep

instance : Monad P where
  pure a := fun s => .ok (a, s)
  bind := P.bind

/-- `PLY_ASSERT(0)`. -/
def failAssert : P α := fun _ => .assert

/-- The allowance of nested calls is used up. -/
def tooDeep : P α := fun _ => .deep

/-- `PLY_SET_IN_SCOPE(tkr->behavior.tokenizeNewLine, b)` around `m`. -/
def withNl (b : Bool) (m : P α) : P α := fun s =>
  match m { s with nl := b } with
  | .ok (a, s') => .ok (a, { s' with nl := s.nl })
  | .assert => .assert
  | .deep => .deep

/-- `PLY_SET_IN_SCOPE(tkr->behavior.insideString, b)` around `m`. -/
def withInStr (b : Bool) (m : P α) : P α := fun s =>
  match m { s with inStr := b } with
  | .ok (a, s') => .ok (a, { s' with inStr := s.inStr })
  | .assert => .assert
  | .deep => .deep

/-- `PLY_SET_IN_SCOPE(recovery.outerAcceptFlags, …)` around `m`. -/
def withAccept (f : Accept → Accept) (m : P α) : P α := fun s =>
  match m { s with acc := f s.acc } with
  | .ok (a, s') => .ok (a, { s' with acc := s.acc })
  | .assert => .assert
  | .deep => .deep

/-- `outerAcceptFlags | AcceptCloseParen`. -/
def Accept.orParen (a : Accept) : Accept := { a with paren := true }
/-- `outerAcceptFlags | AcceptCloseCurly`. -/
def Accept.orCurly (a : Accept) : Accept := { a with curly := true }
/-- `outerAcceptFlags | AcceptCloseSquare`. -/
def Accept.orSquare (a : Accept) : Accept := { a with square := true }

/-- `recovery.muteErrors = b`. -/
def setMute (b : Bool) : P Unit := fun s => .ok ((), { s with mute := b })
/-- `tkr->behavior.tokenizeNewLine = b`. -/
def setNl (b : Bool) : P Unit := fun s => .ok ((), { s with nl := b })

/-- A token taken from the input, cb/Tokenizer.cpp:272-484, inside or outside of a string. -/
def freshTok (s : PS) : Res (Tok × PS) :=
  if s.inStr then
    match s.src with
    | [] => .ok (⟨.endOfFile, s.total, []⟩, s)
    | _ :: _ =>
      match readStr [] s.src with
      | none => .assert
      | some (ty, text, rest) => .ok (⟨ty, s.total - s.src.length, text⟩, { s with src := rest })
  else
    let (t, rest) := lex s.total s.nl s.src
    .ok (t, { s with src := rest })

/-- `Tokenizer::readToken`, cb/Tokenizer.cpp:263-484: a token that was pushed back first (lines 265-270; a
pushed back end of line is dropped when ends of lines are not wanted). -/
def read : P Tok := fun s =>
  match s.back with
  | some t =>
    if t.ty = .newLine ∧ s.nl = false then freshTok { s with back := none }
    else .ok (t, { s with back := none })
  | none => freshTok s

/-- `Tokenizer::rewindTo(token.tokenIdx)`, cb/Tokenizer.h:120-123, for the token read last.  The end of the
file is not stored, so there is nothing to rewind. -/
def rewind (t : Tok) : P Unit := fun s =>
  if t.ty = .endOfFile then .ok ((), s) else .ok ((), { s with back := some t })

/-- `okToStayInScope`, cb/ParseUnexpected.cpp:11-40. -/
def okToStay (t : Tok) : P Bool := fun s =>
  if t.ty = .closeCurly ∧ s.acc.curly = true then .ok (false, { s with back := some t })
  else if t.ty = .closeParen ∧ s.acc.paren = true then .ok (false, { s with back := some t })
  else if t.ty = .closeSquare ∧ s.acc.square = true then .ok (false, { s with back := some t })
  else if t.ty = .endOfFile then .ok (false, s)
  else .ok (true, s)

/-- Whether a token opens a scope, cb/ParseUnexpected.cpp:76-78, 100-102. -/
def isOpen (ty : TokTy) : Bool := ty == .openCurly || ty == .openParen || ty == .openSquare

/-- `tokenTypeToAcceptCloseFlag`, cb/ParseUnexpected.cpp:42-55. -/
def acceptFor (ty : TokTy) : Accept → Accept :=
  if ty = .openCurly then Accept.orCurly else if ty = .openParen then Accept.orParen else Accept.orSquare

/-- `(TokenType)((u32) openTokenType + 1)`, cb/ParseUnexpected.cpp:60. -/
def closeFor (ty : TokTy) : TokTy :=
  if ty = .openCurly then .closeCurly else if ty = .openParen then .closeParen else .closeSquare

mutual
/-- `skipAnyScope`, cb/ParseUnexpected.cpp:57-86. -/
def skipAnyScope : Nat → TokTy → P Bool
  | 0, _ => tooDeep
  | n + 1, openTy => withAccept (acceptFor openTy) (skipLoop n (closeFor openTy))

/-- The loop of `skipAnyScope`, cb/ParseUnexpected.cpp:61-85. -/
def skipLoop : Nat → TokTy → P Bool
  | 0, _ => tooDeep
  | n + 1, closeTy => do
    let t ← read
    if t.ty = closeTy then pure true
    else do
      let stay ← okToStay t
      if stay = false then do
        setMute false
        pure false
      else if isOpen t.ty then do
        let _ ← skipAnyScope n t.ty
        skipLoop n closeTy
      else skipLoop n closeTy
end

/-- `handleUnexpectedToken`, cb/ParseUnexpected.cpp:94-114. -/
def handleUnexpected (n : Nat) (t : Tok) : P Bool := do
  let stay ← okToStay t
  if stay = false then pure false
  else if isOpen t.ty then do
    let _ ← skipAnyScope n t.ty
    pure true
  else pure true

/-- `ErrorTokenAction`, cb/Parser.h:51-55. -/
inductive Action | doNothing | pushBack | handle
  deriving DecidableEq, Repr

/-- `error`, cb/Parser.cpp:12-20: the message is given to the host unless errors are muted. -/
def report (t : Tok) (k : ErrKind) : P Unit := fun s =>
  .ok ((), { s with mute := true, errs := if s.mute then s.errs else s.errs ++ [(t.off, k)] })

/-- `error`, cb/Parser.cpp:12-29. -/
def error (n : Nat) (t : Tok) (a : Action) (k : ErrKind) : P Bool := do
  report t k
  match a with
  | .handle => handleUnexpected n t
  | .pushBack => do
    rewind t
    pure false
  | .doNothing => pure false

/-- `BinaryOpPrecedence`, cb/Parser.cpp:31-46. -/
def prec : BinOp → Nat
  | .multiply => 3 | .divide => 3 | .modulo => 3
  | .add => 4 | .subtract => 4
  | .lessThan => 6 | .lessThanOrEqual => 6 | .greaterThan => 6 | .greaterThanOrEqual => 6
  | .doubleEqual => 7
  | .logicalAnd => 11
  | .logicalOr => 12

/-- `tokenToBinaryOp`, cb/Parser.cpp:97-126. -/
def toBin : TokTy → Option BinOp
  | .lessThan => some .lessThan
  | .lessThanOrEqual => some .lessThanOrEqual
  | .greaterThan => some .greaterThan
  | .greaterThanOrEqual => some .greaterThanOrEqual
  | .doubleEqual => some .doubleEqual
  | .plus => some .add
  | .minus => some .subtract
  | .asterisk => some .multiply
  | .slash => some .divide
  | .percent => some .modulo
  | .doubleVerticalBar => some .logicalOr
  | .doubleAmpersand => some .logicalAnd
  | _ => none

/-- `tokenToUnaryOp`, cb/Parser.cpp:128-139. -/
def toUn : TokTy → Option UnOp
  | .minus => some .negate
  | .bang => some .logicalNot
  | .tilde => some .bitComplement
  | _ => none

/-- `Limits<u32>::Max`, the default of `outerPrecendenceLevel`, cb/Parser.h:47. -/
def maxPrec : Nat := 2 ^ 32 - 1

/-- `token.text.to<u32>()`, cb/Parser.cpp:212 and rt/io/InStream.h:491-499: zero when the text does not fit
(the text of a numeric token has no white space to trim). -/
def toU32 (text : List Byte) : Nat :=
  match Num.parseUN 32 10 text with
  | some p => if p.rest = [] ∧ p.error = false then p.value else 0
  | none => 0

/-- Whether an `Owned<Expression>` is empty. -/
def Expr.isNull : Expr → Bool
  | .null => true
  | _ => false

/-- `pieces.back().embed`, cb/Parser.cpp:158: whether the last piece has an embedded expression. -/
def Piece.hasEmbed : Piece → Bool
  | .mk _ e => !e.isNull

/-- Setting the embedded expression of the last piece, with a new piece when there is none or when it has one,
cb/Parser.cpp:158-161. -/
def putEmbed (pieces : List Piece) (e : Expr) : List Piece :=
  match pieces.getLast? with
  | none => [.mk [] e]
  | some (.mk lit old) =>
    if (Piece.mk lit old).hasEmbed then pieces ++ [.mk [] e] else pieces.dropLast ++ [.mk lit e]

/-- Appending an argument unless there is none, cb/Parser.cpp:78-80. -/
def addArg (args : List Expr) (a : Expr) : List Expr := if a.isNull then args else args ++ [a]

mutual
/-- `Parser::parseExpression`, cb/Parser.cpp:185-236; the rest is `extend`. -/
def parseExpr : Nat → (outer : Nat) → (asStatement : Bool) → P Expr
  | 0, _, _ => tooDeep
  | n + 1, outer, asStatement => do
    let t ← read
    if t.ty = .openParen then do
      let e ← withAccept Accept.orParen (withNl false (do
        let e ← parseExpr n maxPrec false
        let c ← read
        if c.ty = .closeParen then do
          setMute false
          pure e
        else do
          let _ ← error n c .pushBack .closeParen
          pure e))
      setMute false
      extend n outer e
    else if t.ty = .identifier then do
      setMute false
      extend n outer (.name t.text)
    else if t.ty = .numericLiteral then do
      setMute false
      extend n outer (.int (toU32 t.text))
    else if t.ty = .beginString then do
      let ps ← withInStr true (parseString n [])
      setMute false
      extend n outer (.str ps)
    else
      match toUn t.ty with
      | some op => do
        let e ← parseExpr n maxPrec false
        setMute false
        extend n outer (.un op e)
      | none => do
        rewind t
        if asStatement then pure .null
        else do
          let _ ← error n t .doNothing .expression
          pure .null

/-- The loop of `Parser::parseExpression`, cb/Parser.cpp:240-287. -/
def extend : Nat → (outer : Nat) → Expr → P Expr
  | 0, _, _ => tooDeep
  | n + 1, outer, e => do
    let t ← read
    if t.ty = .openParen then do
      let e' ← parseArgs n e
      extend n outer e'
    else if t.ty = .dot then do
      let p ← read
      if p.ty = .identifier then extend n outer (.prop e p.text)
      else do
        let _ ← error n p .pushBack .property
        extend n outer e
    else
      match toBin t.ty with
      | some op =>
        if outer ≤ prec op then do
          rewind t
          pure e
        else do
          let rhs ← parseExpr n (prec op) false
          if rhs.isNull then pure e else extend n outer (.bin op e rhs)
      | none => do
        rewind t
        pure e

/-- `parseArgumentList`, cb/Parser.cpp:60-75; the rest is `argLoop`. -/
def parseArgs : Nat → (callable : Expr) → P Expr
  | 0, _ => tooDeep
  | n + 1, callable =>
    withAccept Accept.orParen (withNl false (do
      let t ← read
      if t.ty = .closeParen then pure (.call callable [])
      else do
        rewind t
        argLoop n callable []))

/-- The loop of `parseArgumentList`, cb/Parser.cpp:76-94. -/
def argLoop : Nat → (callable : Expr) → (args : List Expr) → P Expr
  | 0, _, _ => tooDeep
  | n + 1, callable, args => do
    let a ← parseExpr n maxPrec false
    let t ← read
    if t.ty = .closeParen then do
      setMute false
      pure (.call callable (addArg args a))
    else if t.ty = .comma then do
      setMute false
      argLoop n callable (addArg args a)
    else do
      let go ← error n t .handle .commaOrParen
      if go then argLoop n callable (addArg args a) else pure (.call callable (addArg args a))

/-- The loop of `parseInterpolatedString`, cb/Parser.cpp:141-183. -/
def parseString : Nat → (pieces : List Piece) → P (List Piece)
  | 0, _ => tooDeep
  | n + 1, pieces => do
    let t ← read
    if t.ty = .stringLiteral then parseString n (pieces ++ [.mk t.text .null])
    else if t.ty = .beginStringEmbed then do
      let e ← withAccept Accept.orCurly (withInStr false (withNl false (do
        let e ← parseExpr n maxPrec false
        let c ← read
        if c.ty = .closeCurly then do
          setMute false
          pure e
        else do
          let _ ← error n c .handle .closeEmbed
          let _ ← skipAnyScope n .openCurly
          setMute false
          pure e)))
      parseString n (putEmbed pieces e)
    else if t.ty = .endString then pure pieces
    else failAssert
end

/-- The texts of the keywords, cb/Parser.cpp:307-310, 518. -/
def kwIf : List Byte := [105, 102]
/-- `while` -/
def kwWhile : List Byte := [119, 104, 105, 108, 101]
/-- `else` -/
def kwElse : List Byte := [101, 108, 115, 101]
/-- `return` -/
def kwReturn : List Byte := [114, 101, 116, 117, 114, 110]
/-- `fn` -/
def kwFn : List Byte := [102, 110]

/-- `token.label == key`. -/
def isKey (t : Tok) (key : List Byte) : Bool := t.ty == .identifier && t.text == key

/-- Whether a block is a lone `return` statement, cb/Parser.cpp:423-432. -/
def isLegalBody : List Stmt → Bool
  | [.ret _] => true
  | _ => false

/-- The end of a statement, cb/Parser.cpp:371-379. -/
def endStmt (n : Nat) (t : Tok) : P Unit :=
  if t.ty = .newLine ∨ t.ty = .semicolon then pure ()
  else do
    rewind t
    if t.ty = .closeCurly then pure ()
    else do
      let _ ← error n t .doNothing .trailing
      pure ()

mutual
/-- `Parser::parseStatement`, cb/Parser.cpp:306-387 with the default hooks (`parseExpressionWithTraits`, lines
290-304, is then `parseExpression(Max, true)`): the statement appended to the block, if any. -/
def parseStmt : Nat → P (Option Stmt)
  | 0 => tooDeep
  | n + 1 => do
    let t ← read
    if isKey t kwIf then do
      let c ← parseExpr n maxPrec false
      let tb ← parseBlock n true
      let fb ← withNl false (do
        let t2 ← read
        if isKey t2 kwElse then parseBlock n true
        else do
          rewind t2
          pure none)
      pure (some (.if_ c tb fb))
    else if isKey t kwWhile then do
      let c ← parseExpr n maxPrec false
      let b ← withNl false (parseBlock n true)
      pure (some (.while_ c b))
    else if isKey t kwReturn then do
      let e ← parseExpr n maxPrec false
      pure (some (.ret e))
    else do
      rewind t
      let e ← parseExpr n maxPrec true
      let t2 ← read
      if e.isNull then do
        let _ ← error n t2 .handle .statement
        pure none
      else if t2.ty = .equal then do
        let r ← parseExpr n maxPrec false
        let t3 ← read
        endStmt n t3
        pure (some (.assign e r))
      else do
        endStmt n t2
        pure (some (.eval e))

/-- `parseStatementBlock`, cb/Parser.cpp:389-446; `opt` is `curlyBracesOptionalIfControlFlow`. -/
def parseBlock : Nat → (opt : Bool) → P (Option (List Stmt))
  | 0, _ => tooDeep
  | n + 1, opt => withNl false (do
    let t ← read
    setNl true
    if t.ty = .openCurly then do
      let b ← blockLoop n []
      pure (some b)
    else if opt then do
      rewind t
      let st ← parseStmt n
      if isLegalBody st.toList then pure (some st.toList)
      else do
        let _ ← error n t .doNothing .braces
        setMute false
        pure (some st.toList)
    else do
      let _ ← error n t .pushBack .openCurly
      pure none)

/-- The loop of `parseStatementBlock`, cb/Parser.cpp:397-418. -/
def blockLoop : Nat → List Stmt → P (List Stmt)
  | 0, _ => tooDeep
  | n + 1, b => do
    let t ← read
    if t.ty = .newLine ∨ t.ty = .semicolon then blockLoop n b
    else if t.ty = .closeCurly then pure b
    else if t.ty = .endOfFile then do
      let _ ← error n t .pushBack .eofInBlock
      pure b
    else do
      rewind t
      let st ← parseStmt n
      blockLoop n (b ++ st.toList)
end

/-- The loop of `parseParameterList`, cb/Parser.cpp:457-475; `p` is `paramToken`.  A token without a label
contributes the invalid label, here the empty text. -/
def paramLoop : Nat → (params : List (List Byte)) → (p : Tok) → P (List (List Byte))
  | 0, _, _ => tooDeep
  | n + 1, params, p => do
    let bad ← (if p.ty = .identifier then pure false else error n p .handle .parameter)
    if bad then pure params
    else do
      let params' := params ++ [if p.ty = .identifier then p.text else []]
      let t ← read
      if t.ty = .closeParen then do
        rewind t
        pure params'
      else do
        let stop ← (if t.ty = .comma then pure false else error n t .handle .commaAfterParameter)
        if stop then pure params'
        else do
          let p' ← read
          paramLoop n params' p'

/-- `parseParameterList`, cb/Parser.cpp:448-476. -/
def parseParams (n : Nat) : P (List (List Byte)) :=
  withNl false (do
    let p ← read
    if p.ty = .closeParen then do
      rewind p
      pure []
    else withAccept Accept.orParen (paramLoop n [] p))

/-- `parseFunctionDefinition`, cb/Parser.cpp:478-515: the statement appended, if any. -/
def parseFunc (n : Nat) : P (Option Stmt) := do
  setMute false
  let nameTok ← read
  if nameTok.ty = .identifier then do
    let t ← read
    if t.ty = .openParen then do
      let params ← parseParams n
      let t2 ← read
      if t2.ty = .closeParen then do
        setMute false
        let body ← parseBlock n false
        pure (some (.func nameTok.text params body))
      else pure none
    else do
      let _ ← error n t .pushBack .openParen
      pure none
  else do
    let _ ← error n nameTok .pushBack .functionName
    pure none

/-- The loop of `Parser::parseFile`, cb/Parser.cpp:521-537. -/
def fileLoop : Nat → List Stmt → P (List Stmt)
  | 0, _ => tooDeep
  | n + 1, b => do
    let t ← read
    if t.ty = .endOfFile then pure b
    else if isKey t kwFn then do
      let f ← parseFunc n
      fileLoop n (b ++ f.toList)
    else do
      let _ ← error n t .handle .unexpected
      fileLoop n b

/-- `Tokenizer::setSourceInput` and the defaults of cb/Tokenizer.h:110-113 and cb/Parser.h:29-39. -/
def start (src : List Byte) : PS :=
  ⟨src.length, src, none, false, false, false, ⟨false, false, false⟩, []⟩

/-- `Parser::parseFile`, cb/Parser.cpp:517-540, on a text: the tree and the errors reported. -/
def parseFile (n : Nat) (src : List Byte) : Res (List Stmt × List (Nat × ErrKind)) :=
  match fileLoop n [] (start src) with
  | .ok (b, s) => .ok (b, s.errs)
  | .assert => .assert
  | .deep => .deep

end Verif.Crowbar
