import Verif.CppParse.Model
/-!
# The parser for C++ — model: the functions that parse

repos/plywood/src/cpp/ply-cpp/ (here `cpp/`): ParseMisc.cpp, ParseExpressions.cpp, ParseQualifiedID.cpp,
ParseParameterList.cpp, ParseSpecifiersAndDeclarators.cpp, ParseDeclarations.cpp.

The functions call each other and contain loops without a bound.  Each function, and each pass through a loop,
is a `Call`; the body of a call is written with a parameter `rec` for the calls it makes, and `go n` allows
calls up to a depth of `n` (result `stop fuel` if that is not enough).
-/
namespace Verif.CppParse
open Verif Verif.Cpp

/-- `ParseQualifiedMode`, cpp/Parser.h:166-170. -/
inductive QMode where
  | allowIncomplete | requireComplete | requireCompleteOrEmpty
  deriving DecidableEq, Repr

/-- `SpecDcorMode::Mode`, cpp/ParseDeclarations.h:13-19 (`ConversionTypeID` is never used). -/
inductive Mode where
  | globalOrMember | param | templateParam | typeId
  deriving DecidableEq, Repr

/-- What stopped the loop that looks for the end of a template argument,
cpp/ParseQualifiedID.cpp:87-108. -/
inductive Sep where
  | close (t : Token) | comma (t : Token) | outer
  deriving DecidableEq, Repr

/-- What the first phase of `parseDeclarator` leaves: the chain of productions, the name, the position in the
chain of `prodToModify`, `expectingQualifiedID`, and whether the function returned. -/
structure Phase1 where
  chain : List Prod
  qid : QId
  at_ : Nat := 0
  expecting : Bool := false
  returned : Bool := false

/-- The calls. -/
inductive Call where
  /-- The loop of `skipAnyScope`. -/
  | skipLoop (o : Token)
  /-- `consumeSpecifier`. -/
  | consumeSpec
  /-- `parseExpression`. -/
  | expr (optional : Bool)
  /-- A loop over arguments in `parseExpression`: the end token. -/
  | args (close : TT) (exp : Exp)
  /-- The loop over string literals in `parseExpression`. -/
  | strings (stop : Token)
  /-- The loop of `parseNestedNameSpecifier`. -/
  | nested (acc : List NComp)
  /-- The loop over template arguments: the arguments and the closing token, `none` = `goto breakOuter`. -/
  | targs (acc : List TArg)
  /-- The loop that looks for the end of a template argument: `endToken`, if it was set. -/
  | targSep (stop : Option Token)
  /-- `parseQualifiedID`. -/
  | qid (mode : QMode)
  /-- `parseParameterDeclarationList`. -/
  | params (tmpl : Bool)
  /-- The loop of `parseParameterDeclarationList`: the parameters and `closePunc`. -/
  | paramLoop (tmpl : Bool) (acc : List Param)
  /-- `parseFunctionQualifierSeq`. -/
  | quals (acc : List Token)
  /-- The loop of `parseConversionTypeID`. -/
  | convType (got : Bool) (acc : List Spec)
  /-- The loop of `parseConversionTypeID2`. -/
  | convType2 (allowQualifier : Bool) (chain : List Prod)
  /-- `parseDeclarator`. -/
  | dcor (nested : List Prod) (named abs : Bool)
  /-- The first loop of `parseDeclarator`. -/
  | phase1 (named abs : Bool) (chain : List Prod) (allowQualifier : Bool)
  /-- The second loop of `parseDeclarator`. -/
  | phase2 (chain : List Prod) (at_ : Nat) (expecting : Bool)
  /-- The loop of `skipMemberInitializerList`. -/
  | memberInits
  /-- The loop of `parseInitDeclarators`. -/
  | initDcors (acc : List InitDcor)
  /-- The loop of `parseBaseSpecifierList`. -/
  | bases (acc : List Base)
  /-- The loop over `final`: the tokens and the one behind them. -/
  | virts (acc : List Token)
  /-- The loop of `parseEnumBody`: the enumerators and `closeCurly`. -/
  | enumBody (acc : List Enor)
  /-- The loop of `parseSpecifiersAndDeclarators`: `declSpecifierSeq` and `initDeclarators`. -/
  | specs (mode : Mode) (cls : List Byte) (acc : List Spec) (hasType : Bool)
  /-- `parseDeclaration`: the result, and what was passed to `gotDeclaration`. -/
  | decl (cls : List Byte)
  /-- The loop of `parseDeclarationList`: the declarations and the closing curly. -/
  | declLoop (inner : Bool) (cls : List Byte) (acc : List Decl)

/-- What the calls return. -/
def Call.Out : Call → Type
  | .skipLoop _ => Option Token
  | .consumeSpec => Unit
  | .expr _ => Token × Token
  | .args _ _ => Token
  | .strings _ => Token
  | .nested _ => List NComp
  | .targs _ => List TArg × Option Token
  | .targSep _ => Option Token × Sep
  | .qid _ => QId
  | .params _ => Params
  | .paramLoop _ _ => List Param × Token
  | .quals _ => List Token
  | .convType _ _ => List Spec × List Prod
  | .convType2 _ _ => List Prod
  | .dcor _ _ _ => Dcor
  | .phase1 _ _ _ _ => Phase1
  | .phase2 _ _ _ => List Prod
  | .memberInits => Unit
  | .initDcors _ => List InitDcor
  | .bases _ => List Base
  | .virts _ => List Token × Token
  | .enumBody _ => List Enor × Token
  | .specs _ _ _ _ => List Spec × List InitDcor
  | .decl _ => Bool × Option Decl
  | .declLoop _ _ _ => List Decl × Token

variable {σ : Type} [Source σ] (rec : (c : Call) → M σ c.Out)

/-! ## Scopes, cpp/ParseMisc.cpp -/

omit [Source σ] in
/-- `skipAnyScope`, cpp/ParseMisc.cpp:179-217: the closing token, if it was found. -/
def skipAny (o : Token) : M σ (Option Token) := inScope o.type (rec (.skipLoop o))

omit [Source σ] in
/-- The `switch` at cpp/ParseMisc.cpp:196-215 and 230-257: `skipAnyScope` for a token that opens a scope. -/
def skipIfOpen (t : Token) : M σ (Option Token) := do
  let p ← getP
  match t.type with
  | .openAngle => if p.angles = true then skipAny rec t else return none
  | .openCurly => skipAny rec t
  | .openParen => skipAny rec t
  | .openSquare => skipAny rec t
  | _ => return none

/-- The loop of `skipAnyScope`, cpp/ParseMisc.cpp:182-216. -/
def skipLoopBody (o : Token) : M σ (Option Token) := do
  let t ← readToken
  if t.type = closing o.type then return some t
  else
    let stay ← okToStay t
    if stay = false then
      error true ⟨.unclosedToken, t, .none, o⟩
      return none
    else
      let _ ← skipIfOpen rec t
      rec (.skipLoop o)

omit [Source σ] in
/-- `handleUnexpectedToken`, cpp/ParseMisc.cpp:225-258: the result and the closing token. -/
def handleUnexpected (t : Token) : M σ (Bool × Option Token) := do
  let stay ← okToStay t
  if stay = false then return (false, none)
  else
    let c ← skipIfOpen rec t
    return (true, c)

/-- `closeScope`, cpp/ParseSpecifiersAndDeclarators.cpp:102-125: the result and the closing token. -/
def closeScope (o : Token) : M σ (Bool × Token) := do
  let c ← readToken
  if c.type = closing o.type then return (true, c)
  else
    check (o.type == .openSquare || o.type == .openParen)
    expected c (if o.type = .openSquare then .closeSquare else .closeParen)
    pushBack c
    let s ← skipAny rec o
    match s with
    | none => do
      let p ← getP
      check p.mute
      return (false, noTok)
    | some _ => do
      unmute
      return (true, noTok)

/-! ## Expressions, cpp/ParseExpressions.cpp -/

/-- `consumeSpecifier`, cpp/ParseExpressions.cpp:12-37. -/
def consumeSpecBody : M σ Unit := do
  let t ← readToken
  let t ← if t.type = .openAngle then withAngles (do
              let _ ← skipAny rec t
              readToken)
          else pure t
  if t.type = .doubleColon then
    let s ← readToken
    if s.type ≠ .identifier then
      expected s .identifier
      pushBack s
    else rec .consumeSpec
  else pushBack t

/-- The loops over arguments in `parseExpression`, cpp/ParseExpressions.cpp:61-82, 91-112 and 161-182. -/
def argsBody (close : TT) (exp : Exp) : M σ Token := do
  let t3 ← readToken
  if t3.type = close then return t3
  else
    pushBack t3
    let _ ← rec (.expr false)
    let t4 ← readToken
    if t4.type = .comma then rec (.args close exp)
    else if t4.type = close then return t4
    else
      expected t4 exp
      let (stay, _) ← handleUnexpected rec t4
      if stay = true then rec (.args close exp) else return noTok

/-- The loop over string literals, cpp/ParseExpressions.cpp:129-137. -/
def stringsBody (stop : Token) : M σ Token := do
  let t ← readToken
  if t.type ≠ .stringLiteral then
    pushBack t
    return stop
  else rec (.strings t)

/-- The operators that an expression may continue with, cpp/ParseExpressions.cpp:246-260. -/
def binary (t : TT) : Bool :=
  t == .singleVerticalBar || t == .doubleEqual || t == .notEqual || t == .openAngle ||
  t == .lessThanOrEqual || t == .greaterThanOrEqual || t == .leftShift || t == .rightShift ||
  t == .singlePlus || t == .singleMinus || t == .percent || t == .arrow || t == .star || t == .dot ||
  t == .forwardSlash

/-- The second half of `parseExpression`, cpp/ParseExpressions.cpp:235-285.  The case `CloseAngle` has no
`break` at its end. -/
def exprTail (start stop : Token) : M σ (Token × Token) := do
  let t ← readToken
  if t.type = .closeAngle then
    let p ← getP
    if p.angles = true then
      pushBack t
      return (start, stop)
    else
      let _ ← rec (.expr false)
      let e ← rec (.expr false)
      return (start, e.2)
  else if binary t.type = true then
    let e ← rec (.expr false)
    return (start, e.2)
  else if t.type = .questionMark then
    let _ ← rec (.expr false)
    let c ← readToken
    if c.type ≠ .singleColon then
      expected c .colon
      pushBack c
      return (start, stop)
    else
      let e ← rec (.expr false)
      return (start, e.2)
  else
    pushBack t
    return (start, stop)

/-- The case of a lambda expression, cpp/ParseExpressions.cpp:39-45 and 193-223: the end token. -/
def lambdaBody : M σ Token := do
  let c ← readToken
  if c.type ≠ .closeSquare then expected c .closeSquare
  let o ← peek
  if o.type = .openParen then
    let _ ← rec (.params false)
  else expected o .openParen
  let t2 ← readToken
  let t2 ← if t2.type = .arrow then do
              let _ ← rec (.specs .typeId [] [] false)
              readToken
            else pure t2
  if t2.type ≠ .openCurly then
    expected t2 .openCurly
    pushBack t2
    return noTok
  else
    let c ← skipAny rec t2
    return c.getD noTok

/-- `parseExpression`, cpp/ParseExpressions.cpp:50-286. -/
def exprBody (optional : Bool) : M σ (Token × Token) := do
  let start ← readToken
  match start.type with
  | .identifier => do
    rec .consumeSpec
    let t2 ← readToken
    let stop ←
      if t2.type = .openParen then inScope .openParen (rec (.args .closeParen .commaOrCloseParen))
      else if t2.type = .openCurly then inScope .openCurly (rec (.args .closeCurly .commaOrCloseCurly))
      else do
        pushBack t2
        pure start
    exprTail rec start stop
  | .numericLiteral => exprTail rec start start
  | .stringLiteral => do
    let stop ← rec (.strings start)
    exprTail rec start stop
  | .openParen => do
    let stop ← inScope .openParen (do
      let _ ← rec (.expr false)
      let t2 ← readToken
      if t2.type = .closeParen then
        let e ← rec (.expr true)
        return e.2
      else
        pushBack t2
        let (_, c) ← closeScope rec start
        return c)
    exprTail rec start stop
  | .openCurly => do
    let stop ← rec (.args .closeCurly .commaOrCloseCurly)
    exprTail rec start stop
  | .bang => do
    let e ← rec (.expr false)
    exprTail rec start e.2
  | .singleAmpersand => do
    let e ← rec (.expr false)
    exprTail rec start e.2
  | .singleMinus => do
    let e ← rec (.expr false)
    exprTail rec start e.2
  | .openSquare => do
    let stop ← lambdaBody rec
    exprTail rec start stop
  | _ =>
    if optional = true then do
      pushBack start
      return (noTok, noTok)
    else do
      check false
      return (noTok, noTok)

/-! ## Qualified names, cpp/ParseQualifiedID.cpp -/

/-- The words that do not start a nested name, cpp/ParseQualifiedID.cpp:25-27. -/
def nestedStop : List (List Byte) :=
  [bs ['o', 'p', 'e', 'r', 'a', 't', 'o', 'r'], bs ['c', 'o', 'n', 's', 't'], bs ['v', 'o', 'l', 'a', 't', 'i', 'l', 'e'], bs ['i', 'n', 'l', 'i', 'n', 'e'], bs ['s', 't', 'a', 't', 'i', 'c'], bs ['f', 'r', 'i', 'e', 'n', 'd']]

/-- The end of the loop of `parseNestedNameSpecifier`, cpp/ParseQualifiedID.cpp:119-126, where `comp` makes
the component from its `sep`. -/
def sepStep (acc : List NComp) (comp : Token → NComp) : M σ (List NComp) := do
  let s ← readToken
  if s.type = .doubleColon then rec (.nested (acc ++ [comp s]))
  else
    pushBack s
    return acc ++ [comp noTok]

/-- The loop of `parseNestedNameSpecifier`, cpp/ParseQualifiedID.cpp:14-131. -/
def nestedBody (acc : List NComp) : M σ (List NComp) := do
  let t ← readToken
  if t.type ≠ .identifier then
    pushBack t
    return acc
  else if t.text ∈ nestedStop then
    pushBack t
    return acc
  else if t.text = bs ['d', 'e', 'c', 'l', 't', 'y', 'p', 'e'] then
    let o ← readToken
    if o.type = .openParen then
      let c ← skipAny rec o
      sepStep rec acc (.declType t o (c.getD noTok))
    else
      expected o .openParen t
      pushBack o
      sepStep rec acc (.declType t noTok noTok)
  else
    let o ← readToken
    if o.type = .openAngle then
      let (args, c) ← inScope .openAngle (withAngles (rec (.targs [])))
      match c with
      | none => return acc ++ [.ident t o noTok args noTok]
      | some c => sepStep rec acc (.ident t o c args)
    else
      pushBack o
      sepStep rec acc (.ident t noTok noTok [])

/-- The loop that looks for the end of a template argument, cpp/ParseQualifiedID.cpp:87-108. -/
def targSepBody (stop : Option Token) : M σ (Option Token × Sep) := do
  let t ← readToken
  if t.type = .closeAngle then
    unmute
    return (stop, .close t)
  else if t.type = .comma then
    unmute
    return (stop, .comma t)
  else
    let (stay, c) ← handleUnexpected rec t
    let stop := some (c.getD t)
    if stay = true then rec (.targSep stop) else return (stop, .outer)

/-- The template argument once its end is known, cpp/ParseQualifiedID.cpp:69, 76-80, 86 and 101-104:
`unknown.switchTo()` forgets the type and the start. -/
def mkTArg (failed : Bool) (start : Token) (specs : List Spec) (abs : List Prod) (stop : Option Token)
    (comma : Token) : TArg :=
  if failed = true then .unknown start (stop.getD noTok) comma
  else
    match stop with
    | none => .typeId specs abs comma
    | some s => .unknown noTok s comma

/-- The loop over template arguments, cpp/ParseQualifiedID.cpp:63-109.  The restore point lives until the end
of the pass. -/
def targsBody (acc : List TArg) : M σ (List TArg × Option Token) := do
  let start ← peek
  let rp ← mark
  let (specs, dcors) ← rec (.specs .typeId [] [] false)
  let failed ← failedSince rp.raw
  let abs ←
    if failed = false then
      match dcors with
      | [.mk d _ _] => do
        check d.qid.isEmpty
        pure d.prods
      | _ => do
        check false
        pure []
    else do
      rp.backtrack
      rp.cancel
      pure []
  let (stop, sep) ← rec (.targSep none)
  if failed = false then rp.cancel
  match sep with
  | .close t => return (acc ++ [mkTArg failed start specs abs stop noTok], some t)
  | .comma t => rec (.targs (acc ++ [mkTArg failed start specs abs stop t]))
  | .outer => return (acc ++ [mkTArg failed start specs abs stop noTok], none)

/-- The tail of the nested name becomes the unqualified name, cpp/ParseQualifiedID.cpp:137-159. -/
def splitTail (l : List NComp) : List NComp × Unqual :=
  match l.getLast? with
  | none => (l, .empty)
  | some (.ident name openA closeA args sep) =>
    if valid sep = true then (l, .empty)
    else if valid openA = true then (l.dropLast, .templateId name openA closeA args)
    else (l.dropLast, .ident name)
  | some (.declType keyword openP closeP sep) =>
    if valid sep = true then (l, .empty) else (l.dropLast, .declType keyword openP closeP)

/-- The tokens that may follow `operator`, cpp/ParseQualifiedID.cpp:181-202. -/
def operatorToken (t : TT) : Bool :=
  t == .leftShift || t == .rightShift || t == .singlePlus || t == .doublePlus || t == .singleMinus ||
  t == .doubleMinus || t == .star || t == .arrow || t == .forwardSlash || t == .singleEqual ||
  t == .doubleEqual || t == .notEqual || t == .plusEqual || t == .minusEqual || t == .starEqual ||
  t == .slashEqual || t == .openAngle || t == .closeAngle || t == .lessThanOrEqual ||
  t == .greaterThanOrEqual || t == .openParen || t == .openSquare

/-- The name of an operator function, cpp/ParseQualifiedID.cpp:176-235. -/
def operatorName (t : Token) : M σ Unqual := do
  let o ← readToken
  if operatorToken o.type = true then
    if o.type = .openParen then
      let o2 ← readToken
      if o2.type = .closeParen then return .opFunc t o o2
      else
        expected o2 .closeParen o
        pushBack o2
        return .opFunc t o noTok
    else if o.type = .openSquare then
      let o2 ← readToken
      if o2.type = .closeSquare then return .opFunc t o o2
      else
        expected o2 .closeSquare o
        pushBack o2
        return .opFunc t o noTok
    else return .opFunc t o noTok
  else
    expected o .operatorToken t
    modP fun p => { p with mute := true }
    pushBack o
    return .opFunc t noTok noTok

/-- The unqualified name if the nested name did not give one, cpp/ParseQualifiedID.cpp:160-242. -/
def unqualName : M σ Unqual := do
  let t ← readToken
  if t.type = .tilde then
    let t2 ← readToken
    if t2.type ≠ .identifier then
      expected t2 .destructorClassName t
      pushBack t2
      return .empty
    else
      check (decide (t2.text ≠ bs ['d', 'e', 'c', 'l', 't', 'y', 'p', 'e']))
      return .dtor t t2
  else if t.type = .identifier ∧ t.text = bs ['o', 'p', 'e', 'r', 'a', 't', 'o', 'r'] then operatorName t
  else
    pushBack t
    return .empty

/-- `parseQualifiedID`, cpp/ParseQualifiedID.cpp:134-251. -/
def qidBody (mode : QMode) : M σ QId := do
  let l ← rec (.nested [])
  let (nested, unqual) := splitTail l
  let unqual ← if unqual.isEmpty = true then unqualName else pure unqual
  let q : QId := .mk nested unqual
  if (mode = .requireComplete ∧ q.isComplete = false) ∨
      (mode = .requireCompleteOrEmpty ∧ q.isNestedOnly = true) then
    let t ← readToken
    expected t .qualifiedID
    pushBack t
    return q
  else return q

/-! ## Parameters, cpp/ParseParameterList.cpp -/

/-- `openPunc` of `ParseParams`, cpp/ParseParameterList.cpp:12-26. -/
def openPunc (tmpl : Bool) : TT := if tmpl = true then .openAngle else .openParen

/-- `parseParameterDeclarationList` up to its loop, cpp/ParseParameterList.cpp:28-51. -/
def paramsBody (tmpl : Bool) : M σ Params := do
  let o ← readToken
  check (o.type == openPunc tmpl)
  unmute
  let t ← readToken
  if t.type = closing (openPunc tmpl) then return .mk o t []
  else
    pushBack t
    let (ps, c) ← inScope (openPunc tmpl) (rec (.paramLoop tmpl []))
    return .mk o c ps

/-- A parameter as it is added to the list. -/
structure NewParam where
  specs : List Spec
  dcor : Dcor
  init : Init

/-- `pdc`, as an item of the list, with its comma. -/
def NewParam.add (acc : List Param) (n : Option NewParam) (comma : Token) : List Param :=
  match n with
  | none => acc
  | some n => acc ++ [.mk n.specs n.dcor n.init comma]

/-- A template template parameter, cpp/ParseParameterList.cpp:68-99. -/
def tmplParam : M σ Unit := do
  let t2 ← readToken
  if t2.type ≠ .openAngle then
    expected t2 .openAngle
    pushBack t2
  else
    pushBack t2
    let (raw, _) ← activity
    let _ ← withAngles (rec (.params true))
    let failed ← failedSince raw
    if failed = true then return ()
    else
      let c ← readToken
      if c.text ≠ bs ['c', 'l', 'a', 's', 's'] then
        expected c .openAngle
        pushBack c
      else
        let _ ← rec (.specs .typeId [] [] false)
        let failed ← failedSince raw
        if failed = false then unmute

/-- One parameter, cpp/ParseParameterList.cpp:54-122: `pdc` and `anyTokensConsumed`. -/
def oneParam (tmpl : Bool) : M σ (Option NewParam × Bool) := do
  let e ← readToken
  if e.type = .ellipsis ∧ tmpl = false then
    return (some ⟨[.ellipsis e], .mk [] .none, .none⟩, true)
  else if tmpl = true ∧ e.text = bs ['t', 'e', 'm', 'p', 'l', 'a', 't', 'e'] then
    tmplParam rec
    return (none, false)
  else
    pushBack e
    let (raw, loc) ← activity
    let (specs, dcors) ← rec (.specs (if tmpl = true then .templateParam else .param) [] [] false)
    let failed ← failedSince raw
    if failed = false then unmute
    let new ←
      match dcors with
      | [] => pure none
      | [.mk d i _] => pure (some ⟨specs, d, i⟩)
      | _ => do
        check false
        pure none
    let consumed ← anyTokensConsumed loc
    return (new, consumed)

/-- The loop of `parseParameterDeclarationList`, cpp/ParseParameterList.cpp:53-148. -/
def paramLoopBody (tmpl : Bool) (acc : List Param) : M σ (List Param × Token) := do
  let (new, consumed) ← oneParam rec tmpl
  let t ← readToken
  if t.type = closing (openPunc tmpl) then return (NewParam.add acc new noTok, t)
  else if t.type = .comma then rec (.paramLoop tmpl (NewParam.add acc new t))
  else
    expected t (if tmpl = true then .commaOrCloseAngle else .commaOrCloseParen)
    if consumed = true then
      let (stay, _) ← handleUnexpected rec t
      if stay = true then rec (.paramLoop tmpl (NewParam.add acc new noTok))
      else return (NewParam.add acc new noTok, noTok)
    else
      let stay ← okToStay t
      if stay = true then
        pushBack t
        rec (.paramLoop tmpl (NewParam.add acc new noTok))
      else return (NewParam.add acc new noTok, noTok)

/-- `parseFunctionQualifierSeq`, cpp/ParseParameterList.cpp:151-169. -/
def qualsBody (acc : List Token) : M σ (List Token) := do
  let t ← readToken
  if t.type = .identifier ∧ (t.text = bs ['c', 'o', 'n', 's', 't'] ∨ t.text = bs ['o', 'v', 'e', 'r', 'r', 'i', 'd', 'e']) then rec (.quals (acc ++ [t]))
  else if t.type = .singleAmpersand ∨ t.type = .doubleAmpersand then rec (.quals (acc ++ [t]))
  else
    pushBack t
    return acc

/-- `parseParameterList`, cpp/ParseParameterList.cpp:171-194: the parameters and qualifiers of the
production, which the caller puts into the chain. -/
def parameterList : M σ (Option (Params × List Token)) := do
  let o ← readToken
  if o.type ≠ .openParen then
    let p ← getP
    check p.restore
    expected o .openParen
    pushBack o
    return none
  else
    unmute
    pushBack o
    let ps ← rec (.params false)
    let q ← rec (.quals [])
    return some (ps, q)

/-! ## Declarators, cpp/ParseSpecifiersAndDeclarators.cpp -/

/-- `parseConversionTypeID2`, cpp/ParseSpecifiersAndDeclarators.cpp:19-59. -/
def convType2Body (allowQualifier : Bool) (chain : List Prod) : M σ (List Prod) := do
  let t ← readToken
  if t.type = .star ∨ t.type = .singleAmpersand ∨ t.type = .doubleAmpersand then
    rec (.convType2 (t.type == .star) (.ptr [] t :: chain))
  else if t.type = .ellipsis then rec (.convType2 allowQualifier chain)
  else if t.type = .identifier ∧ (t.text = bs ['c', 'o', 'n', 's', 't'] ∨ t.text = bs ['v', 'o', 'l', 'a', 't', 'i', 'l', 'e']) then
    if allowQualifier = false then error false ⟨.qualifierNotAllowedHere, t, .none, {}⟩
    rec (.convType2 allowQualifier (.qual t :: chain))
  else
    pushBack t
    return chain

/-- `parseConversionTypeID`, cpp/ParseSpecifiersAndDeclarators.cpp:62-100. -/
def convTypeBody (got : Bool) (acc : List Spec) : M σ (List Spec × List Prod) := do
  let t ← readToken
  if t.type = .identifier then
    if t.text = bs ['c', 'o', 'n', 's', 't'] ∨ t.text = bs ['v', 'o', 'l', 'a', 't', 'i', 'l', 'e'] then rec (.convType got (acc ++ [.keyword t]))
    else
      pushBack t
      let q ← rec (.qid .requireComplete)
      if got = true then
        error false ⟨.tooManyTypeSpecifiers, QId.first q, .none, {}⟩
        rec (.convType got acc)
      else
        check (!QId.isEmpty q)
        rec (.convType true (acc ++ [.typeId noTok q]))
  else
    pushBack t
    let chain ← rec (.convType2 false [])
    return (acc, chain)

/-- `parseOptionalTrailingReturnType`, cpp/ParseSpecifiersAndDeclarators.cpp:127-146: `arrow` and
`trailingRetType`. -/
def trailingReturn : M σ (Token × QId) := do
  let a ← readToken
  if a.type = .arrow then
    let s ← peek
    let q ← rec (.qid .allowIncomplete)
    if QId.isEmpty q = true then expected s .trailingReturnType a
    return (a, q)
  else
    pushBack a
    return (noTok, .none)

/-- A nested declarator, cpp/ParseSpecifiersAndDeclarators.cpp:252-264. -/
def nestedDcor (named abs : Bool) (chain : List Prod) (o : Token) : M σ Phase1 := do
  let target ← rec (.dcor chain named abs)
  let (ok, c) ← closeScope rec o
  return { chain := .paren o c :: Dcor.prods target, qid := Dcor.qid target, returned := !ok }

/-- The words accepted as qualifiers, cpp/ParseSpecifiersAndDeclarators.cpp:292-294. -/
def qualifierWords : List (List Byte) :=
  [bs ['c', 'o', 'n', 's', 't'], bs ['v', 'o', 'l', 'a', 't', 'i', 'l', 'e'], bs ['i', 'n', 'l', 'i', 'n', 'e'], bs ['s', 't', 'a', 't', 'i', 'c'], bs ['f', 'r', 'i', 'e', 'n', 'd']]

/-- The first loop of `parseDeclarator`, cpp/ParseSpecifiersAndDeclarators.cpp:189-336.  The token of the error
at line 198 is taken from a name that was moved away, of which only the unqualified part is left. -/
def phase1Body (named abs : Bool) (chain : List Prod) (allowQualifier : Bool) : M σ Phase1 := do
  let q ← rec (.qid .allowIncomplete)
  if QId.isComplete q = true then
    if named = false then error false ⟨.typeIDCannotHaveName, (QId.unqual q).first, .none, {}⟩
    return { chain := chain, qid := q }
  else
    let t ← readToken
    if t.type = .openParen then
      if (QId.nested q).isEmpty = false then error false ⟨.nestedNameNotAllowedHere, t, .none, QId.first q⟩
      unmute
      if abs = true then
        pushBack t
        let rp ← mark
        let f ← parameterList rec
        let failed ← failedSince rp.raw
        if failed = false then
          match f with
          | none => do
            check false
            return { chain := chain, qid := .none }
          | some (ps, quals) => do
            rp.cancel
            let (a, r) ← trailingReturn rec
            return { chain := .func ps quals a r :: chain, qid := .none, at_ := 1 }
        else
          rp.backtrack
          rp.cancel
          let t ← readToken
          nestedDcor rec named abs chain t
      else nestedDcor rec named abs chain t
    else
      if (QId.nested q).isEmpty = false ∧ t.type ≠ .star then
        error false ⟨.nestedNameNotAllowedHere, t, .none, QId.first q⟩
      if t.type = .star ∨ t.type = .singleAmpersand ∨ t.type = .doubleAmpersand then
        unmute
        rec (.phase1 named abs (.ptr (QId.nested q) t :: chain) (t.type == .star))
      else if t.type = .ellipsis then
        unmute
        rec (.phase1 named abs chain allowQualifier)
      else if t.type = .identifier then
        check (QId.nested q).isEmpty
        check (decide (t.text ∈ qualifierWords))
        if allowQualifier = false then error false ⟨.qualifierNotAllowedHere, t, .none, {}⟩
        unmute
        rec (.phase1 named abs (.qual t :: chain) allowQualifier)
      else
        check (QId.nested q).isEmpty
        if abs = false ∧ chain.isEmpty = false then expected t .qualifiedID
        pushBack t
        return { chain := chain, qid := .none, expecting := !abs && chain.isEmpty }

/-- The lambda `checkExpectingQualifiedID`, cpp/ParseSpecifiersAndDeclarators.cpp:357-363. -/
def checkExpecting (t : Token) (expecting : Bool) : M σ Unit := do
  unmute
  if expecting = true then expected t .qualifiedID

/-- A production put into the chain at a position. -/
def insertAt (chain : List Prod) (k : Nat) (x : Prod) : List Prod := chain.take k ++ x :: chain.drop k

/-- The second loop of `parseDeclarator`, cpp/ParseSpecifiersAndDeclarators.cpp:355-391. -/
def phase2Body (chain : List Prod) (at_ : Nat) (expecting : Bool) : M σ (List Prod) := do
  let t ← readToken
  if t.type = .openSquare then
    checkExpecting t expecting
    let _ ← rec (.expr true)
    let (ok, c) ← closeScope rec t
    if ok = true then rec (.phase2 (insertAt chain at_ (.array t c)) (at_ + 1) false)
    else return insertAt chain at_ (.array t c)
  else if t.type = .openParen then
    checkExpecting t expecting
    pushBack t
    let f ← parameterList rec
    match f with
    | none => rec (.phase2 chain at_ false)
    | some (ps, quals) => do
      let (a, r) ← trailingReturn rec
      rec (.phase2 (insertAt chain at_ (.func ps quals a r)) (at_ + 1) false)
  else
    pushBack t
    return chain

omit [Source σ] in
/-- `parseDeclarator`, cpp/ParseSpecifiersAndDeclarators.cpp:159-392. -/
def dcorBody (nested : List Prod) (named abs : Bool) : M σ Dcor := do
  let r : Phase1 ← rec (.phase1 named abs nested false)
  if r.returned = true then return .mk r.chain r.qid
  else
    let chain ← rec (.phase2 r.chain r.at_ r.expecting)
    return .mk chain r.qid

/-! ## Initializers, cpp/ParseSpecifiersAndDeclarators.cpp -/

/-- The loop of `skipMemberInitializerList`, cpp/ParseSpecifiersAndDeclarators.cpp:400-441. -/
def memberInitsBody : M σ Unit := do
  let q ← rec (.qid .allowIncomplete)
  if QId.isComplete q = true then
    let o ← readToken
    if o.type = .openParen ∨ o.type = .openCurly then
      let _ ← skipAny rec o
      let n ← readToken
      if n.type = .openCurly then
        unmute
        pushBack n
      else if n.type = .comma then
        unmute
        rec .memberInits
      else
        error true ⟨.expectedFunctionBodyAfterMemberInitList, n, .none, {}⟩
        pushBack n
    else
      expected o .openCurlyOrParen
      pushBack o
      rec .memberInits
  else
    let t ← readToken
    expected t .baseOrMember
    if QId.isEmpty q = true then
      let (stay, _) ← handleUnexpected rec t
      if stay = true then rec .memberInits else return ()
    else
      pushBack t
      rec .memberInits

/-- `parseOptionalFunctionBody`, cpp/ParseSpecifiersAndDeclarators.cpp:444-473. -/
def functionBody : M σ Init := do
  let t ← readToken
  if t.type = .singleEqual then
    let _ ← rec (.expr false)
    return .assignExpr t noTok noTok
  else if t.type = .singleColon then
    acceptingCurly (rec .memberInits)
    let o ← readToken
    if o.type = .openCurly then
      let c ← skipAny rec o
      return .body t o (c.getD noTok)
    else
      pushBack o
      return .body t noTok noTok
  else if t.type = .openCurly then
    let c ← skipAny rec t
    return .body noTok t (c.getD noTok)
  else
    pushBack t
    return .none

/-- `parseOptionalTypeIDInitializer`, cpp/ParseSpecifiersAndDeclarators.cpp:475-501. -/
def typeIdInit : M σ Init := do
  let e ← readToken
  if e.type = .singleEqual then
    let t ← readToken
    if t.text = bs ['0'] then return .assignExpr e noTok noTok
    else
      pushBack t
      let (raw, _) ← activity
      let (specs, dcors) ← rec (.specs .typeId [] [] false)
      let failed ← failedSince raw
      if failed = true then return .assignExpr e noTok noTok
      else
        match dcors with
        | [.mk d _ _] => do
          check d.qid.isEmpty
          return .assignType e specs d.prods
        | _ => do
          check false
          return .none
  else
    pushBack e
    return .none

/-- `parseOptionalVariableInitializer`, cpp/ParseSpecifiersAndDeclarators.cpp:503-527 (`allowBracedInit` is
never used). -/
def variableInit : M σ Init := do
  let t ← readToken
  if t.type = .openCurly then
    pushBack t
    let _ ← rec (.expr false)
    return .assignExpr noTok noTok noTok
  else if t.type = .singleEqual then
    let e ← rec (.expr false)
    return .assignExpr t e.1 e.2
  else if t.type = .singleColon then
    let e ← rec (.expr false)
    return .bits t e.1 e.2
  else
    pushBack t
    return .none

/-- `params.openPunc` of the function a declarator is, cpp/ParseSpecifiersAndDeclarators.cpp:551. -/
def Dcor.openPunc (d : Dcor) : Token :=
  match d.prods with
  | .func (.mk o _ _) _ _ _ :: _ => o
  | _ => noTok

/-- The loop of `parseInitDeclarators`, cpp/ParseSpecifiersAndDeclarators.cpp:534-583. -/
def initDcorsBody (acc : List InitDcor) : M σ (List InitDcor) := do
  let d : Dcor ← rec (.dcor [] true false)
  if d.qid.isEmpty = true then return acc
  else if d.isFunction = true then
    let i ← functionBody rec
    if i.isBody = true ∧ acc.isEmpty = false then
      error false ⟨.cantMixFunctionDefAndDecl, d.openPunc, .none, {}⟩
    return acc ++ [.mk d i noTok]
  else
    let i ← variableInit rec
    let s ← readToken
    if s.type = .comma then rec (.initDcors (acc ++ [.mk d i s]))
    else
      pushBack s
      return acc ++ [.mk d i noTok]

/-- `parseInitDeclarators`, cpp/ParseSpecifiersAndDeclarators.cpp:530-600. -/
def parseInitDcors (mode : Mode) : M σ (List InitDcor) := do
  match mode with
  | .globalOrMember => rec (.initDcors [])
  | .typeId => do
    let d ← rec (.dcor [] false true)
    return [.mk d .none noTok]
  | _ => do
    let d ← rec (.dcor [] true true)
    let i ← variableInit rec
    return [.mk d i noTok]

/-! ## Specifiers, cpp/ParseSpecifiersAndDeclarators.cpp -/

/-- `public`, `private` and `protected`. -/
def accessWords : List (List Byte) := [bs ['p', 'u', 'b', 'l', 'i', 'c'], bs ['p', 'r', 'i', 'v', 'a', 't', 'e'], bs ['p', 'r', 'o', 't', 'e', 'c', 't', 'e', 'd']]

/-- The loop of `parseBaseSpecifierList`, cpp/ParseSpecifiersAndDeclarators.cpp:604-637.  Line 632 stores
`token`, not the comma. -/
def basesBody (acc : List Base) : M σ (List Base) := do
  let t ← readToken
  let isAccess : Bool := decide (t.type = .identifier ∧ t.text ∈ accessWords)
  let access := if isAccess = true then t else noTok
  if isAccess = true then unmute
  let t ← if isAccess = true then readToken else pure t
  pushBack t
  let q ← rec (.qid .requireComplete)
  if QId.isComplete q = false then return acc
  else
    unmute
    let c ← readToken
    if c.type = .openCurly then
      pushBack c
      return acc ++ [.mk access q noTok]
    else if c.type = .comma then rec (.bases (acc ++ [.mk access q t]))
    else
      expected c .commaOrOpenCurly
      return acc ++ [.mk access q noTok]

/-- The loop over `final`, cpp/ParseSpecifiersAndDeclarators.cpp:737-752. -/
def virtsBody (acc : List Token) : M σ (List Token × Token) := do
  let t ← readToken
  if t.text = bs ['f', 'i', 'n', 'a', 'l'] then
    if acc.isEmpty = false then
      error true ⟨.duplicateVirtSpecifier, t, .none, {}⟩
      rec (.virts acc)
    else rec (.virts (acc ++ [t]))
  else return (acc, t)

/-- `looksLikeCtorDtor`, cpp/ParseSpecifiersAndDeclarators.cpp:641-660. -/
def looksLikeCtorDtor (cls : List Byte) (q : QId) : Bool :=
  if cls = [] then
    match q.nested.getLast? with
    | some (.ident name _ _ _ _) =>
      decide (q.unqual.ctorDtorName ≠ [] ∧ q.unqual.ctorDtorName = name.text)
    | _ => false
  else decide (q.nested.isEmpty = true ∧ q.unqual.ctorDtorName = cls)

/-- The loop of `parseEnumBody`, cpp/ParseDeclarations.cpp:43-87. -/
def enumBodyBody (acc : List Enor) : M σ (List Enor × Token) := do
  let t ← readToken
  if t.type = .closeCurly then
    unmute
    return (acc, t)
  else if t.type = .identifier then
    unmute
    let i ← variableInit rec
    let t2 ← readToken
    if t2.type = .comma then
      unmute
      rec (.enumBody (acc ++ [.mk t i t2]))
    else if t2.type = .closeCurly then
      unmute
      return (acc ++ [.mk t i noTok], t2)
    else
      if t2.type = .identifier then error true ⟨.missingCommaAfterEnumerator, t2, .none, t⟩
      pushBack t2
      rec (.enumBody (acc ++ [.mk t i noTok]))
  else
    expected t .enumeratorOrCloseCurly
    let (stay, _) ← handleUnexpected rec t
    if stay = true then rec (.enumBody acc) else return (acc, noTok)

omit [Source σ] in
/-- `parseDeclarationList`, cpp/ParseDeclarations.cpp:298-323. -/
def declarationList (inner : Bool) (cls : List Byte) : M σ (List Decl × Token) :=
  inScope .openCurly (rec (.declLoop inner cls []))

/-- A class, cpp/ParseSpecifiersAndDeclarators.cpp:731-769. -/
def recordSpec (key : Token) : M σ Spec := do
  let q ← rec (.qid .requireCompleteOrEmpty)
  let (virts, t) ← rec (.virts [])
  let isColon : Bool := t.type == .singleColon
  let colon := if isColon = true then t else noTok
  let bases ← if isColon = true then rec (.bases []) else pure []
  let t ← if isColon = true then readToken else pure t
  if t.type = .openCurly then
    let (ds, c) ← declarationList rec true (QId.className q)
    return .record key q virts colon bases t c ds
  else
    pushBack t
    return .record key q virts colon bases noTok noTok []

/-- An enumeration, cpp/ParseSpecifiersAndDeclarators.cpp:781-814, with the start of `parseEnumBody`,
cpp/ParseDeclarations.cpp:39-41. -/
def enumSpec (key : Token) : M σ Spec := do
  let t2 ← readToken
  let isClass : Bool := decide (t2.type = .identifier ∧ t2.text = bs ['c', 'l', 'a', 's', 's'])
  if isClass = false then pushBack t2
  let classKey := if isClass = true then t2 else noTok
  let q ← rec (.qid .requireCompleteOrEmpty)
  let s ← readToken
  let isColon : Bool := s.type == .singleColon
  if isColon = true ∧ QId.isEmpty q = true then error false ⟨.scopedEnumRequiresName, s, .none, {}⟩
  if isColon = false then pushBack s
  let base ← if isColon = true then rec (.qid .requireComplete) else pure QId.none
  let basePunc := if isColon = true then s else noTok
  let t3 ← readToken
  if t3.type = .openCurly then
    unmute
    let (es, c) ← inScope .openCurly (rec (.enumBody []))
    return .enum key classKey q basePunc base t3 c es
  else
    pushBack t3
    return .enum key classKey q basePunc base noTok noTok []

/-- A conversion function, cpp/ParseSpecifiersAndDeclarators.cpp:817-836. -/
def conversionFunc (t : Token) : M σ InitDcor := do
  unmute
  let (specs, abs) ← rec (.convType false [])
  let q : QId := .mk [] (.conv t specs abs)
  let o ← peek
  if o.type = .openParen then
    let ps ← rec (.params false)
    let quals ← rec (.quals [])
    let i ← functionBody rec
    return .mk (.mk [.func ps quals noTok .none] q) i noTok
  else
    expected o .openParen
    return .mk (.mk [] q) .none noTok

/-- The words that are stored as they are, cpp/ParseSpecifiersAndDeclarators.cpp:683-688. -/
def keywordWords : List (List Byte) :=
  [bs ['i', 'n', 'l', 'i', 'n', 'e'], bs ['c', 'o', 'n', 's', 't'], bs ['v', 'o', 'l', 'a', 't', 'i', 'l', 'e'], bs ['s', 't', 'a', 't', 'i', 'c'], bs ['f', 'r', 'i', 'e', 'n', 'd'], bs ['v', 'i', 'r', 't', 'u', 'a', 'l'], bs ['c', 'o', 'n', 's', 't', 'e', 'x', 'p', 'r'], bs ['t', 'h', 'r', 'e', 'a', 'd', '_', 'l', 'o', 'c', 'a', 'l'],
    bs ['u', 'n', 's', 'i', 'g', 'n', 'e', 'd'], bs ['m', 'u', 't', 'a', 'b', 'l', 'e'], bs ['e', 'x', 'p', 'l', 'i', 'c', 'i', 't']]

/-- `struct`, `class` and `union`. -/
def classWords : List (List Byte) := [bs ['s', 't', 'r', 'u', 'c', 't'], bs ['c', 'l', 'a', 's', 's'], bs ['u', 'n', 'i', 'o', 'n']]

/-- The end of the last case of `parseSpecifiersAndDeclarators`,
cpp/ParseSpecifiersAndDeclarators.cpp:889-933. -/
def typeSpec (mode : Mode) (cls : List Byte) (acc : List Spec) (typename : Token) (q : QId) :
    M σ (List Spec × List InitDcor) := do
  let ctor : Bool :=
    decide (mode = .globalOrMember) && !valid typename && looksLikeCtorDtor cls q
  let found : Option InitDcor ←
    if ctor = true then do
      let rp ← mark
      let f ← parameterList rec
      let failed ← failedSince rp.raw
      if failed = false then
        match f with
        | none => do
          check false
          pure none
        | some (ps, quals) => do
          rp.cancel
          let i ← functionBody rec
          pure (some (.mk (.mk [.func ps quals noTok .none] q) i noTok))
      else
        rp.backtrack
        rp.cancel
        pure none
    else pure none
  match found with
  | some d => return (acc, [d])
  | none => do
    if valid typename = true ∧ q.nested.isEmpty = true then expected q.first .nestedNamePrefix
    rec (.specs mode cls (acc ++ [.typeId typename q]) true)

/-- The case of `typename`, cpp/ParseSpecifiersAndDeclarators.cpp:848-882. -/
def typenameSpec (mode : Mode) (cls : List Byte) (acc : List Spec) (t : Token) :
    M σ (List Spec × List InitDcor) := do
  let t2 ← readToken
  let isEll : Bool := t2.type == .ellipsis
  let ell := if isEll = true then t2 else noTok
  if isEll = false then pushBack t2
  let q ← rec (.qid .requireCompleteOrEmpty)
  if mode = .templateParam ∧ acc.isEmpty = true ∧ (QId.nested q).isEmpty = true then
    match QId.unqual q with
    | .ident name => do
      let i ← typeIdInit rec
      return ([.typeParam t ell name], [.mk (.mk [] q) i noTok])
    | .empty => do
      let i ← typeIdInit rec
      return ([.typeParam t ell noTok], [.mk (.mk [] q) i noTok])
    | u => do
      expected u.first .identifier
      return ([.typeParam t ell noTok], [])
  else
    if valid ell = true then expected ell .qualifiedID
    typeSpec rec mode cls acc t q

/-- What is expected if there is no type specifier, cpp/ParseSpecifiersAndDeclarators.cpp:949-973. -/
def missingType (mode : Mode) (t : Token) : M σ Unit :=
  match mode with
  | .globalOrMember => pure ()
  | .param => expected t .parameterType
  | .templateParam => expected t .templateParameterDecl
  | .typeId => expected t .typeSpecifier

/-- The loop of `parseSpecifiersAndDeclarators`, cpp/ParseSpecifiersAndDeclarators.cpp:669-978.  `hasType` is
`typeSpecifierIndex >= 0`. -/
def specsBody (mode : Mode) (cls : List Byte) (acc : List Spec) (hasType : Bool) :
    M σ (List Spec × List InitDcor) := do
  let t ← readToken
  if t.type = .identifier then
    if t.text = bs ['e', 'x', 't', 'e', 'r', 'n'] then
      unmute
      let l ← readToken
      if l.type = .stringLiteral then rec (.specs mode cls (acc ++ [.linkage t l]) hasType)
      else
        pushBack l
        rec (.specs mode cls (acc ++ [.keyword t]) hasType)
    else if t.text ∈ keywordWords then
      unmute
      rec (.specs mode cls (acc ++ [.keyword t]) hasType)
    else if mode = .globalOrMember ∧ t.text = bs ['a', 'l', 'i', 'g', 'n', 'a', 's'] then
      unmute
      let o ← readToken
      if o.type ≠ .openParen then
        expected o .openParen t
        rec (.specs mode cls acc hasType)
      else
        let _ ← rec (.specs .typeId [] [] false)
        let (ok, _) ← closeScope rec o
        if ok = true then rec (.specs mode cls acc hasType) else return (acc, [])
    else if mode = .globalOrMember ∧ t.text = bs ['t', 'y', 'p', 'e', 'd', 'e', 'f'] then
      unmute
      rec (.specs mode cls acc hasType)
    else if mode ≠ .templateParam ∧ t.text ∈ classWords then
      unmute
      if hasType = true then error true ⟨.tooManyTypeSpecifiers, t, .none, {}⟩
      let s ← recordSpec rec t
      rec (.specs mode cls (acc ++ [s]) true)
    else if mode ≠ .templateParam ∧ t.text = bs ['e', 'n', 'u', 'm'] then
      unmute
      if hasType = true then error true ⟨.tooManyTypeSpecifiers, t, .none, {}⟩
      let s ← enumSpec rec t
      rec (.specs mode cls (acc ++ [s]) true)
    else if mode = .globalOrMember ∧ t.text = bs ['o', 'p', 'e', 'r', 'a', 't', 'o', 'r'] ∧ hasType = false then
      let d ← conversionFunc rec t
      return (acc, [d])
    else
      unmute
      if hasType = true then
        pushBack t
        let ds ← parseInitDcors rec mode
        return (acc, ds)
      else if t.text = bs ['t', 'y', 'p', 'e', 'n', 'a', 'm', 'e'] then typenameSpec rec mode cls acc t
      else
        pushBack t
        let q ← rec (.qid .requireComplete)
        check (!QId.isEmpty q)
        typeSpec rec mode cls acc noTok q
  else
    if hasType = false then missingType mode t
    pushBack t
    let ds ← parseInitDcors rec mode
    return (acc, ds)

/-! ## Declarations, cpp/ParseDeclarations.cpp -/

/-- `parseRequiredSemicolon`, cpp/ParseDeclarations.cpp:13-24. -/
def requiredSemicolon : M σ Token := do
  let s ← readToken
  if s.type = .semicolon then
    unmute
    return s
  else
    expected s .semicolon
    pushBack s
    return noTok

/-- `requiresTrailingSemicolon`, cpp/ParseDeclarations.cpp:107-111. -/
def needsSemicolon (ds : List InitDcor) : Bool :=
  match ds.getLast? with
  | none => false
  | some (.mk _ i _) => !i.isBody

/-- `parseSimpleDeclaration`, cpp/ParseDeclarations.cpp:90-118. -/
def simpleDeclaration (cls : List Byte) : M σ Decl := do
  let start ← peek
  let (raw, _) ← activity
  let (specs, ds) ← rec (.specs .globalOrMember cls [] false)
  let failed ← failedSince raw
  if failed = false then
    unmute
    if ds.isEmpty = true ∧ specs.any Spec.isType = false then
      error false ⟨.missingDeclaration, start, .none, {}⟩
  let semi ← if needsSemicolon ds = true then requiredSemicolon else pure noTok
  return .simple specs ds semi

/-- The case of `extern`, cpp/ParseDeclarations.cpp:126-162.  The restore point lives until the end, unless it
is cancelled. -/
def externDecl (cls : List Byte) (t : Token) : M σ Decl := do
  unmute
  pushBack t
  let rp ← mark
  let e ← readToken
  let l ← readToken
  if l.type ≠ .stringLiteral then
    rp.backtrack
    let d ← simpleDeclaration rec cls
    rp.cancel
    return d
  else
    let o ← readToken
    if o.type = .openCurly then
      rp.cancel
      let (ds, c) ← declarationList rec true []
      return .linkage e l o c ds
    else
      rp.backtrack
      let d ← simpleDeclaration rec cls
      rp.cancel
      return d

/-- The case of `using`, cpp/ParseDeclarations.cpp:241-278. -/
def usingDecl (t : Token) : M σ (Option Decl) := do
  unmute
  let t2 ← readToken
  if t2.type = .identifier ∧ t2.text = bs ['n', 'a', 'm', 'e', 's', 'p', 'a', 'c', 'e'] then
    let q ← rec (.qid .requireComplete)
    let s ← requiredSemicolon
    return some (.usingDir t t2 q s)
  else
    let e ← readToken
    if e.type ≠ .singleEqual then
      expected e .equal t2
      pushBack e
      return none
    else
      let (specs, dcors) ← rec (.specs .typeId [] [] false)
      match dcors with
      | [.mk d _ _] => do
        let s ← requiredSemicolon
        return some (.alias t t2 e specs d s)
      | _ => do
        check false
        return none

/-- The case of `namespace`, cpp/ParseDeclarations.cpp:197-221. -/
def namespaceDecl (t : Token) : M σ Decl := do
  unmute
  let n ← readToken
  let named : Bool := n.type == .identifier
  if named = true then pushBack n
  let q ← if named = true then rec (.qid .requireComplete) else pure QId.none
  let o ← if named = true then readToken else pure n
  if o.type = .openCurly then
    let (ds, c) ← declarationList rec true []
    return .ns t q o c ds
  else
    expected o .openCurly
    pushBack o
    return .ns t q noTok noTok []

/-- The case of `template`, cpp/ParseDeclarations.cpp:222-240, with the assertion in
`ParseSupervisor::doExit`, cpp/ParseMisc.cpp:13-16. -/
def templateDecl (cls : List Byte) (t : Token) : M σ (Option Decl) := do
  unmute
  let t2 ← readToken
  pushBack t2
  let ps ← if t2.type = .openAngle then withAngles (rec (.params true))
           else pure (Params.mk noTok noTok [])
  let (_, d) ← rec (.decl cls)
  match d with
  | some d => return some (.tmpl t ps d)
  | none => do
    check false
    return none

/-- The case of `static_assert`, cpp/ParseDeclarations.cpp:176-196. -/
def staticAssertDecl (t : Token) : M σ (Option Decl) := do
  unmute
  let o ← readToken
  if o.type ≠ .openParen then
    expected o .openParen t
    pushBack o
    return none
  else
    let c ← skipAny rec o
    match c with
    | none => return none
    | some c => do
      let s ← requiredSemicolon
      return some (.staticAssert t o c s)

/-- The case of an access specifier, cpp/ParseDeclarations.cpp:163-175. -/
def accessDecl (t : Token) : M σ (Option Decl) := do
  unmute
  let c ← readToken
  if c.type = .singleColon then return some (.access t c)
  else
    expected c .colon t
    pushBack c
    return none

/-- `parseDeclaration`, cpp/ParseDeclarations.cpp:121-296. -/
def declBody (cls : List Byte) : M σ (Bool × Option Decl) := do
  let t ← readToken
  if t.type = .identifier then
    if t.text = bs ['e', 'x', 't', 'e', 'r', 'n'] then
      let d ← externDecl rec cls t
      return (true, some d)
    else if t.text ∈ accessWords then
      let d ← accessDecl t
      return (true, d)
    else if t.text = bs ['s', 't', 'a', 't', 'i', 'c', '_', 'a', 's', 's', 'e', 'r', 't'] then
      let d ← staticAssertDecl rec t
      return (true, d)
    else if t.text = bs ['n', 'a', 'm', 'e', 's', 'p', 'a', 'c', 'e'] then
      let d ← namespaceDecl rec t
      return (true, some d)
    else if t.text = bs ['t', 'e', 'm', 'p', 'l', 'a', 't', 'e'] then
      let d ← templateDecl rec cls t
      return (true, d)
    else if t.text = bs ['u', 's', 'i', 'n', 'g'] then
      let d ← usingDecl rec t
      return (true, d)
    else
      pushBack t
      let d ← simpleDeclaration rec cls
      return (true, some d)
  else if t.type = .semicolon then return (true, some (.empty t))
  else if t.type = .tilde then
    pushBack t
    let d ← simpleDeclaration rec cls
    return (true, some d)
  else
    pushBack t
    return (false, none)

/-- The loop of `parseDeclarationList`, cpp/ParseDeclarations.cpp:303-322. -/
def declLoopBody (inner : Bool) (cls : List Byte) (acc : List Decl) : M σ (List Decl × Token) := do
  let t ← readToken
  if t.type = (if inner = true then TT.closeCurly else .endOfFile) then return (acc, t)
  else
    pushBack t
    let (read, d) ← rec (.decl cls)
    if read = true then rec (.declLoop inner cls (acc ++ d.toList))
    else
      let t ← readToken
      expected t .declaration
      if t.type ≠ .closeCurly then
        let (stay, _) ← handleUnexpected rec t
        if stay = true then rec (.declLoop inner cls (acc ++ d.toList))
        else
          check (t.type == .endOfFile)
          return (acc ++ d.toList, noTok)
      else rec (.declLoop inner cls (acc ++ d.toList))

/-! ## All together -/

/-- The body of each call. -/
def body : (c : Call) → M σ c.Out
  | .skipLoop o => skipLoopBody rec o
  | .consumeSpec => consumeSpecBody rec
  | .expr optional => exprBody rec optional
  | .args close exp => argsBody rec close exp
  | .strings stop => stringsBody rec stop
  | .nested acc => nestedBody rec acc
  | .targs acc => targsBody rec acc
  | .targSep stop => targSepBody rec stop
  | .qid mode => qidBody rec mode
  | .params tmpl => paramsBody rec tmpl
  | .paramLoop tmpl acc => paramLoopBody rec tmpl acc
  | .quals acc => qualsBody rec acc
  | .convType got acc => convTypeBody rec got acc
  | .convType2 allowQualifier chain => convType2Body rec allowQualifier chain
  | .dcor nested named abs => dcorBody rec nested named abs
  | .phase1 named abs chain allowQualifier => phase1Body rec named abs chain allowQualifier
  | .phase2 chain at_ expecting => phase2Body rec chain at_ expecting
  | .memberInits => memberInitsBody rec
  | .initDcors acc => initDcorsBody rec acc
  | .bases acc => basesBody rec acc
  | .virts acc => virtsBody rec acc
  | .enumBody acc => enumBodyBody rec acc
  | .specs mode cls acc hasType => specsBody rec mode cls acc hasType
  | .decl cls => declBody rec cls
  | .declLoop inner cls acc => declLoopBody rec inner cls acc

/-- A call, with calls nested up to the given depth. -/
def go : Nat → (c : Call) → M σ c.Out
  | 0, _ => fun _ => .stop .fuel
  | n + 1, c => body (go n) c

/-- `parseTranslationUnit`, cpp/ParseDeclarations.cpp:325-334. -/
def translationUnit : M σ (List Decl) := do
  let (ds, _) ← declarationList rec false []
  let e ← readToken
  check (e.type == .endOfFile)
  return ds

/-! ## Sources -/

/-- Tokens that are given: at the end, the end of the file is read again and again.
`tokenizeCloseAnglesOnly` makes no difference. -/
instance : Source (List Token) where
  next := fun _ l =>
    let cs := l.takeWhile fun t => skipped t.type
    match l.drop cs.length with
    | [] => some (cs, ⟨-1, .endOfFile, []⟩, [])
    | t :: l => some (cs, t, l)

/-- Tokens read from the preprocessor until one is neither comment nor directive nor macro,
cpp/ParseMisc.cpp:99-117; `acc` are those before. -/
def nextOf : (fuel : Nat) → (acc : List Token) → PP → Option (List Token × Token × PP)
  | 0, _, _ => none
  | fuel + 1, acc, pp =>
    match Cpp.readToken pp with
    | none => none
    | some (t, pp) => if skipped t.type = true then nextOf fuel (acc ++ [t]) pp else some (acc, t, pp)

/-- The tokens of a source text, as `Cpp.readToken` reads them.  At most as many tokens as there are bytes
left can be comments, directives or macros. -/
instance : Source PP where
  next := fun angles pp =>
    nextOf ((pp.stack.map fun f => f.rest.length).sum + 1) [] { pp with angles := angles }

/-- `parse` of cpp/ParseAPI.cpp:13-62 for a source text, without macros and with nothing parsed before;
`n` limits the depth of calls. -/
def parseText (n : Nat) (text : List Byte) : R PP (List Decl) :=
  translationUnit (go n) { src := PP.init [] text }

/-- `parseTranslationUnit` for given tokens. -/
def parseTokens (n : Nat) (l : List Token) : R (List Token) (List Decl) :=
  translationUnit (go n) { src := l }

end Verif.CppParse
