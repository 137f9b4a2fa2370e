import Verif.Crowbar.ModelParse
import Verif.Str.Model

/-!
# The Crowbar interpreter

`cb/` is `crowbar/ply-crowbar/`, `rf/` is `reflect/ply-reflect/`.  The host is the one of
apps/CrowbarTest/Main.cpp:39-119: no hooks, the built-in names `print`, `true` and `false`, the functions of one
parsed file, and a function without parameters to call.  Objects of the host's own structs are not modelled.

An object of the stack `localVariableStorage` is a number that is never given to another object, with its
value.  An object that is moved to another address gets a new number, so a pointer to its old address is a
pointer to no object.  Using a pointer to no object is undefined behaviour (`Stop.ub`), as is a failed
assertion or a null pointer followed.  What is not modelled ends in `Stop.outside`: a stack of objects that
needs more than the first block of memory, texts of 2^32 bytes or more, moving or using a function definition as
a value, and writing to an object outside the stack.  Positions of errors are left out, the names of the
functions in the trace are kept.
-/

namespace Verif.Crowbar
open Verif

/-- `Statement::FunctionDefinition`, cb/ParseTree.h:76-83. -/
structure Func where
  name : List Byte
  params : List (List Byte)
  body : Option (List Stmt)

/-- The value of an object: `u32`, `bool`, `String`, a function definition, or the built-in function `print`
of apps/CrowbarTest/Main.cpp:13-31. -/
inductive Val
  | u32 (v : UInt32)
  | bool (b : Bool)
  | str (s : List Byte)
  | func (f : Func)
  | print

/-- The type descriptors of these values, rf/builtin/TypeDescriptor_Arithmetic.cpp:164-169,
TypeDescriptor_Bool.cpp:69-74, TypeDescriptor_String.cpp:49-54, cb/ParseTree.h:98 and
rf/builtin/TypeDescriptor_Function.h:19-28. -/
inductive Ty | u32 | bool | str | func | builtin
  deriving DecidableEq, Repr

/-- The type stored beside the pointer in an `AnyObject`, rf/AnyObject_Def.h:15-17. -/
def Val.ty : Val → Ty
  | .u32 _ => .u32
  | .bool _ => .bool
  | .str _ => .str
  | .func _ => .func
  | .print => .builtin

/-- The messages given to `interp->error`: "cannot resolve identifier '…'" (cb/Interpreter.cpp:186-188),
"'…' does not support binary operator '…'", "'…' does not support unary operator '…'", "'…' does not support
property lookup", "cannot call '…' as a function" (rf/methods/MethodTable.cpp:40-85) and "'…' does not support
printing" (apps/CrowbarTest/Main.cpp:22-23). -/
inductive Msg
  | unresolved (n : List Byte)
  | noBinary (t : Ty) (op : BinOp)
  | noUnary (t : Ty) (op : UnOp)
  | noProperty (t : Ty)
  | noCall (t : Ty)
  | noPrint (t : Ty)
  deriving DecidableEq, Repr

/-- What is written to `interp->outs`: the text of `print`, or an error with the names of the functions being
executed, innermost first (apps/CrowbarTest/Main.cpp:87-101). -/
inductive Event
  | text (s : List Byte)
  | error (m : Msg) (trace : List (List Byte))
  deriving DecidableEq, Repr

/-- A non-null `AnyObject`: an object that exists for the whole run (a literal of the parse tree, a built-in
or a function definition), or an object of the stack. -/
inductive Ptr
  | static (v : Val)
  | obj (id : Nat)

/-- `BaseInterpreter`, rf/methods/BaseInterpreter.h:13-19, with the items of `ObjectStack`
(rf/methods/ObjectStack.h:27-28), the bottom first; `next` is the first unused number. -/
structure St where
  objs : List (Nat × Val)
  next : Nat
  out : List Event

/-- Why a run ends early: undefined behaviour, something not modelled, or too few nested calls allowed. -/
inductive Stop | ub | outside | fuel
  deriving DecidableEq, Repr

/-- `MethodResult` with the returned value, rf/methods/MethodTable.h:15-19: `err` is `MethodResult::Error`. -/
inductive Run (α : Type)
  | ok (a : α) (s : St)
  | err (s : St)
  | stop (w : Stop)

/-- Going on after success, the `if (result != MethodResult::OK) return result` of cb/Interpreter.cpp:37-38. -/
def Run.bind (r : Run α) (f : α → St → Run β) : Run β :=
  match r with
  | .ok a s => f a s
  | .err s => .err s
  | .stop w => .stop w

/-- `StackFrame`, cb/Interpreter.h:37-43: the names of the functions of this frame and the ones that called
it, and the table of local variables. -/
structure Frame where
  trace : List (List Byte)
  vars : List Byte → Option Nat

/-- `TypeDescriptor::fixedSize` (rf/TypeDescriptor_Def.h:100) on a 64-bit machine; only the types that are
ever put on the stack matter. -/
def Ty.size : Ty → Nat
  | .u32 => 4
  | .bool => 1
  | .str => 16
  | .func => 32
  | .builtin => 8

/-- The bytes used in the storage of the stack, `numBytesUsed` of rt/container/BlockList.h:30. -/
def St.bytes (s : St) : Nat := (s.objs.map fun o => o.2.ty.size).sum

/-- The value of an object of the stack; `none` if there is no such object any more. -/
def St.get (s : St) (id : Nat) : Option Val := (s.objs.find? fun o => o.1 == id).map Prod.snd

/-- The value behind a non-null pointer; `none` is undefined behaviour. -/
def St.read (s : St) : Ptr → Option Val
  | .static v => some v
  | .obj id => s.get id

/-- Writing an object of the stack. -/
def St.write (s : St) (id : Nat) (v : Val) : St :=
  { s with objs := s.objs.map fun o => if o.1 = id then (o.1, v) else o }

/-- `ObjectStack::appendObject`, rf/methods/ObjectStack.cpp:11-16, with the value stored next.  Outside of the
model if the storage or the item list needs a second block of 2048 bytes (rt/container/BlockList.h:16). -/
def push (v : Val) (s : St) : Run Nat :=
  if s.objs.length < 128 ∧ s.bytes + v.ty.size ≤ 2048 then
    .ok s.next { s with objs := s.objs ++ [(s.next, v)], next := s.next + 1 }
  else .stop .outside

/-- `isReturnValueOnTopOfStack`, cb/Interpreter.cpp:51-54. -/
def St.onTop (s : St) : Ptr → Bool
  | .static _ => false
  | .obj id => s.objs.getLast?.map Prod.fst == some id

/-- `ObjectStack::deleteRange`, rf/methods/ObjectStack.cpp:27-62, from a boundary to the end. -/
def St.cut (s : St) (base : Nat) : St := { s with objs := s.objs.take base }

/-- `ObjectStack::deleteRange` (the same) from a boundary up to the last object, which is moved down if
anything is deleted.  If there is no object above the boundary, the loop of lines 30-32 runs past the end. -/
def cutBelowTop (base : Nat) (s : St) : Run Nat :=
  match s.objs.getLast? with
  | none => .stop .ub
  | some (id, v) =>
    if s.objs.length ≤ base then .stop .ub
    else if s.objs.length = base + 1 then .ok id s
    else .ok s.next { s with objs := s.objs.take base ++ [(s.next, v)], next := s.next + 1 }

/-- What a moved-from object holds: rt/string/String.h:83-86 empties a string, numbers are kept. -/
def Val.movedFrom : Val → Val
  | .str _ => .str []
  | v => v

/-- `AnyObject::move`, rf/AnyObject.h:63-65 and rf/TypeDescriptor_Def.h:80-84: to an object of the stack.  The
types must be the same. -/
def move (dst : Nat) (src : Ptr) (s : St) : Run Unit :=
  match s.get dst, s.read src with
  | some d, some v =>
    if d.ty ≠ v.ty then .stop .ub
    else if v.ty = .func ∨ v.ty = .builtin then .stop .outside
    else match src with
      | .static _ => .ok () (s.write dst v)
      | .obj id => .ok () ((s.write dst v).write id v.movedFrom)
  | _, _ => .stop .ub

/-- Reporting an error, for example cb/Interpreter.cpp:186-189. -/
def fail (trace : List (List Byte)) (m : Msg) (s : St) : Run α :=
  .err { s with out := s.out ++ [.error m trace] }

/-- What an operator does. -/
inductive OpRes
  | val (v : Val)
  | unsupported
  | ub
  | outside

/-- The new text of an operation on strings (rt/string/StringView.cpp:172-187); outside of the model if its
length does not fit. -/
def strRes : Option (List Byte) → OpRes
  | some t => .val (.str t)
  | none => .outside

/-- `ArithmeticMethodTable::binaryOp` for `u32`, rf/builtin/TypeDescriptor_Arithmetic.cpp:22-89; dividing by
zero is undefined behaviour. -/
def binU32 (op : BinOp) (a b : UInt32) : OpRes :=
  match op with
  | .multiply => .val (.u32 (a * b))
  | .divide => if b = 0 then .ub else .val (.u32 (a / b))
  | .modulo => if b = 0 then .ub else .val (.u32 (a % b))
  | .add => .val (.u32 (a + b))
  | .subtract => .val (.u32 (a - b))
  | .doubleEqual => .val (.bool (a == b))
  | .lessThan => .val (.bool (a < b))
  | .lessThanOrEqual => .val (.bool (a ≤ b))
  | .greaterThan => .val (.bool (b < a))
  | .greaterThanOrEqual => .val (.bool (b ≤ a))
  | _ => .unsupported

/-- Whether the method table of `u32` supports the operator, rf/builtin/TypeDescriptor_Arithmetic.cpp:24-88. -/
def binU32Has : BinOp → Bool
  | .logicalAnd => false
  | .logicalOr => false
  | _ => true

/-- `left.type->methods.binaryOp`, cb/Interpreter.cpp:91: for `u32` as above, for `bool`
rf/builtin/TypeDescriptor_Bool.cpp:20-48, for `String` TypeDescriptor_String.cpp:21-42.  The second operand is
cast, which asserts its type (rf/AnyObject.h:25-32). -/
def binVal (op : BinOp) (a b : Val) : OpRes :=
  match a with
  | .u32 x =>
    if binU32Has op then
      match b with
      | .u32 y => binU32 op x y
      | _ => .ub
    else .unsupported
  | .bool x =>
    match op with
    | .doubleEqual => match b with | .bool y => .val (.bool (x == y)) | _ => .ub
    | .logicalAnd => match b with | .bool y => .val (.bool (x && y)) | _ => .ub
    | .logicalOr => match b with | .bool y => .val (.bool (x || y)) | _ => .ub
    | _ => .unsupported
  | .str x =>
    match op with
    | .add => match b with | .str y => strRes (Str.concat x y) | _ => .ub
    | .multiply => match b with | .u32 y => strRes (Str.times x y.toNat) | _ => .ub
    | _ => .unsupported
  | .func _ => .outside
  | .print => .outside

/-- `obj.type->methods.unaryOp`, cb/Interpreter.cpp:105, rf/builtin/TypeDescriptor_Arithmetic.cpp:90-115 and
TypeDescriptor_Bool.cpp:49-62; `String` has none (TypeDescriptor_String.cpp:20). -/
def unVal (op : UnOp) (a : Val) : OpRes :=
  match a with
  | .u32 x =>
    match op with
    | .negate => .val (.u32 (-x))
    | .logicalNot => .val (.u32 (if x = 0 then 1 else 0))
    | .bitComplement => .val (.u32 (~~~x))
  | .bool x =>
    match op with
    | .logicalNot => .val (.bool (!x))
    | _ => .unsupported
  | .str _ => .unsupported
  | .func _ => .outside
  | .print => .outside

/-- The new object made by an operator, or the error. -/
def opResult (trace : List (List Byte)) (m : Msg) (r : OpRes) (s : St) : Run (Option Ptr) :=
  match r with
  | .val v => (push v s).bind fun id s => .ok (some (.obj id)) s
  | .unsupported => fail trace m s
  | .ub => .stop .ub
  | .outside => .stop .outside

/-- The bytes of `true` and `false`, rt/io/impl/FormatString.cpp:189-191. -/
def boolText (b : Bool) : List Byte :=
  if b then [116, 114, 117, 101] else [102, 97, 108, 115, 101]

/-- `write`, cb/Interpreter.cpp:16-26: the text put in place of an embedded expression; `none` is the
assertion. -/
def valText : Val → Option (List Byte)
  | .u32 v => Num.printU64 v.toNat 10 false
  | .bool b => some (boolText b)
  | .str s => some s
  | .func _ => none
  | .print => none

/-- Following a pointer that may be null. -/
def deref (p : Option Ptr) (s : St) : Option Val := p.bind s.read

/-- `lookupName`, cb/Interpreter.cpp:161-176; `outer` finds a name in `outerNameSpaces`, from the last to the
first. -/
def lookupName (outer : List Byte → Option Val) (fr : Frame) (x : List Byte) : Option Ptr :=
  match fr.vars x with
  | some id => some (.obj id)
  | none => (outer x).map .static

/-- `doPrint`, apps/CrowbarTest/Main.cpp:13-27. -/
def doPrint (trace : List (List Byte)) (v : Val) (s : St) : Run (Option Ptr) :=
  match v.ty with
  | .func => fail trace (.noPrint .func) s
  | .builtin => fail trace (.noPrint .builtin) s
  | _ =>
    match valText v with
    | some t => .ok none { s with out := s.out ++ [.text (t ++ [10])] }
    | none => .stop .ub

/-- One argument, cb/Interpreter.cpp:125-133: the object on top of the stack is used as it is, anything else is
moved to a new object. -/
def takeArg (p : Option Ptr) (s : St) : Run Nat :=
  match p with
  | none => .stop .ub
  | some p =>
    if s.onTop p then
      match p with
      | .obj id => .ok id s
      | .static _ => .stop .ub
    else match s.read p with
      | none => .stop .ub
      | some v =>
        if v.ty = .func ∨ v.ty = .builtin then .stop .outside
        else (push v s).bind fun id s =>
          match p with
          | .static _ => .ok id s
          | .obj old => .ok id (s.write old v.movedFrom)

/-- The table of a new frame, cb/Interpreter.cpp:148-151. -/
def bindParams : List (List Byte) → List Nat → (List Byte → Option Nat) → List Byte → Option Nat
  | x :: xs, id :: ids, vars => bindParams xs ids fun y => if y = x then some id else vars y
  | _, _, vars => vars

/-- How a block of statements ends: at its end, or by `return` with a value. -/
inductive Flow
  | next
  | ret (p : Option Ptr)

/-- The end of `execFunction`, cb/Interpreter.cpp:413-424, after the body has run: the local variables are
destroyed, a returned object on top of the stack is kept. -/
def leave (base : Nat) (f : Flow) (s : St) : Run (Option Ptr) :=
  match f with
  | .next => .ok none (s.cut base)
  | .ret none => .ok none (s.cut base)
  | .ret (some p) =>
    if s.objs.length ≠ base ∧ s.onTop p then
      (cutBelowTop base s).bind fun id s => .ok (some (.obj id)) s
    else .ok (some p) (s.cut base)

/-- The destruction of local variables when the body of a function has failed, cb/Interpreter.cpp:413-420. -/
def leaveErr (base : Nat) (r : Run α) : Run α :=
  match r with
  | .err s => .err (s.cut base)
  | r => r

/-- Assigning to a local variable, cb/Interpreter.cpp:294-323; `base` is the end of the stack before the
statement. -/
def assignVar (base : Nat) (fr : Frame) (x : List Byte) (p : Option Ptr) (s : St) : Run Frame :=
  match p with
  | none => .stop .ub
  | some p =>
    match fr.vars x with
    | some id => (move id p s).bind fun _ s => .ok fr (s.cut base)
    | none =>
      if s.onTop p then
        (cutBelowTop base s).bind fun id s =>
          .ok { fr with vars := fun y => if y = x then some id else fr.vars y } s
      else
        match (s.cut base).read p with
        | none => .stop .ub
        | some v =>
          if v.ty = .func ∨ v.ty = .builtin then .stop .outside
          else (push v (s.cut base)).bind fun id s =>
            let s := match p with
              | .static _ => s
              | .obj old => s.write old v.movedFrom
            .ok { fr with vars := fun y => if y = x then some id else fr.vars y } s

/-- Assigning to anything else, cb/Interpreter.cpp:324-330.  Without structs of the host the left side is an
object of the stack or one that is not modelled as writable. -/
def assignOther (base : Nat) (fr : Frame) (l p : Option Ptr) (s : St) : Run Frame :=
  match l, p with
  | some (.obj id), some p => (move id p s).bind fun _ s => .ok fr (s.cut base)
  | some (.static _), some _ => .stop .outside
  | _, _ => .stop .ub

/-- Whether an expression is an `Expression::ID::NameLookup`, cb/Interpreter.cpp:280. -/
def Expr.asName : Expr → Option (List Byte)
  | .name x => some x
  | _ => none

/-- `returnValue.cast<bool>()` of a condition, cb/Interpreter.cpp:235 and 259. -/
def asCond (p : Option Ptr) (s : St) : Option Bool :=
  match deref p s with
  | some (.bool b) => some b
  | _ => none

mutual
/-- `eval`, cb/Interpreter.cpp:178-224, with `evalPropertyLookup` (56-71), `evalBinaryOp` (73-92),
`evalUnaryOp` (94-106) and `evalCall` (108-159) in place. -/
def eval (outer : List Byte → Option Val) : Nat → Frame → Expr → St → Run (Option Ptr)
  | 0, _, _, _ => .stop .fuel
  | n + 1, fr, e, s =>
    match e with
    | .null => .stop .ub
    | .name x =>
      match lookupName outer fr x with
      | some p => .ok (some p) s
      | none => fail fr.trace (.unresolved x) s
    | .int v => .ok (some (.static (.u32 (UInt32.ofNat v)))) s
    | .str pieces =>
      (evalPieces outer n fr pieces [] s).bind fun t s =>
        if t.length < 2 ^ 32 then (push (.str t) s).bind fun id s => .ok (some (.obj id)) s
        else .stop .outside
    | .prop o _ =>
      (eval outer n fr o s).bind fun p s =>
        match deref p s with
        | none => .stop .ub
        | some v =>
          if v.ty = .func ∨ v.ty = .builtin then .stop .outside else fail fr.trace (.noProperty v.ty) s
    | .bin op l r =>
      (eval outer n fr l s).bind fun p s =>
        (eval outer n fr r s).bind fun q s =>
          match deref p s, deref q s with
          | some a, some b => opResult fr.trace (.noBinary a.ty op) (binVal op a b) s
          | _, _ => .stop .ub
    | .un op e =>
      (eval outer n fr e s).bind fun p s =>
        match deref p s with
        | none => .stop .ub
        | some a => opResult fr.trace (.noUnary a.ty op) (unVal op a) s
    | .call c args =>
      (eval outer n fr c s).bind fun p s =>
        (evalArgs outer n fr args s).bind fun ids s =>
          match deref p s with
          | none => .stop .ub
          | some (.func f) => callFunc outer n fr.trace f ids s
          | some .print =>
            match ids with
            | [id] =>
              match s.get id with
              | some v => doPrint fr.trace v s
              | none => .stop .ub
            | _ => .stop .ub
          | some v => fail fr.trace (.noCall v.ty) s

/-- The loop of `evalString`, cb/Interpreter.cpp:32-42; `acc` is what has been written. -/
def evalPieces (outer : List Byte → Option Val) : Nat → Frame → List Piece → List Byte → St → Run (List Byte)
  | 0, _, _, _, _ => .stop .fuel
  | _ + 1, _, [], acc, s => .ok acc s
  | n + 1, fr, .mk lit e :: ps, acc, s =>
    if e.isNull then evalPieces outer n fr ps (acc ++ lit) s
    else
      (eval outer n fr e s).bind fun p s =>
        match (deref p s).bind valText with
        | some t => evalPieces outer n fr ps (acc ++ lit ++ t) s
        | none => .stop .ub

/-- The loop over the arguments, cb/Interpreter.cpp:119-134. -/
def evalArgs (outer : List Byte → Option Val) : Nat → Frame → List Expr → St → Run (List Nat)
  | 0, _, _, _ => .stop .fuel
  | _ + 1, _, [], s => .ok [] s
  | n + 1, fr, e :: es, s =>
    (eval outer n fr e s).bind fun p s =>
      (takeArg p s).bind fun id s =>
        (evalArgs outer n fr es s).bind fun ids s => .ok (id :: ids) s

/-- Calling a Crowbar function, cb/Interpreter.cpp:137-154, and `execFunction`, 403-427. -/
def callFunc (outer : List Byte → Option Val) : Nat → List (List Byte) → Func → List Nat → St → Run (Option Ptr)
  | 0, _, _, _, _ => .stop .fuel
  | n + 1, trace, f, ids, s =>
    if ids.length ≠ f.params.length then .stop .ub
    else match f.body with
      | none => .stop .ub
      | some body =>
        leaveErr s.objs.length
          ((execBlock outer n ⟨f.name :: trace, bindParams f.params ids fun _ => none⟩ body s).bind
            fun r s' => leave s.objs.length r.2 s')

/-- `execBlock`, cb/Interpreter.cpp:334-401, with `execIf` (226-247), `execWhile` (249-272) and `execAssign`
(274-332) in place. -/
def execBlock (outer : List Byte → Option Val) : Nat → Frame → List Stmt → St → Run (Frame × Flow)
  | 0, _, _, _ => .stop .fuel
  | _ + 1, fr, [], s => .ok (fr, .next) s
  | n + 1, fr, st :: rest, s =>
    match st with
    | .if_ c t f =>
      (eval outer n fr c s).bind fun p s' =>
        match asCond p s' with
        | none => .stop .ub
        | some b =>
          match t with
          | none => .stop .ub
          | some tb =>
            (execBlock outer n fr (if b then tb else f.getD []) (s'.cut s.objs.length)).bind fun r s' =>
              match r.2 with
              | .next => execBlock outer n r.1 rest s'
              | .ret p => .ok (r.1, .ret p) s'
    | .while_ c b =>
      (eval outer n fr c s).bind fun p s' =>
        match asCond p s' with
        | none => .stop .ub
        | some false => execBlock outer n fr rest (s'.cut s.objs.length)
        | some true =>
          match b with
          | none => .stop .ub
          | some body =>
            (execBlock outer n fr body (s'.cut s.objs.length)).bind fun r s' =>
              match r.2 with
              | .next => execBlock outer n r.1 (.while_ c (some body) :: rest) s'
              | .ret p => .ok (r.1, .ret p) s'
    | .assign l r =>
      match l.asName with
      | some x =>
        (eval outer n fr r s).bind fun p s' =>
          (assignVar s.objs.length fr x p s').bind fun fr s' => execBlock outer n fr rest s'
      | none =>
        (eval outer n fr l s).bind fun lp s' =>
          (eval outer n fr r s').bind fun p s' =>
            (assignOther s.objs.length fr lp p s').bind fun fr s' => execBlock outer n fr rest s'
    | .eval e =>
      (eval outer n fr e s).bind fun _ s' => execBlock outer n fr rest (s'.cut s.objs.length)
    | .ret e => (eval outer n fr e s).bind fun p s' => .ok (fr, .ret p) s'
    | .func _ _ _ => .stop .ub
end

/-- The name `print`, apps/CrowbarTest/Main.cpp:31. -/
def nmPrint : List Byte := [112, 114, 105, 110, 116]
/-- The name `true`, apps/CrowbarTest/Main.cpp:35. -/
def nmTrue : List Byte := [116, 114, 117, 101]
/-- The name `false`, apps/CrowbarTest/Main.cpp:36. -/
def nmFalse : List Byte := [102, 97, 108, 115, 101]

/-- `addBuiltIns`, apps/CrowbarTest/Main.cpp:30-37. -/
def builtIns (x : List Byte) : Option Val :=
  if x = nmPrint then some .print
  else if x = nmTrue then some (.bool true)
  else if x = nmFalse then some (.bool false)
  else none

/-- The namespace of the functions of a file, apps/CrowbarTest/Main.cpp:69-74: a later definition replaces an
earlier one of the same name. -/
def functionsOf : List Stmt → List Byte → Option Func
  | [], _ => none
  | .func name params body :: rest, x =>
    match functionsOf rest x with
    | some f => some f
    | none => if x = name then some ⟨name, params, body⟩ else none
  | _ :: rest, x => functionsOf rest x

/-- `interp.outerNameSpaces`, apps/CrowbarTest/Main.cpp:85-86, searched from the last. -/
def outerOf (file : List Stmt) (x : List Byte) : Option Val :=
  match functionsOf file x with
  | some f => some (.func f)
  | none => builtIns x

/-- How a whole run ends. -/
inductive Outcome
  | done (out : List Event)
  | stop (w : Stop)
  deriving DecidableEq, Repr

/-- `callScriptFunction` after the file has been parsed, apps/CrowbarTest/Main.cpp:63-118, without arguments:
the events written. -/
def callScript (n : Nat) (file : List Stmt) (name : List Byte) : Outcome :=
  match functionsOf file name with
  | none => .done []
  | some f =>
    match callFunc (outerOf file) n [] f [] ⟨[], 0, []⟩ with
    | .ok _ s => .done s.out
    | .err s => .done s.out
    | .stop w => .stop w

end Verif.Crowbar
