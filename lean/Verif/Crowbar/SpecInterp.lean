import Verif.Crowbar.ModelInterp

/-!
# What a Crowbar program means

A plain interpreter in which a variable is a name for a value: assigning, passing and returning copy the value
and change nothing else.  There is no stack of objects here.

A value is *borrowed* when the expression it comes from is a variable by itself, or a call whose function
returned one of its parameters in that way.  The language as implemented treats values that are handed on —
assigned, passed, returned — in different ways depending on whether they are borrowed, so some programs are left
without a meaning (`unspec`): those that hand on a borrowed string, that pass a borrowed value for a parameter
the function assigns to, that treat a function as a value, or that assign to something other than a name.  With
`strict` no borrowed value may be handed on at all.  `wrong` is a program that uses a value of the wrong type,
divides by zero or has a hole in its tree.
-/

namespace Verif.Crowbar
open Verif

/-- Decimal digits. -/
def digitsText (n : Nat) : List Byte :=
  if n < 10 then [UInt8.ofNat (48 + n)] else digitsText (n / 10) ++ [UInt8.ofNat (48 + n % 10)]
decreasing_by omega

inductive VStop | wrong | unspec | fuel
  deriving DecidableEq, Repr

inductive VRun (α : Type)
  | ok (a : α) (out : List Event)
  | err (out : List Event)
  | stop (w : VStop)

def VRun.bind (r : VRun α) (f : α → List Event → VRun β) : VRun β :=
  match r with
  | .ok a out => f a out
  | .err out => .err out
  | .stop w => .stop w

/-- A value, or nothing for a call of a function that does not return one. -/
structure Value where
  val : Option Val
  borrowed : Bool

/-- The names of the functions being executed, the parameters of the innermost and its variables. -/
structure VFrame where
  trace : List (List Byte)
  params : List (List Byte)
  vars : List Byte → Option Val

mutual
/-- Whether a statement assigns to a name, in itself or in a block of it. -/
def Stmt.assigns (x : List Byte) : Stmt → Bool
  | .if_ _ t f => assignsOpt x t || assignsOpt x f
  | .while_ _ b => assignsOpt x b
  | .assign l _ => l.asName == some x
  | .eval _ => false
  | .ret _ => false
  | .func _ _ _ => false
def assignsOpt (x : List Byte) : Option (List Stmt) → Bool
  | none => false
  | some b => assignsAny x b
def assignsAny (x : List Byte) : List Stmt → Bool
  | [] => false
  | st :: rest => st.assigns x || assignsAny x rest
end

inductive VOp
  | val (v : Val)
  | unsupported
  | wrong
  | unspec

/-- Numbers are the remainders modulo 2^32. -/
def num (n : Nat) : VOp := .val (.u32 (UInt32.ofNat n))
def truth (b : Bool) : VOp := .val (.bool b)

def vbin (op : BinOp) : Val → Val → VOp
  | .u32 a, .u32 b =>
    match op with
    | .multiply => num (a.toNat * b.toNat)
    | .divide => if b.toNat = 0 then .wrong else num (a.toNat / b.toNat)
    | .modulo => if b.toNat = 0 then .wrong else num (a.toNat % b.toNat)
    | .add => num (a.toNat + b.toNat)
    | .subtract => num (a.toNat + 2 ^ 32 - b.toNat)
    | .doubleEqual => truth (decide (a.toNat = b.toNat))
    | .lessThan => truth (decide (a.toNat < b.toNat))
    | .lessThanOrEqual => truth (decide (a.toNat ≤ b.toNat))
    | .greaterThan => truth (decide (a.toNat > b.toNat))
    | .greaterThanOrEqual => truth (decide (a.toNat ≥ b.toNat))
    | .logicalAnd => .unsupported
    | .logicalOr => .unsupported
  | .u32 _, _ => if op = .logicalAnd ∨ op = .logicalOr then .unsupported else .wrong
  | .bool a, .bool b =>
    match op with
    | .doubleEqual => truth (decide (a = b))
    | .logicalAnd => truth (a && b)
    | .logicalOr => truth (a || b)
    | _ => .unsupported
  | .bool _, _ =>
    if op = .doubleEqual ∨ op = .logicalAnd ∨ op = .logicalOr then .wrong else .unsupported
  | .str a, b =>
    match op, b with
    | .add, .str b => .val (.str (a ++ b))
    | .multiply, .u32 k => .val (.str (List.replicate k.toNat a).flatten)
    | .add, _ => .wrong
    | .multiply, _ => .wrong
    | _, _ => .unsupported
  | .func _, _ => .unspec
  | .print, _ => .unspec

def vun (op : UnOp) : Val → VOp
  | .u32 a =>
    match op with
    | .negate => num (2 ^ 32 - a.toNat)
    | .logicalNot => num (if a.toNat = 0 then 1 else 0)
    | .bitComplement => num (2 ^ 32 - 1 - a.toNat)
  | .bool a => if op = .logicalNot then truth (!a) else .unsupported
  | .str _ => .unsupported
  | .func _ => .unspec
  | .print => .unspec

def Val.text : Val → Option (List Byte)
  | .u32 v => some (digitsText v.toNat)
  | .bool true => some nmTrue
  | .bool false => some nmFalse
  | .str s => some s
  | .func _ => none
  | .print => none

def Val.isFunction : Val → Bool
  | .func _ => true
  | .print => true
  | _ => false

/-- Whether a value may be assigned or passed. -/
def mayHand (strict : Bool) (v : Val) (borrowed : Bool) : Bool :=
  match v with
  | .u32 _ => !(strict && borrowed)
  | .bool _ => !(strict && borrowed)
  | .str _ => !borrowed
  | .func _ => false
  | .print => false

def vfail (trace : List (List Byte)) (m : Msg) (out : List Event) : VRun α := .err (out ++ [.error m trace])

def vop (trace : List (List Byte)) (m : Msg) (r : VOp) (out : List Event) : VRun Value :=
  match r with
  | .val v => .ok ⟨some v, false⟩ out
  | .unsupported => vfail trace m out
  | .wrong => .stop .wrong
  | .unspec => .stop .unspec

/-- Handing on a value. -/
def hand (strict : Bool) (g : Value) (out : List Event) : VRun Val :=
  match g.val with
  | none => .stop .wrong
  | some v => if mayHand strict v g.borrowed then .ok v out else .stop .unspec

/-- The value named by a parameter: the last argument given for that name. -/
def vbind : List (List Byte) → List Val → (List Byte → Option Val) → List Byte → Option Val
  | x :: xs, v :: vs, vars => vbind xs vs fun y => if y = x then some v else vars y
  | _, _, vars => vars

/-- Whether a borrowed argument is given for a parameter that the body assigns to. -/
def clash (body : List Stmt) : List (List Byte) → List (Val × Bool) → Bool
  | x :: xs, (_, b) :: vs => (b && assignsAny x body) || clash body xs vs
  | _, _ => false

/-- `none`: the end of the block was reached. -/
abbrev VFlow := Option Value

/-- The condition of `if` and `while`. -/
def Value.cond (g : Value) : Option Bool :=
  match g.val with
  | some (.bool b) => some b
  | _ => none

/-- Whether the value of a returned expression stays borrowed: not if it is a variable of the function that
ends. -/
def stillBorrowed (params : List (List Byte)) (e : Expr) (g : Value) : Bool :=
  match e.asName with
  | some x => g.borrowed && params.contains x
  | none => g.borrowed

mutual
def veval (strict : Bool) (outer : List Byte → Option Val) : Nat → VFrame → Expr → List Event → VRun Value
  | 0, _, _, _ => .stop .fuel
  | n + 1, fr, e, out =>
    match e with
    | .null => .stop .wrong
    | .name x =>
      match fr.vars x with
      | some v => .ok ⟨some v, true⟩ out
      | none =>
        match outer x with
        | some v => .ok ⟨some v, false⟩ out
        | none => vfail fr.trace (.unresolved x) out
    | .int v => .ok ⟨some (.u32 (UInt32.ofNat v)), false⟩ out
    | .str pieces =>
      (vpieces strict outer n fr pieces out).bind fun t out => .ok ⟨some (.str t), false⟩ out
    | .prop o _ =>
      (veval strict outer n fr o out).bind fun g out =>
        match g.val with
        | none => .stop .wrong
        | some v => if v.isFunction then .stop .unspec else vfail fr.trace (.noProperty v.ty) out
    | .bin op l r =>
      (veval strict outer n fr l out).bind fun g out =>
        (veval strict outer n fr r out).bind fun h out =>
          match g.val, h.val with
          | some a, some b => vop fr.trace (.noBinary a.ty op) (vbin op a b) out
          | _, _ => .stop .wrong
    | .un op e =>
      (veval strict outer n fr e out).bind fun g out =>
        match g.val with
        | none => .stop .wrong
        | some a => vop fr.trace (.noUnary a.ty op) (vun op a) out
    | .call c args =>
      (veval strict outer n fr c out).bind fun g out =>
        (vargs strict outer n fr args out).bind fun vs out =>
          match g.val with
          | none => .stop .wrong
          | some (.func f) => vcall strict outer n fr.trace f vs out
          | some .print =>
            match vs with
            | [(v, _)] =>
              match v.text with
              | some t => .ok ⟨none, false⟩ (out ++ [.text (t ++ [10])])
              | none => vfail fr.trace (.noPrint v.ty) out
            | _ => .stop .wrong
          | some v => vfail fr.trace (.noCall v.ty) out

/-- The text of a string literal with embedded expressions. -/
def vpieces (strict : Bool) (outer : List Byte → Option Val) :
    Nat → VFrame → List Piece → List Event → VRun (List Byte)
  | 0, _, _, _ => .stop .fuel
  | _ + 1, _, [], out => .ok [] out
  | n + 1, fr, .mk lit e :: ps, out =>
    if e.isNull then
      (vpieces strict outer n fr ps out).bind fun t out => .ok (lit ++ t) out
    else
      (veval strict outer n fr e out).bind fun g out =>
        match g.val.bind Val.text with
        | some t => (vpieces strict outer n fr ps out).bind fun t' out => .ok (lit ++ t ++ t') out
        | none => .stop .wrong

def vargs (strict : Bool) (outer : List Byte → Option Val) :
    Nat → VFrame → List Expr → List Event → VRun (List (Val × Bool))
  | 0, _, _, _ => .stop .fuel
  | _ + 1, _, [], out => .ok [] out
  | n + 1, fr, e :: es, out =>
    (veval strict outer n fr e out).bind fun g out =>
      (hand strict g out).bind fun v out =>
        (vargs strict outer n fr es out).bind fun vs out => .ok ((v, g.borrowed) :: vs) out

def vcall (strict : Bool) (outer : List Byte → Option Val) :
    Nat → List (List Byte) → Func → List (Val × Bool) → List Event → VRun Value
  | 0, _, _, _, _ => .stop .fuel
  | n + 1, trace, f, vs, out =>
    if vs.length ≠ f.params.length then .stop .wrong
    else match f.body with
      | none => .stop .wrong
      | some body =>
        if clash body f.params vs then .stop .unspec
        else
          (vblock strict outer n
            ⟨f.name :: trace, f.params, vbind f.params (vs.map Prod.fst) fun _ => none⟩ body out).bind
            fun r out =>
              match r.2 with
              | none => .ok ⟨none, false⟩ out
              | some g => .ok g out

def vblock (strict : Bool) (outer : List Byte → Option Val) :
    Nat → VFrame → List Stmt → List Event → VRun (VFrame × VFlow)
  | 0, _, _, _ => .stop .fuel
  | _ + 1, fr, [], out => .ok (fr, none) out
  | n + 1, fr, st :: rest, out =>
    match st with
    | .if_ c t f =>
      (veval strict outer n fr c out).bind fun g out =>
        match g.cond, t with
        | some b, some tb =>
          (vblock strict outer n fr (if b then tb else f.getD []) out).bind fun r out =>
            match r.2 with
            | none => vblock strict outer n r.1 rest out
            | some g => .ok (r.1, some g) out
        | _, _ => .stop .wrong
    | .while_ c b =>
      (veval strict outer n fr c out).bind fun g out =>
        match g.cond with
        | none => .stop .wrong
        | some false => vblock strict outer n fr rest out
        | some true =>
          match b with
          | none => .stop .wrong
          | some body =>
            (vblock strict outer n fr body out).bind fun r out =>
              match r.2 with
              | none => vblock strict outer n r.1 (.while_ c (some body) :: rest) out
              | some g => .ok (r.1, some g) out
    | .assign l r =>
      match l.asName with
      | some x =>
        (veval strict outer n fr r out).bind fun g out =>
          (hand strict g out).bind fun v out =>
            match fr.vars x with
            | some old =>
              if old.ty = v.ty then
                vblock strict outer n { fr with vars := fun y => if y = x then some v else fr.vars y } rest out
              else .stop .wrong
            | none => vblock strict outer n { fr with vars := fun y => if y = x then some v else fr.vars y } rest out
      | none =>
        (veval strict outer n fr l out).bind fun _ out =>
          (veval strict outer n fr r out).bind fun _ _ => .stop .unspec
    | .eval e => (veval strict outer n fr e out).bind fun _ out => vblock strict outer n fr rest out
    | .ret e =>
      (veval strict outer n fr e out).bind fun g out =>
        if strict && g.borrowed then .stop .unspec
        else .ok (fr, some ⟨g.val, stillBorrowed fr.params e g⟩) out
    | .func _ _ _ => .stop .wrong
end

inductive VOutcome
  | done (out : List Event)
  | stop (w : VStop)
  deriving DecidableEq, Repr

/-- Calling a function of a file without arguments. -/
def vscript (strict : Bool) (n : Nat) (file : List Stmt) (name : List Byte) : VOutcome :=
  match functionsOf file name with
  | none => .done []
  | some f =>
    match vcall strict (outerOf file) n [] f [] [] with
    | .ok _ out => .done out
    | .err out => .done out
    | .stop w => .stop w

/-! ### Careful programs

A simple condition on the text of a program under which it always has a strict meaning: a variable is never
assigned, returned or passed by itself (write `a + 0` or `s + ""`), the name of a function is only called,
`true` and `false` are not given another meaning, and only names are assigned to. -/

def isTruth (x : List Byte) : Bool := x == nmTrue || x == nmFalse

/-- Whether the value of an expression may be handed on. -/
def Expr.handed (e : Expr) : Bool :=
  match e.asName with
  | none => true
  | some x => isTruth x

mutual
def Expr.careful (fns : List Byte → Bool) : Expr → Bool
  | .null => true
  | .name x => !fns x
  | .int _ => true
  | .str ps => piecesCareful fns ps
  | .prop o _ => o.careful fns
  | .bin _ l r => l.careful fns && r.careful fns
  | .un _ e => e.careful fns
  | .call c args => (c.asName.isSome || c.careful fns) && argsCareful fns args
def Piece.careful (fns : List Byte → Bool) : Piece → Bool
  | .mk _ e => e.careful fns
def piecesCareful (fns : List Byte → Bool) : List Piece → Bool
  | [] => true
  | p :: ps => p.careful fns && piecesCareful fns ps
def argsCareful (fns : List Byte → Bool) : List Expr → Bool
  | [] => true
  | e :: es => e.careful fns && e.handed && argsCareful fns es
end

mutual
def Stmt.careful (fns : List Byte → Bool) : Stmt → Bool
  | .if_ c t f => c.careful fns && optCareful fns t && optCareful fns f
  | .while_ c b => c.careful fns && optCareful fns b
  | .assign l r =>
    match l.asName with
    | some x => !isTruth x && r.careful fns && r.handed
    | none => false
  | .eval e => e.careful fns
  | .ret e => e.careful fns && e.handed
  | .func _ _ _ => true
def optCareful (fns : List Byte → Bool) : Option (List Stmt) → Bool
  | none => true
  | some b => blockCareful fns b
def blockCareful (fns : List Byte → Bool) : List Stmt → Bool
  | [] => true
  | st :: rest => st.careful fns && blockCareful fns rest
end

/-- The names of the functions of a file, and `print`. -/
def functionNames (file : List Stmt) (x : List Byte) : Bool :=
  x == nmPrint || file.any fun st => match st with
    | .func name _ _ => x == name
    | _ => false

def carefulFile (file : List Stmt) : Bool :=
  file.all fun st => match st with
    | .func name params body =>
      !isTruth name && params.all (fun x => !isTruth x) && optCareful (functionNames file) body
    | _ => true

end Verif.Crowbar
