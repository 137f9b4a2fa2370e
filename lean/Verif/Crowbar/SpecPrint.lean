import Verif.Crowbar.ModelParse
import Verif.Crowbar.SpecTok

/-!
# How a Crowbar program is written down (specification)

A printer for trees, as a C programmer would write them: binary operators bind as in C and associate to the
left, and brackets are put only where they are needed.  The printer does not look at the parser.
-/

namespace Verif.Crowbar

/-- The level of a binary operator in the C standard's table; a smaller level binds tighter. -/
def cLevel : BinOp → Nat
  | .multiply | .divide | .modulo => 3
  | .add | .subtract => 4
  | .lessThan | .lessThanOrEqual | .greaterThan | .greaterThanOrEqual => 6
  | .doubleEqual => 7
  | .logicalAnd => 11
  | .logicalOr => 12

/-- The spelling of a binary operator. -/
def binText : BinOp → List Byte
  | .multiply => [42] | .divide => [47] | .modulo => [37] | .add => [43] | .subtract => [45]
  | .lessThan => [60] | .lessThanOrEqual => [60, 61] | .greaterThan => [62] | .greaterThanOrEqual => [62, 61]
  | .doubleEqual => [61, 61] | .logicalAnd => [38, 38] | .logicalOr => [124, 124]

/-- The spelling of a prefix operator. -/
def unText : UnOp → List Byte
  | .negate => [45] | .logicalNot => [33] | .bitComplement => [126]

/-- A number in decimal. -/
def decimal (v : Nat) : List Byte :=
  if v < 10 then [UInt8.ofNat (48 + v)] else decimal (v / 10) ++ [UInt8.ofNat (48 + v % 10)]

/-- The text inside a string: quotes, backslashes and dollar signs are preceded by a backslash. -/
def escapeText : List Byte → List Byte
  | [] => []
  | b :: r => (if b = 34 ∨ b = 92 ∨ b = 36 then [92, b] else [b]) ++ escapeText r

/-- The level of an expression: 1 for what needs no brackets anywhere, `ul` for a prefix operator. -/
def level (ul : Nat) : Expr → Nat
  | .bin op _ _ => cLevel op
  | .un _ _ => ul
  | _ => 1

/-- Brackets around an expression of level `l` where only levels up to `limit` may stand. -/
def bracket (l limit : Nat) (b : List Byte) : List Byte :=
  if l ≤ limit then b else [32, 40] ++ b ++ [32, 41]

mutual
/-- An expression, every token preceded by a space; `ul` is the level of prefix operators. -/
def text (ul : Nat) : Expr → List Byte
  | .null => []
  | .name n => 32 :: n
  | .int v => 32 :: decimal v
  | .str ps => [32, 34] ++ textPieces ul ps ++ [34]
  | .prop o n => bracket (level ul o) 1 (text ul o) ++ ([32, 46, 32] ++ n)
  | .bin op l r =>
    bracket (level ul l) (cLevel op) (text ul l) ++
      (32 :: binText op ++ bracket (level ul r) (cLevel op - 1) (text ul r))
  | .un op e => 32 :: unText op ++ bracket (level ul e) ul (text ul e)
  | .call f args => bracket (level ul f) 1 (text ul f) ++ ([32, 40] ++ (textArgs ul args ++ [32, 41]))

/-- Arguments, separated by commas. -/
def textArgs (ul : Nat) : List Expr → List Byte
  | [] => []
  | a :: as => text ul a ++ textMoreArgs ul as

/-- Further arguments, each preceded by a comma. -/
def textMoreArgs (ul : Nat) : List Expr → List Byte
  | [] => []
  | a :: as => [32, 44] ++ (text ul a ++ textMoreArgs ul as)

/-- The pieces of a string, embedded expressions as `${…}`. -/
def textPieces (ul : Nat) : List Piece → List Byte
  | [] => []
  | .mk lit e :: ps =>
    escapeText lit ++ ((if e.isNull then [] else [36, 123] ++ (text ul e ++ [32, 125])) ++ textPieces ul ps)
end

/-- The level of prefix operators in C. -/
def levelInC : Nat := 2

/-- The level at which the parser really reads prefix operators: below everything. -/
def levelBelow : Nat := 100

/-- A name: a word that is none of `if`, `while`, `else` and `return`. -/
def NameOk (n : List Byte) : Prop :=
  Word n ∧
  n ≠ [105, 102] ∧ n ≠ [119, 104, 105, 108, 101] ∧ n ≠ [101, 108, 115, 101] ∧
  n ≠ [114, 101, 116, 117, 114, 110]

mutual
/-- Trees that can be written down: nothing missing, names are names, numbers have 32 bits, every piece of a
string but the last has an embedded expression, and the last one is not empty. -/
def ExprOk : Expr → Prop
  | .null => False
  | .name n => NameOk n
  | .int v => v < 2 ^ 32
  | .str ps => PiecesOk ps
  | .prop o n => ExprOk o ∧ NameOk n
  | .bin _ l r => ExprOk l ∧ ExprOk r
  | .un _ e => ExprOk e
  | .call f args => ExprOk f ∧ ArgsOk args

/-- All arguments can be written down. -/
def ArgsOk : List Expr → Prop
  | [] => True
  | a :: as => ExprOk a ∧ ArgsOk as

/-- The pieces of a string. -/
def PiecesOk : List Piece → Prop
  | [] => True
  | .mk lit e :: ps => (ExprOk e ∨ (e = .null ∧ lit ≠ [] ∧ ps = [])) ∧ PiecesOk ps
end

/-- Names separated by commas. -/
def textNames : List (List Byte) → List Byte
  | [] => []
  | [n] => 32 :: n
  | n :: m :: r => (32 :: n) ++ [32, 44] ++ textNames (m :: r)

mutual
/-- A statement on a line of its own. -/
def textStmt (ul : Nat) : Stmt → List Byte
  | .if_ c t f =>
    [32, 105, 102] ++ (text ul c ++ (textBlock ul t ++ (textElse ul f ++ [10])))
  | .while_ c b => [32, 119, 104, 105, 108, 101] ++ (text ul c ++ (textBlock ul b ++ [10]))
  | .assign l r => text ul l ++ ([32, 61] ++ (text ul r ++ [10]))
  | .eval e => text ul e ++ [10]
  | .ret e => [32, 114, 101, 116, 117, 114, 110] ++ (text ul e ++ [10])
  | .func n ps b => [32, 102, 110, 32] ++ (n ++ ([32, 40] ++ (textNames ps ++ ([32, 41] ++ (textBlock ul b ++ [10])))))

/-- A block in curly braces. -/
def textBlock (ul : Nat) : Option (List Stmt) → List Byte
  | none => []
  | some b => [32, 123, 10] ++ (textStmts ul b ++ [32, 125])

/-- The `else` part, if there is one. -/
def textElse (ul : Nat) : Option (List Stmt) → List Byte
  | none => []
  | some b => [32, 101, 108, 115, 101, 32, 123, 10] ++ (textStmts ul b ++ [32, 125])

/-- Statements one after the other. -/
def textStmts (ul : Nat) : List Stmt → List Byte
  | [] => []
  | st :: r => textStmt ul st ++ textStmts ul r
end

mutual
/-- Statements of a function body that can be written down. -/
def StmtOk : Stmt → Prop
  | .if_ c t f => ExprOk c ∧ t.isSome = true ∧ BlockOk t ∧ BlockOk f
  | .while_ c b => ExprOk c ∧ b.isSome = true ∧ BlockOk b
  | .assign l r => ExprOk l ∧ ExprOk r
  | .eval e => ExprOk e
  | .ret e => ExprOk e
  | .func _ _ _ => False

/-- Blocks that can be written down, or no block. -/
def BlockOk : Option (List Stmt) → Prop
  | none => True
  | some b => StmtsOk b

/-- All statements can be written down. -/
def StmtsOk : List Stmt → Prop
  | [] => True
  | st :: r => StmtOk st ∧ StmtsOk r
end

/-- A function definition that can be written down. -/
def FuncOk : Stmt → Prop
  | .func n ps b => NameOk n ∧ (∀ p ∈ ps, NameOk p) ∧ b.isSome = true ∧ BlockOk b
  | _ => False

end Verif.Crowbar
