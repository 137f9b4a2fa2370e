import Verif.Crowbar.SpecPrint

/-!
# Trees without holes (specification)
-/

namespace Verif.Crowbar

mutual
/-- An expression with nothing missing: every operand, callee, argument and embedded expression is there, names are
words and numbers have 32 bits. -/
def ExprWhole : Expr → Prop
  | .null => False
  | .name n => Word n
  | .int v => v < 2 ^ 32
  | .str ps => PiecesWhole ps
  | .prop o n => ExprWhole o ∧ Word n
  | .bin _ l r => ExprWhole l ∧ ExprWhole r
  | .un _ e => ExprWhole e
  | .call f args => ExprWhole f ∧ ArgsWhole args

/-- All arguments are there. -/
def ArgsWhole : List Expr → Prop
  | [] => True
  | a :: as => ExprWhole a ∧ ArgsWhole as

/-- Every piece of a string has an embedded expression or at least some text. -/
def PiecesWhole : List Piece → Prop
  | [] => True
  | .mk lit e :: ps => (ExprWhole e ∨ (e = .null ∧ lit ≠ [])) ∧ PiecesWhole ps
end

mutual
/-- A statement with nothing missing. -/
def StmtWhole : Stmt → Prop
  | .if_ c t f => ExprWhole c ∧ t.isSome = true ∧ BlockWhole t ∧ BlockWhole f
  | .while_ c b => ExprWhole c ∧ b.isSome = true ∧ BlockWhole b
  | .assign l r => ExprWhole l ∧ ExprWhole r
  | .eval e => ExprWhole e
  | .ret e => ExprWhole e
  | .func _ _ _ => False

/-- A block with nothing missing, or no block. -/
def BlockWhole : Option (List Stmt) → Prop
  | none => True
  | some b => StmtsWhole b

/-- All statements have nothing missing. -/
def StmtsWhole : List Stmt → Prop
  | [] => True
  | st :: r => StmtWhole st ∧ StmtsWhole r
end

/-- A function definition with nothing missing. -/
def FuncWhole : Stmt → Prop
  | .func n ps b => Word n ∧ (∀ p ∈ ps, Word p) ∧ b.isSome = true ∧ BlockWhole b
  | _ => False

end Verif.Crowbar
