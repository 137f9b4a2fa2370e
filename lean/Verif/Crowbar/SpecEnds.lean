import Verif.Crowbar.SpecTok

/-!
# The kinds of tokens a text is made of (specification)
-/

namespace Verif.Crowbar

/-- `Kinds src tys`: apart from white space and comments, `src` is spelled by tokens of the kinds `tys`. -/
inductive Kinds : List Byte → List TokTy → Prop
  | done (gap : List Byte) : Gap false gap [] → Kinds gap []
  | token (gap text rest : List Byte) (ty : TokTy) (tys : List TokTy) : Gap false gap (text ++ rest) →
      Shape ty text rest → text ≠ [] → Kinds rest tys → Kinds (gap ++ (text ++ rest)) (ty :: tys)

/-- The end of a source in which a parameter list is begun and not closed: a name, an opening bracket, and then
nothing but names and commas. -/
def OpenParams (src : List Byte) : Prop :=
  ∃ tys, Kinds src (.identifier :: .openParen :: tys) ∧ ∀ ty ∈ tys, ty = .identifier ∨ ty = .comma

end Verif.Crowbar
