import Verif.Cpp.Model
import Verif.Cpp.Spec
/-!
# Putting the header of the project on top of a source file — what is meant
-/
namespace Verif.Clean
open Verif

/-- The token is a comment. -/
def IsComment (t : Cpp.TT) : Prop := t = .lineComment ∨ t = .cStyleComment

instance (t : Cpp.TT) : Decidable (IsComment t) := by unfold IsComment; infer_instance

/-- Reading on from a state, `t` is the first token that is no comment. -/
inductive FirstToken : Cpp.PP → Cpp.Token → Prop
  | here {pp q : Cpp.PP} {t : Cpp.Token} : Cpp.readToken pp = some (t, q) → ¬ IsComment t.type → FirstToken pp t
  | comment {pp q : Cpp.PP} {c t : Cpp.Token} : Cpp.readToken pp = some (c, q) → IsComment c.type →
      FirstToken q t → FirstToken pp t

/-- The first token of a file that is no comment. -/
def FirstOf (src : List Byte) (t : Cpp.Token) : Prop := FirstToken (Cpp.PP.init [] src) t

/-- Reading on from a state up to the end of the file gives `cs`, comments left out: the types and the texts
of the tokens. -/
def CodeFrom (pp : Cpp.PP) (cs : List (Cpp.TT × List Byte)) : Prop :=
  ∃ n ts q, Cpp.readAll n pp = some (ts, q) ∧
    cs = (ts.map fun t => (t.type, t.text)).filter fun c => ¬ IsComment c.1

/-- The code of a file: what a compiler sees of it. -/
def CodeOf (src : List Byte) (cs : List (Cpp.TT × List Byte)) : Prop := CodeFrom (Cpp.PP.init [] src) cs

/-- The inside of a `/* */` comment: a star is followed by something that is neither a star nor a slash. -/
inductive Calm : List Byte → Prop
  | nil : Calm []
  | other {b : Byte} {l : List Byte} : b ≠ 42 → Calm l → Calm (b :: l)
  | star {b : Byte} {l : List Byte} : b ≠ 42 → b ≠ 47 → Calm l → Calm (42 :: b :: l)

/-- White space and complete comments. -/
inductive Lead : List Byte → Prop
  | nil : Lead []
  | blank {b : Byte} {l : List Byte} : Cpp.IsWS b → Lead l → Lead (b :: l)
  | line {body l : List Byte} : 10 ∉ body → Lead l → Lead (47 :: 47 :: (body ++ 10 :: l))
  | block {body l : List Byte} : Calm body → Lead l → Lead (47 :: 42 :: (body ++ 42 :: 47 :: l))

/-- Lines, each with its end, of which none is blank. -/
inductive SolidLines : List Byte → Prop
  | nil : SolidLines []
  | cons {line l : List Byte} : 10 ∉ line → ¬ Cpp.Blank line → SolidLines l → SolidLines (line ++ 10 :: l)

/-- The text starts with a blank line. -/
def StartsBlank (l : List Byte) : Prop := ∃ b r, l = b ++ 10 :: r ∧ Cpp.Blank b ∧ 10 ∉ b

/-- There is code in the text, and the text starts with a blank line or with the line the code starts in. -/
def Ready (rest : List Byte) : Prop :=
  ∃ t, FirstOf rest t ∧ t.type ≠ .endOfFile ∧
    (StartsBlank rest ∨ 10 ∉ rest.take t.loc.toNat)

/-- What precedes the code is ASCII, and the file is not larger than 4 GB. -/
def Plain (src : List Byte) : Prop :=
  src.length < 2 ^ 32 ∧ ∀ t, FirstOf src t → ∀ b ∈ src.take t.loc.toNat, b.toNat < 0x80

end Verif.Clean
