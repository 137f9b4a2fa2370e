import Verif.Crowbar.ModelTok

/-!
# What a Crowbar source is made of (specification)
-/

namespace Verif.Crowbar

/-- A letter, underscore or byte of a multi-byte character. -/
def nameStart (b : Byte) : Prop :=
  (97 ≤ b.toNat ∧ b.toNat ≤ 122) ∨ (65 ≤ b.toNat ∧ b.toNat ≤ 90) ∨ b.toNat = 95 ∨ 128 ≤ b.toNat

/-- A decimal digit. -/
def digitByte (b : Byte) : Prop := 48 ≤ b.toNat ∧ b.toNat ≤ 57

/-- A word: begins with a letter, goes on with letters and digits. -/
def Word (n : List Byte) : Prop := ∃ b r, n = b :: r ∧ nameStart b ∧ ∀ c ∈ r, nameStart c ∨ digitByte c

/-- A text that begins with a byte of some kind. -/
def StartsWith (k : Byte → Prop) (x : List Byte) : Prop := ∃ c r, x = c :: r ∧ k c

/-- `Gap nl gap rest`: `gap` is nothing but blanks, comments and — unless ends of lines are wanted — ends of
lines, and `rest` follows it.  A comment from `//` goes up to the end of the line, one from `/*` to the first
`*/`, or to the end of the text if there is none. -/
inductive Gap (nl : Bool) : List Byte → List Byte → Prop
  | none (rest : List Byte) : Gap nl [] rest
  | blank (c : Byte) (gap rest : List Byte) : c = 32 ∨ c = 9 ∨ c = 13 → Gap nl gap rest → Gap nl (c :: gap) rest
  | line (gap rest : List Byte) : nl = false → Gap nl gap rest → Gap nl (10 :: gap) rest
  | lineComment (body gap rest : List Byte) : 10 ∉ body → (gap ++ rest = [] ∨ StartsWith (· = 10) (gap ++ rest)) →
      Gap nl gap rest → Gap nl ([47, 47] ++ body ++ gap) rest
  | comment (body gap rest : List Byte) : ¬ [42, 47] <:+: body ++ [42] → Gap nl gap rest →
      Gap nl ([47, 42] ++ body ++ [42, 47] ++ gap) rest
  | openComment (body : List Byte) : ¬ [42, 47] <:+: body → Gap nl ([47, 42] ++ body) []

/-- `Shape ty text rest`: a token of type `ty` is spelled `text` where `rest` follows: words and numbers are as
long as they can be, and an operator of two characters is never taken for two. -/
def Shape (ty : TokTy) (text rest : List Byte) : Prop :=
  match ty with
  | .endOfFile => text = [] ∧ rest = []
  | .newLine => text = [10]
  | .identifier => Word text ∧ ¬ StartsWith (fun c => nameStart c ∨ digitByte c) rest
  | .numericLiteral => text ≠ [] ∧ (∀ c ∈ text, digitByte c) ∧ ¬ StartsWith digitByte rest
  | .beginString => text = [34]
  | .openCurly => text = [123]
  | .closeCurly => text = [125]
  | .openParen => text = [40]
  | .closeParen => text = [41]
  | .semicolon => text = [59]
  | .dot => text = [46]
  | .comma => text = [44]
  | .equal => text = [61] ∧ ¬ StartsWith (· = 61) rest
  | .doubleEqual => text = [61, 61]
  | .slashEqual => text = [47, 61]
  | .lessThan => text = [60] ∧ ¬ StartsWith (· = 61) rest
  | .lessThanOrEqual => text = [60, 61]
  | .greaterThan => text = [62] ∧ ¬ StartsWith (· = 61) rest
  | .greaterThanOrEqual => text = [62, 61]
  | .plus => text = [43]
  | .minus => text = [45]
  | .asterisk => text = [42]
  | .slash => text = [47] ∧ ¬ StartsWith (fun c => c = 47 ∨ c = 42 ∨ c = 61) rest
  | .percent => text = [37]
  | .bang => text = [33]
  | .tilde => text = [126]
  | .verticalBar => text = [124] ∧ ¬ StartsWith (· = 124) rest
  | .doubleVerticalBar => text = [124, 124]
  | .ampersand => text = [38] ∧ ¬ StartsWith (· = 38) rest
  | .doubleAmpersand => text = [38, 38]
  | .invalid => ∃ c : Byte, text = [c] ∧ ¬ nameStart c ∧ ¬ digitByte c ∧
      c ∉ ([10, 32, 9, 13, 34, 123, 125, 40, 41, 59, 46, 44, 61, 47, 60, 62, 43, 45, 42, 37, 33, 126, 124, 38] : List Byte)
  | _ => False

end Verif.Crowbar
