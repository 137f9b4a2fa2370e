import Verif.Cpp.Model
/-!
# The tokenizer for C++ — specification
-/
namespace Verif.Cpp
open Verif

/-- White space of C++ source: blanks, tabs and ends of lines. -/
def Blank (w : List Byte) : Prop := ∀ b ∈ w, b = 32 ∨ b = 9 ∨ b = 10 ∨ b = 13

/-- Bytes between tokens, from position `p` on: white space, and pieces for which an error was reported at a
position inside of the piece. -/
inductive Gap (errs : List Err) : Int → List Byte → Prop where
  | nil {p : Int} : Gap errs p []
  | blank {p : Int} {w r : List Byte} : Blank w → Gap errs (p + w.length) r → Gap errs p (w ++ r)
  | reported {p : Int} {w r : List Byte} {x : Err} : x ∈ errs → p ≤ x.loc → x.loc ≤ p + w.length →
      Gap errs (p + w.length) r → Gap errs p (w ++ r)

/-- A text, which starts at position `p`, consists of the texts of the tokens, each at its position and none
of them empty, with gaps between them. -/
inductive Covers (errs : List Err) : Int → List Byte → List Token → Prop where
  | nil {p : Int} {src : List Byte} : Gap errs p src → Covers errs p src []
  | cons {p : Int} {gap rest : List Byte} {t : Token} {ts : List Token} : Gap errs p gap →
      t.text ≠ [] → t.loc = p + gap.length →
      Covers errs (p + gap.length + t.text.length) rest ts →
      Covers errs p (gap ++ t.text ++ rest) (t :: ts)

/-- The better of the best item so far and one put in later: it must not be beyond `p`, and not before the
best so far. -/
def better (p : Int) (best : Option LocItem) (it : LocItem) : Option LocItem :=
  match best with
  | none => if it.loc ≤ p then some it else none
  | some b => if it.loc ≤ p ∧ b.loc ≤ it.loc then some it else some b

/-- What a location map gives for a position: of the items at the greatest position that is not greater, the
one put in last. -/
def lookup (m : List LocItem) (p : Int) : Option LocItem := m.foldl (better p) none

/-- The text behind an entry of a list of sources: the file itself or the expansion of a macro. -/
def chainText (macros : List Macro) (source : List Byte) (chains : List Chain) (i : Nat) :
    Option (List Byte) :=
  match chains[i]? with
  | none => none
  | some c => if c.isMacro = true then macros.reverse[c.idx]?.map (·.expansion) else some source

/-- No macro leads back to itself: the macros can be ranked so that, whenever the name of a macro occurs in
the expansion of another, its rank is smaller. -/
def Acyclic (macros : List Macro) : Prop :=
  ∃ rank : Macro → Nat, ∀ m ∈ macros, ∀ m' ∈ macros, m'.name <:+: m.expansion → rank m' < rank m

/-- The start of a raw string, `R"`, does not occur. -/
def NoRaw (s : List Byte) : Prop := ¬ [82, 34] <:+: s

/-! ## Tokens as they are written -/

/-- White space. -/
def IsWS (b : Byte) : Prop := b = 32 ∨ b = 9 ∨ b = 10 ∨ b = 13

/-- A decimal digit. -/
def IsDigit (b : Byte) : Prop := 48 ≤ b ∧ b ≤ 57

/-- A hexadecimal digit. -/
def IsHexDigit (b : Byte) : Prop := IsDigit b ∨ (65 ≤ b ∧ b ≤ 70) ∨ (97 ≤ b ∧ b ≤ 102)

/-- A byte of an identifier: a letter, a digit, `_`, `$`, or a byte of a character outside of ASCII. -/
def IsWord (b : Byte) : Prop :=
  (48 ≤ b ∧ b ≤ 57) ∨ (65 ≤ b ∧ b ≤ 90) ∨ (97 ≤ b ∧ b ≤ 122) ∨ b = 95 ∨ b = 36 ∨ 128 ≤ b

instance (b : Byte) : Decidable (IsWS b) := by unfold IsWS; infer_instance
instance (b : Byte) : Decidable (IsDigit b) := by unfold IsDigit; infer_instance
instance (b : Byte) : Decidable (IsHexDigit b) := by unfold IsHexDigit; infer_instance
instance (b : Byte) : Decidable (IsWord b) := by unfold IsWord; infer_instance

/-- What may stand between two quotes `q`: bytes other than `q` and the backslash, and backslashes with the
byte behind them. -/
inductive Units (q : Byte) : List Byte → Prop where
  | nil : Units q []
  | plain {b : Byte} {l : List Byte} : b ≠ 92 → b ≠ q → Units q l → Units q (b :: l)
  | escaped {b : Byte} {l : List Byte} : Units q l → Units q (92 :: b :: l)

/-- The text of a token of the given type. -/
inductive Written : TT → List Byte → Prop where
  | punctuation {t : TT} {w : List Byte} : punctuationString t = some w → t ≠ .lineComment →
      t ≠ .cStyleComment → Written t w
  | identifier {b : Byte} {w : List Byte} : IsWord b → ¬ IsDigit b → (∀ x ∈ w, IsWord x) →
      Written .identifier (b :: w)
  | string {q : Byte} {body : List Byte} : q = 39 ∨ q = 34 → Units q body →
      Written .stringLiteral (q :: body ++ [q])
  | number {b : Byte} {w : List Byte} : IsDigit b → (∀ x ∈ w, IsDigit x) →
      Written .numericLiteral (b :: w)
  | hex {w : List Byte} : (∀ x ∈ w, IsHexDigit x) → Written .numericLiteral (48 :: 120 :: w)
  | lineComment {body : List Byte} : (∀ x ∈ body, x ≠ 10) →
      Written .lineComment (47 :: 47 :: body ++ [10])
  | comment {body : List Byte} : (∀ x ∈ body, x ≠ 42) →
      Written .cStyleComment (47 :: 42 :: body ++ [42, 47])

/-- A source: tokens, each with white space behind it. -/
def sourceOf : List (TT × List Byte × List Byte) → List Byte
  | [] => []
  | (_, w, gap) :: l => w ++ gap ++ sourceOf l

/-- The tokens of such a source, with their positions. -/
def tokensOf (p : Int) : List (TT × List Byte × List Byte) → List Token
  | [] => []
  | (t, w, gap) :: l => ⟨p, t, w⟩ :: tokensOf (p + w.length + gap.length) l

end Verif.Cpp
