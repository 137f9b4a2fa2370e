import Verif.Markdown.ModelInline

/-!
# What an inline parse is supposed to be

A list of inline elements is a correct reading of a text (characters and line breaks) if the text
can be put together from the elements by writing each in Markdown.  The relation `Src` says how
each element may be written; it knows nothing about delimiters or how the parser works.
-/

namespace Verif.Markdown.Spec

open Verif Verif.Markdown

/-- A white character or a line break. -/
def WhiteSym (x : Sym) : Prop := ∀ c, x = some c → Str.isWhite c = true

/-- Emphasised text neither begins nor ends with white space or a line break. -/
def Snug (b : List Sym) : Prop :=
  (∀ x, b.head? = some x → ¬ WhiteSym x) ∧ (∀ x, b.getLast? = some x → ¬ WhiteSym x)

/-- The nesting depth after reading `(` and `)` from depth `n`; `none` if a `)` has no partner. -/
def nesting : Nat → List Byte → Option Nat
  | n, [] => some n
  | n, c :: r =>
    if c = 40 then nesting (n + 1) r
    else if c = 41 then if n = 0 then none else nesting (n - 1) r
    else nesting n r

/-- `LinkDest raw t`: `raw` between the parentheses means destination `t`.  Parentheses match; if
there is no backslash, the destination is exactly what is written and has no white space or control
character in it.  (Backslashes: see the theorems.) -/
def LinkDest (raw t : List Byte) : Prop :=
  nesting 0 raw = some 0 ∧ (92 ∉ raw → t = raw ∧ ∀ c ∈ raw, 32 < c.toNat)

/-- A line break in a code span counts as a space. -/
def spaced (x : Sym) : Byte := x.getD 32

/-- `CodeText b t`: `b`, which is not empty, between the backticks means code `t`: one space is
taken off at both ends if both ends have one and there is something else. -/
def CodeText (b : List Sym) (t : List Byte) : Prop :=
  b ≠ [] ∧
  ((∃ m, b.map spaced = 32 :: (m ++ [32]) ∧ (∃ c ∈ m, c ≠ 32) ∧ t = m) ∨
    (¬ (∃ m, b.map spaced = 32 :: (m ++ [32]) ∧ (∃ c ∈ m, c ≠ 32)) ∧ t = b.map spaced))

/-- `Src es s`: the text `s` is a way of writing the elements `es`. -/
inductive Src : List Inline → List Sym → Prop where
  | nil : Src [] []
  | text {t es s} : Src es s → Src (.text t :: es) (t.map some ++ s)
  | soft {es s} : Src es s → Src (.soft :: es) (none :: s)
  | emph {d cs b es s} : d = 42 ∨ d = 95 → Snug b → Src cs b → Src es s →
      Src (.emph cs :: es) (some d :: (b ++ some d :: s))
  | strong {d cs b es s} : d = 42 ∨ d = 95 → Snug b → Src cs b → Src es s →
      Src (.strong cs :: es) (some d :: some d :: (b ++ some d :: some d :: s))
  | code {k b t es s} : 0 < k → CodeText b t → Src es s →
      Src (.code t :: es) (List.replicate k (some 96) ++ b ++ List.replicate k (some 96) ++ s)
  | link {cs b w raw w' t es s} : Src cs b → (∀ x ∈ w, WhiteSym x) → (∀ x ∈ w', WhiteSym x) →
      LinkDest raw t → Src es s →
      Src (.link t cs :: es)
        (some 91 :: (b ++ some 93 :: some 40 :: (w ++ raw.map some ++ w' ++ some 41 :: s)))

/-- Characters with no meaning in Markdown: not a backtick, star, underscore or bracket. -/
def Plain (c : Byte) : Prop := c ≠ 96 ∧ c ≠ 42 ∧ c ≠ 95 ∧ c ≠ 91 ∧ c ≠ 93

/-- ASCII punctuation. -/
def punctuation : List Byte := lit "!\"#$%&'()*+,-./:;<=>?@[\\]^_`{|}~"

/-- White space or the end of the line (`none`). -/
def Gap : Option Byte → Prop
  | none => True
  | some c => Str.isWhite c = true

/-- `Outside p c`: `p` may stand outside a delimiter whose inner side is the character `c`: `c` is
not white, and `p` is white space, the end of the line, or (if `c` is not punctuation itself)
punctuation. -/
def Outside (p : Option Byte) (c : Option Byte) : Prop :=
  ∃ c', c = some c' ∧ Str.isWhite c' = false ∧
    (Gap p ∨ ∃ p', p = some p' ∧ p' ∈ punctuation ∧ c' ∉ punctuation)

/-- The first character of `s` on the current line, `n` if `s` is empty. -/
def firstOr (s : List Sym) (n : Option Byte) : Option Byte :=
  match s with
  | [] => n
  | x :: _ => x

/-- The last character of `s` on its line, `p` if `s` is empty. -/
def lastOr (p : Option Byte) (s : List Sym) : Option Byte :=
  match s.getLast? with
  | none => p
  | some x => x

/-- `Writes a p es s n`: `s` is an unambiguous way of writing `es` between the characters `p` and
`n` of the same line (`none`: at the start or the end of the line).  Texts have no special
characters and are not next to each other (`a` says that there is a text just before); code holds
no backtick; link destinations hold no backslash; and emphasis has white space, line ends or
punctuation around it and something else than white space and its own delimiter inside. -/
inductive Writes : Bool → Option Byte → List Inline → List Sym → Option Byte → Prop where
  | nil {a p n} : Writes a p [] [] n
  | text {p t es s n} : t ≠ [] → (∀ c ∈ t, Plain c) → Writes true t.getLast? es s n →
      Writes false p (.text t :: es) (t.map some ++ s) n
  | soft {a p es c s n} : Writes false none es (some c :: s) n →
      Writes a p (.soft :: es) (none :: some c :: s) n
  | emph {a p d cs b es s n} : d = 42 ∨ d = 95 → Outside p (firstOr b none) →
      Outside (firstOr s n) (lastOr none b) →
      firstOr b none ≠ some d → lastOr none b ≠ some d → firstOr s n ≠ some d →
      Writes false (some d) cs b (some d) → Writes false (some d) es s n →
      Writes a p (.emph cs :: es) (some d :: (b ++ some d :: s)) n
  | strong {a p d cs b es s n} : d = 42 ∨ d = 95 → Outside p (firstOr b none) →
      Outside (firstOr s n) (lastOr none b) →
      firstOr b none ≠ some d → lastOr none b ≠ some d → firstOr s n ≠ some d →
      Writes false (some d) cs b (some d) → Writes false (some d) es s n →
      Writes a p (.strong cs :: es) (some d :: some d :: (b ++ some d :: some d :: s)) n
  | code {a p k b t es s n} : 0 < k → some 96 ∉ b → (∀ x y, b ≠ x ++ none :: none :: y) →
      CodeText b t → firstOr s n ≠ some 96 → Writes false (some 96) es s n →
      Writes a p (.code t :: es)
        (List.replicate k (some 96) ++ b ++ List.replicate k (some 96) ++ s) n
  | link {a p cs b raw es s n} : Writes false (some 91) cs b (some 93) → nesting 0 raw = some 0 →
      92 ∉ raw → (∀ c ∈ raw, 32 < c.toNat) → Writes false (some 41) es s n →
      Writes a p (.link raw cs :: es)
        (some 91 :: (b ++ some 93 :: some 40 :: (raw.map some ++ some 41 :: s))) n

/-- The lines of a leaf block as one text. -/
def textOf : List (List Byte) → List Sym
  | [] => []
  | l :: ls => l.map some ++ (if ls = [] then [] else none :: textOf ls)

end Verif.Markdown.Spec
