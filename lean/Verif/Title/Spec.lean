import Verif.Title.Model
/-!
# Titles of members — what is meant
-/
namespace Verif.Title
open Verif

/-- A piece of a title without brackets, and the text that it stands for: a backslash makes the next byte stand for
itself. -/
inductive Body : List Byte → List Byte → Prop where
  | nil : Body [] []
  | plain {s t} (c : Byte) : c ≠ 92 → c ≠ 91 → c ≠ 93 → Body s t → Body (c :: s) (c :: t)
  | escaped {s t} (c : Byte) : Body s t → Body (92 :: c :: s) (c :: t)

/-- The names of spans. -/
def Kind.name : Kind → List Byte
  | .normal => []
  | .strong => [115, 116, 114, 111, 110, 103]
  | .em => [101, 109]
  | .qid => [113, 105, 100]

/-- A span, if there is any text. -/
def one (k : Kind) (t : List Byte) : List Span := if t.isEmpty then [] else [⟨k, t⟩]

/-- A title and its spans: text, `[name text]`, text, and so on.  A backslash may be left over at the very end. -/
inductive IsTitle : List Byte → List Span → Prop where
  | last {s t} : Body s t → IsTitle s (one .normal t)
  | lastBackslash {s t} : Body s t → IsTitle (s ++ [92]) (one .normal t)
  | more {s t s' t' rest spans} (k : Kind) : k ≠ .normal → Body s t → Body s' t' → IsTitle rest spans →
      IsTitle (s ++ ([91] ++ k.name ++ [32] ++ s' ++ [93]) ++ rest) (one .normal t ++ one k t' ++ spans)

/-- Text with a backslash before each backslash and bracket. -/
def protect (t : List Byte) : List Byte := t.flatMap fun c => if c = 92 ∨ c = 91 ∨ c = 93 then [92, c] else [c]

/-- How a span can be written. -/
def written (s : Span) : List Byte :=
  if s.kind = .normal then protect s.text else [91] ++ s.kind.name ++ [32] ++ protect s.text ++ [93]

/-- No span is empty, and of two spans in a row one is not normal. -/
def Proper : List Span → Prop
  | [] => True
  | s :: rest => s.text ≠ [] ∧ (s.kind = .normal → ∀ r, rest.head? = some r → r.kind ≠ .normal) ∧ Proper rest

/-- What is seen in HTML. -/
inductive Item where
  | tag (name : List Byte)
  | link (dest : List Byte)
  | text (t : List Byte)
  deriving DecidableEq, Repr

/-- Reading HTML: tags, links and text with entities. -/
inductive Reads : List Byte → List Item → Prop where
  | nil : Reads [] []
  | text {o t out items} : Esc.Resolves o t → Reads out items → Reads (o ++ out) (.text t :: items)
  | tag {n out items} : (∀ c ∈ n, c ≠ 60 ∧ c ≠ 62) → Reads out items → Reads ([60] ++ n ++ [62] ++ out) (.tag n :: items)
  | link {o l out items} : Esc.Resolves o l → Reads out items →
      Reads ([60, 97, 32, 104, 114, 101, 102, 61, 34] ++ o ++ [34, 62] ++ out) (.link l :: items)

/-- What is to be seen of a span. -/
def Span.items (link : List Byte → List Byte) (s : Span) : List Item :=
  match s.kind with
  | .normal => [.text s.text]
  | .strong => [.tag [115, 116, 114, 111, 110, 103], .text s.text, .tag [47, 115, 116, 114, 111, 110, 103]]
  | .em => [.tag [101, 109], .text s.text, .tag [47, 101, 109]]
  | .qid => if link s.text = [] then [.text s.text] else [.link (link s.text), .text s.text, .tag [47, 97]]

end Verif.Title
