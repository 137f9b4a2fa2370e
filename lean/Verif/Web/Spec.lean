import Verif.Path.Spec
import Verif.Str.Spec
/-!
# What file requests and request heads mean
-/
namespace Verif.Web.Spec
open Verif Verif.Path.Spec

/-- `l` is `root` or something below it. -/
def Inside (root l : Loc) : Prop :=
  l.anchor = root.anchor ∧ l.ups = root.ups ∧ root.down <+: l.down

instance (root l : Loc) : Decidable (Inside root l) := by unfold Inside; infer_instance

/-- The part of a request before the first `?`. -/
def beforeQuery (req : List Byte) : List Byte := req.takeWhile (· ≠ 63)

/-- A name with one of the eight served extensions; the extension is what follows the first dot. -/
def Served (name : List Byte) : Prop :=
  ∃ stem ext, name = stem ++ 46 :: ext ∧ stem ≠ [] ∧ 46 ∉ stem ∧
    ext ∈ [[119, 111, 102, 102, 50], [119, 111, 102, 102], [116, 116, 102], [101, 111, 116],
      [112, 110, 103], [99, 115, 115], [115, 118, 103], [106, 115]]

/-! ## Heads -/

/-- Space, tab, carriage return, line feed. -/
def White (c : Byte) : Prop := c = 32 ∨ c = 9 ∨ c = 13 ∨ c = 10

/-- Text up to and including a line feed. -/
def IsLine (l : List Byte) : Prop := ∃ t, l = t ++ [10] ∧ 10 ∉ t

/-- Nothing but white space. -/
def Blank (l : List Byte) : Prop := ∀ c ∈ l, White c

/-- A start line: three words between spaces, then white space. -/
def StartLine (line m u v : List Byte) : Prop :=
  ∃ text w, line = text ++ w ∧ (∀ c ∈ w, White c) ∧ (∀ c ∈ text.getLast?, ¬ White c) ∧
    Str.Words 32 text [m, u, v]

/-- A header line: a name, a colon, a value, white space around both ignored.  The first colon
counts. -/
def Field (line name value : List Byte) : Prop :=
  ∃ w1 w2 w3, line = name ++ w1 ++ 58 :: (w2 ++ value ++ w3) ∧ 58 ∉ name ++ w1 ∧
    (∀ c ∈ w1, White c) ∧ (∀ c ∈ w2, White c) ∧ (∀ c ∈ w3, White c) ∧
    (∀ c ∈ name.getLast?, ¬ White c) ∧ (∀ c ∈ value.head?, ¬ White c) ∧
    (∀ c ∈ value.getLast?, ¬ White c)

/-- Starts with white space (a folded line). -/
def Folded (line : List Byte) : Prop := ∃ c ∈ line.head?, White c

/-- The header fields of some lines, folded lines left out. -/
inductive Fields : List (List Byte) → List (List Byte × List Byte) → Prop where
  | nil : Fields [] []
  | folded {line lines fs} : Folded line → Fields lines fs → Fields (line :: lines) fs
  | field {line lines n v fs} : ¬ Folded line → Field line n v → Fields lines fs →
      Fields (line :: lines) ((n, v) :: fs)

end Verif.Web.Spec
