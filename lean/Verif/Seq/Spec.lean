import Verif.Seq.Model

/-!
# Sequences of items — specification

A sequence is a list.  This does not mention blocks.
-/
namespace Verif.Seq

variable {α : Type}

/-- The items after an operation. -/
def after (l : List α) : Op α → List α
  | .append x => l ++ [x]
  | .write xs => l ++ xs
  | .pop n => l.take (l.length - n)
  | .truncate k => l.take k
  | .clear => []

/-- The items that an operation destructs.  `truncate` destructs none. -/
def killed (l : List α) : Op α → List α
  | .pop n => l.drop (l.length - n)
  | .clear => l
  | _ => []

/-- Operations that are allowed: there is something to pop (no matter how much), and the bytes to be popped are
counted in 32 bits; `truncate` is given a position in the sequence. -/
def Allowed (sz : Nat) (l : List α) : Op α → Prop
  | .pop n => (n = 0 ∨ l ≠ []) ∧ n * sz < 2 ^ 32
  | .truncate k => k ≤ l.length
  | _ => True

/-- The items after many operations. -/
def contents : List α → List (Op α) → List α
  | l, [] => l
  | l, o :: os => contents (after l o) os

/-- The items destructed by many operations. -/
def allKilled : List α → List (Op α) → List α
  | _, [] => []
  | l, o :: os => killed l o ++ allKilled (after l o) os

/-- Every operation is allowed. -/
def AllAllowed (sz : Nat) : List α → List (Op α) → Prop
  | _, [] => True
  | l, o :: os => Allowed sz l o ∧ AllAllowed sz (after l o) os

/-- The `k`th item is never removed. -/
def Kept (k : Nat) : List α → List (Op α) → Prop
  | l, [] => k < l.length
  | l, o :: os => k < l.length ∧ Kept k (after l o) os

end Verif.Seq
