import Verif.Pylon.Model
import Verif.Esc.Spec
/-!
# Pylon — specification
-/
namespace Verif.Pylon.Spec
open Verif

/-- Text that survives being written and read back: no control characters but tab, line feed and
carriage return, no byte FF, no overlong spellings of ASCII characters. -/
def GoodText (s : List Byte) : Prop :=
  Esc.NoOverlongAscii s ∧ ∀ c ∈ s, (32 ≤ c.toNat ∨ c = 9 ∨ c = 10 ∨ c = 13) ∧ c ≠ 255

mutual
/-- A tree with good texts and names, and different names within each object. -/
inductive Good : Node → Prop
  | text {s} : GoodText s → Good (.text s)
  | arr {items} : GoodItems items → Good (.arr items)
  | obj {items} : GoodProps items → Good (.obj items)
inductive GoodItems : List Node → Prop
  | nil : GoodItems []
  | cons {n ns} : Good n → GoodItems ns → GoodItems (n :: ns)
inductive GoodProps : List (List Byte × Node) → Prop
  | nil : GoodProps []
  | cons {k n ns} : GoodText k → Good n → (∀ p ∈ ns, p.1 ≠ k) → GoodProps ns →
      GoodProps ((k, n) :: ns)
end

mutual
/-- A tree in which the names within each object are different. -/
inductive Distinct : Node → Prop
  | text {s} : Distinct (.text s)
  | arr {items} : DistinctItems items → Distinct (.arr items)
  | obj {items} : DistinctProps items → Distinct (.obj items)
inductive DistinctItems : List Node → Prop
  | nil : DistinctItems []
  | cons {n ns} : Distinct n → DistinctItems ns → DistinctItems (n :: ns)
inductive DistinctProps : List (List Byte × Node) → Prop
  | nil : DistinctProps []
  | cons {k n ns} : Distinct n → (∀ p ∈ ns, p.1 ≠ k) → DistinctProps ns →
      DistinctProps ((k, n) :: ns)
end

end Verif.Pylon.Spec
