import Verif.Basic
/-!
# Specification of sorting
-/
namespace Verif.Sort.Spec
variable {α : Type _}

/-- A strict weak order: irreflexive, transitive, and incomparability is transitive. -/
structure StrictWeak (less : α → α → Bool) : Prop where
  irrefl : ∀ a, less a a = false
  trans : ∀ a b c, less a b → less b c → less a c
  incomp : ∀ a b c, less a b = false → less b c = false → less a c = false

/-- No item precedes a lesser one. -/
def Sorted (less : α → α → Bool) (v : List α) : Prop :=
  v.Pairwise (fun a b => less b a = false)

end Verif.Sort.Spec
