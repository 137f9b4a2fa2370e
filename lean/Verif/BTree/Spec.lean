import Verif.BTree.Model
/-!
# What a B-tree is supposed to be

A sorted list, and a tree whose leaves are all equally deep.
-/
namespace Verif.BTree.Spec

/-- A strict weak order. -/
structure StrictWeak {K : Type} (less : K → K → Bool) : Prop where
  irrefl : ∀ a, less a a = false
  trans : ∀ a b c, less a b = true → less b c = true → less a c = true
  negTrans : ∀ a b c, less a b = false → less b c = false → less a c = false

/-- No item is less than an earlier one. -/
def Sorted {K V : Type} (less : K → K → Bool) (idx : V → K) (l : List V) : Prop :=
  l.Pairwise fun a b => less (idx b) (idx a) = false

/-- Nodes are neither empty nor over capacity, and every leaf is `d` levels down. -/
inductive Balanced {K V : Type} (cap : Nat) : Nat → Node K V → Prop
  | leaf (items : List V) : items ≠ [] → items.length ≤ cap → Balanced cap 0 (.leaf items)
  | inner (d : Nat) (links : List (Link K V)) : links ≠ [] → links.length ≤ cap →
      (∀ l ∈ links, Balanced cap d l.2) → Balanced cap (d + 1) (.inner links)

end Verif.BTree.Spec
