import Verif.Sort.Lemmas
/-!
# C17: sorting
-/
namespace Verif.Sort
open Verif Spec

variable {α : Type _}

/-- **C17.** For every strict weak order and every view of at most 2^31 items, `sort` terminates,
never leaves the view, fails no assertion and leaves a sorted permutation of the view. -/
theorem C17_sorts (less : α → α → Bool) (hs : StrictWeak less) (v : List α)
    (hlen : v.length ≤ 2 ^ 31) :
    ∃ v', sort less (v.length + 1) v = some v' ∧ v'.Perm v ∧ Sorted less v' := by
  obtain ⟨v', e1, e2, e3⟩ := sort_spec hs.irrefl (v.length + 1) v (by omega) hlen
  exact ⟨v', e1, e2, e3 hs⟩

/-- Comparing by key is a strict weak order. -/
theorem keyOrder (key : α → Nat) : StrictWeak (fun a b => decide (key a < key b)) := by
  refine ⟨?_, ?_, ?_⟩
  · intro a; simp
  · intro a b c; simp only [decide_eq_true_eq]; omega
  · intro a b c; simp only [decide_eq_false_iff_not]; omega

example : (sort (fun a b => decide (a < b)) 8 [3, 1, 2, 3, 0, 5, 1]).isSome = true := by
  obtain ⟨v', h, _⟩ := C17_sorts (fun a b => decide (a < b)) (keyOrder id) [3, 1, 2, 3, 0, 5, 1]
    (by decide)
  simp only [List.length_cons, List.length_nil, Nat.zero_add, Nat.reduceAdd] at h
  rw [h]; rfl

/-- **C17**, weaker comparisons: for *any* irreflexive comparison, even an inconsistent one, `sort`
terminates within the view, fails no assertion and permutes it. -/
theorem C17_any_comparison (less : α → α → Bool) (hirr : ∀ a, less a a = false) (v : List α)
    (hlen : v.length ≤ 2 ^ 31) :
    ∃ v', sort less (v.length + 1) v = some v' ∧ v'.Perm v := by
  obtain ⟨v', e1, e2, _⟩ := sort_spec hirr (v.length + 1) v (by omega) hlen
  exact ⟨v', e1, e2⟩

example : ∀ a, (fun a b : Nat => decide (a % 3 = (b + 1) % 3)) a a = false := by
  intro a; simp only [decide_eq_false_iff_not]; omega

/-- A sorted permutation is unique if only equal items are equivalent. -/
theorem C17_unique (less : α → α → Bool) (hs : StrictWeak less)
    (htot : ∀ a b, less a b = false → less b a = false → a = b) (v w₁ w₂ : List α)
    (h1 : w₁.Perm v) (h2 : Sorted less w₁) (h3 : w₂.Perm v) (h4 : Sorted less w₂) : w₁ = w₂ := by
  have hp : w₁.Perm w₂ := h1.trans h3.symm
  exact hp.eq_of_pairwise (fun a b _ _ hab hba => htot a b hba hab) h2 h4

/-- **C17.** So for a total order the result does not depend on the initial arrangement. -/
theorem C17_canonical (less : α → α → Bool) (hs : StrictWeak less)
    (htot : ∀ a b, less a b = false → less b a = false → a = b) (v w : List α) (hp : v.Perm w)
    (hlen : v.length ≤ 2 ^ 31) :
    sort less (v.length + 1) v = sort less (w.length + 1) w := by
  obtain ⟨v', e1, e2, e3⟩ := C17_sorts less hs v hlen
  obtain ⟨w', f1, f2, f3⟩ := C17_sorts less hs w (by rw [← hp.length_eq]; exact hlen)
  rw [e1, f1, C17_unique less hs htot v v' w' e2 e3 (f2.trans hp.symm) f3]

example : ∀ a b : Nat, decide (a < b) = false → decide (b < a) = false → a = b := by
  intro a b; simp only [decide_eq_false_iff_not]; omega

/-- **C17**, limit of the claim: with a comparison that is not irreflexive (`<=`), sorting two items
in the wrong order recurses for ever: no recursion depth suffices. -/
theorem C17_reflexive_comparison_diverges (fuel : Nat) :
    sort (fun a b : Nat => decide (a ≤ b)) fuel [1, 0] = none := by
  induction fuel with
  | zero => rfl
  | succ fuel ih =>
    have hp : partitionLoop (fun a b : Nat => decide (a ≤ b)) 2 [1, 0] 0 1 1 = some ([1, 0], 0, 0, 1) := by
      simp [partitionLoop, scanUp, scanDown]
    have hr : trimRight (fun a b : Nat => decide (a ≤ b)) [1, 0] 1 0 = some 0 := by
      simp [trimRight]
    simp [sort, hp, hr, trimLeft, ih]

end Verif.Sort
