import Verif.Names.Lemmas3
/-!
# Names — checking that a registry is well-formed, and adding to a registry
-/
namespace Verif.Names
open Verif

theorem good_of {W : Registry} (h1 : (W.map (·.name)).Nodup)
    (h2 : ∀ R ∈ W, ∀ c ∈ R.children, c < W.length) : Spec.Good W := by
  refine ⟨?_, fun r R hR c hc => h2 R (List.mem_of_getElem? hR) c hc⟩
  rintro r q n ⟨R, hR, hRn⟩ ⟨S, hS, hSn⟩
  have hr := (List.getElem?_eq_some_iff.1 hR).1
  exact (List.getElem?_inj (by simpa using hr) h1).1 (by simp [hR, hS, hRn, hSn])

theorem externsDiffer_of {W : Registry} (h : ∀ R ∈ W, R.externs.Nodup) : Spec.ExternsDiffer W := by
  rintro ⟨r, i⟩ ⟨q, j⟩ n ⟨R, hR, hi⟩ ⟨S, hS, hj⟩ e
  simp only at e hR hS hi hj
  subst e
  rw [hR] at hS
  cases hS
  have := (List.getElem?_inj (List.getElem?_eq_some_iff.1 hi).1 (h R (List.mem_of_getElem? hR))).1
    (hi.trans hj.symm)
  rw [this]

theorem providersDiffer_of {W : Registry} (h : ∀ R ∈ W, R.providers.Nodup) : Spec.ProvidersDiffer W := by
  rintro ⟨r, i⟩ ⟨q, j⟩ x n ⟨R, hR, hi⟩ ⟨S, hS, hj⟩ e
  simp only at e hR hS hi hj
  subst e
  rw [hR] at hS
  cases hS
  have := (List.getElem?_inj (List.getElem?_eq_some_iff.1 hi).1 (h R (List.mem_of_getElem? hR))).1
    (hi.trans hj.symm)
  rw [this]

end Verif.Names
