import Verif.CppParse.LemmasGo
/-! # The parser for C++ — lemmas: sources and whole files -/
namespace Verif.CppParse
open Verif Verif.Cpp

theorem takeWhile_drop {α : Type} (f : α → Bool) (l : List α) {a : α} {r : List α}
    (h : l.drop (l.takeWhile f).length = a :: r) : f a = false := by
  induction l with
  | nil => simp at h
  | cons x l ih =>
    by_cases hx : f x = true
    · rw [List.takeWhile_cons_of_pos hx] at h
      exact ih (by simpa using h)
    · rw [List.takeWhile_cons_of_neg hx] at h
      simp at h
      rw [← h.1]; simpa using hx

theorem takeWhile_all {α : Type} (f : α → Bool) (l : List α) : ∀ a ∈ l.takeWhile f, f a = true := by
  induction l with
  | nil => intro a h; cases h
  | cons x l ih =>
    by_cases hx : f x = true
    · rw [List.takeWhile_cons_of_pos hx]
      intro a h
      rcases List.mem_cons.mp h with rfl | h
      · exact hx
      · exact ih a h
    · rw [List.takeWhile_cons_of_neg hx]
      intro a h; cases h

instance : Lawful (List Token) where
  next_visible := by
    intro a s s' cs t h
    have ha := takeWhile_all (fun t : Token => skipped t.type) s
    have hd := @takeWhile_drop _ (fun t : Token => skipped t.type) s
    simp only [Source.next] at h
    split at h
    · simp only [Option.some.injEq, _root_.Prod.mk.injEq] at h
      obtain ⟨rfl, rfl, rfl⟩ := h
      refine ⟨rfl, fun c hc => ?_⟩
      simp [visible, ha c hc]
    · rename_i t' l' e
      simp only [Option.some.injEq, _root_.Prod.mk.injEq] at h
      obtain ⟨rfl, rfl, rfl⟩ := h
      refine ⟨?_, fun c hc => ?_⟩
      · have := hd e
        simp [visible, this]
      · simp [visible, ha c hc]

theorem nextOf_visible : ∀ (fuel : Nat) (acc : List Token) (pp : PP) {cs : List Token} {t : Token} {q : PP},
    (∀ c ∈ acc, visible c = false) → nextOf fuel acc pp = some (cs, t, q) →
      visible t = true ∧ ∀ c ∈ cs, visible c = false := by
  intro fuel
  induction fuel with
  | zero => intro acc pp cs t q _ h; cases h
  | succ fuel ih =>
    intro acc pp cs t q ha h
    unfold nextOf at h
    split at h
    · cases h
    · rename_i t' pp' e
      split at h
      · rename_i hs
        refine ih _ _ ?_ h
        intro c hc
        rcases List.mem_append.mp hc with hc | hc
        · exact ha c hc
        · rw [List.mem_singleton.mp hc]; simp [visible, hs]
      · rename_i hs
        simp only [Option.some.injEq, _root_.Prod.mk.injEq] at h
        obtain ⟨rfl, rfl, rfl⟩ := h
        exact ⟨by simpa [visible] using hs, ha⟩

instance : Lawful PP where
  next_visible := by
    intro a s s' cs t h
    exact nextOf_visible _ _ _ (fun c hc => by cases hc) h

variable {σ : Type} [Source σ] [Lawful σ] {ρ : Prop}

theorem file_fwd (n : Nat) (p q : P σ) (ds : List Decl) (w : Between p) (h : translationUnit (go n) p = .ok ds q) :
    ∃ p' t, Adv ρ p p' ∧ Got ρ t p' q ∧ t.type = .endOfFile := by
  unfold translationUnit at h
  obtain ⟨⟨ds', c⟩, p1, h1, h2⟩ := bind_inv h
  have a := declarationList_fwd (ρ := ρ) (go_hyp n) false [] p _ p1 w h1
  dsimp only at h2
  obtain ⟨t, p2, h3, h4⟩ := bind_inv h2
  obtain ⟨p', a', g⟩ := gets_readToken (ρ := ρ) p1 t p2 a.between h3
  obtain ⟨u, p3, h5, h6⟩ := bind_inv h4
  unfold check at h5
  split at h5
  · rename_i he
    cases h5
    cases h6
    exact ⟨p', t, a.trans a', g, by simpa using he⟩
  · cases h5

end Verif.CppParse
