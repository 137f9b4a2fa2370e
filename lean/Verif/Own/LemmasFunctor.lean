import Verif.Own.Spec

namespace Verif.Own

open Spec

theorem functor_good_step {s : Functors} (g : FunctorGood s) {op : FunctorOp} (h : FunctorProper s op) :
    FunctorGood (functorStep s op) := by
  obtain ⟨g1, g2, g3, g4⟩ := g
  have fresh : s.next ∉ s.live := fun h => Nat.lt_irrefl _ (g4 _ h)
  have mv : ∀ f g : Nat, FunctorGood { s with wrapper := fun k => if k = g then none else if k = f then s.wrapper g else s.wrapper k } := by
    intro f g
    refine ⟨?_, ?_, g3, g4⟩
    · intro k w e
      simp only at e
      split at e
      · cases e
      · split at e
        · exact g1 g w e
        · exact g1 k w e
    · intro k l w e e'
      simp only at e e'
      split at e
      · cases e
      · next kg =>
        split at e'
        · cases e'
        · next lg =>
          split at e
          · next kf =>
            split at e'
            · next lf => rw [kf, lf]
            · exact absurd (g2 _ _ w e e').symm lg
          · split at e'
            · exact absurd (g2 _ _ w e e') kg
            · exact g2 _ _ w e e'
  cases op with
  | make f =>
    refine ⟨?_, ?_, List.nodup_cons.2 ⟨fresh, g3⟩, ?_⟩
    · intro k w e
      simp only [functorStep] at e
      split at e
      · cases e
        exact List.mem_cons_self
      · exact List.mem_cons_of_mem _ (g1 k w e)
    · intro k l w e e'
      simp only [functorStep] at e e'
      split at e
      · next kf =>
        split at e'
        · next lf => rw [kf, lf]
        · cases e
          exact absurd (g1 l _ e') fresh
      · split at e'
        · cases e'
          exact absurd (g1 k _ e) fresh
        · exact g2 k l w e e'
    · intro w hw
      rcases List.mem_cons.1 (show w ∈ s.next :: s.live from hw) with rfl | hw
      · exact Nat.lt_succ_self _
      · exact Nat.lt_succ_of_lt (g4 w hw)
  | moveInit f g => exact mv f g
  | move f g => exact mv f g
  | drop f =>
    simp only [functorStep]
    cases e : s.wrapper f with
    | none => exact ⟨g1, g2, g3, g4⟩
    | some w =>
      refine ⟨?_, ?_, g3.erase _, fun v hv => g4 v (List.mem_of_mem_erase hv)⟩
      · intro k v ek
        simp only at ek
        split at ek
        · cases ek
        · next kf =>
          simp only
          rw [g3.mem_erase_iff]
          refine ⟨?_, g1 k v ek⟩
          rintro rfl
          exact kf (g2 k f v ek e)
      · intro k l v ek el
        simp only at ek el
        split at ek
        · cases ek
        · split at el
          · cases el
          · exact g2 k l v ek el

theorem functor_run_ind {ok : Functors → FunctorOp → Prop} (inv : Functors → Prop)
    (hs : ∀ s op, inv s → ok s op → inv (functorStep s op)) :
    ∀ (ops : List FunctorOp) (s : Functors), inv s → FunctorThroughout ok s ops → inv (functorRun s ops)
  | [], _, h, _ => h
  | op :: ops, s, h, t => functor_run_ind inv hs ops (functorStep s op) (hs s op h t.1) t.2

theorem functor_good_start : FunctorGood functorStart :=
  ⟨fun _ _ e => (by cases e), fun _ _ _ e => (by cases e), by simp [functorStart], by simp [functorStart]⟩

/-- A wrapper that no functor holds stays. -/
theorem functor_lost {s : Functors} {w : Id} (h : w ∈ s.live ∧ w < s.next ∧ ∀ k, s.wrapper k ≠ some w) (op : FunctorOp) :
    w ∈ (functorStep s op).live ∧ w < (functorStep s op).next ∧ ∀ k, (functorStep s op).wrapper k ≠ some w := by
  obtain ⟨h1, h2, h3⟩ := h
  cases op with
  | make f =>
    refine ⟨List.mem_cons_of_mem _ h1, Nat.lt_succ_of_lt h2, ?_⟩
    intro k e
    simp only [functorStep] at e
    split at e
    · cases e
      exact Nat.lt_irrefl _ h2
    · exact h3 k e
  | moveInit f g =>
    refine ⟨h1, h2, ?_⟩
    intro k e
    simp only [functorStep] at e
    split at e
    · cases e
    · split at e
      · exact h3 g e
      · exact h3 k e
  | move f g =>
    refine ⟨h1, h2, ?_⟩
    intro k e
    simp only [functorStep] at e
    split at e
    · cases e
    · split at e
      · exact h3 g e
      · exact h3 k e
  | drop f =>
    simp only [functorStep]
    cases e : s.wrapper f with
    | none => exact ⟨h1, h2, h3⟩
    | some v =>
      refine ⟨?_, h2, ?_⟩
      · have : w ≠ v := by
          rintro rfl
          exact h3 f e
        exact (List.mem_erase_of_ne this).2 h1
      · intro k ek
        simp only at ek
        split at ek
        · cases ek
        · exact h3 k ek

theorem functor_held_step {s : Functors} (g : FunctorGood s) (H : FunctorHeld s) {op : FunctorOp} (h : FunctorProper s op)
    (t : FunctorTidy s op) : FunctorHeld (functorStep s op) := by
  have mv : ∀ f g : Nat, s.wrapper f = none → (f = g → s.wrapper g = none) →
      FunctorHeld { s with wrapper := fun k => if k = g then none else if k = f then s.wrapper g else s.wrapper k } := by
    intro f g hf _ w hw
    obtain ⟨k, e⟩ := H w hw
    have kf : k ≠ f := by
      rintro rfl
      rw [hf] at e
      cases e
    by_cases kg : k = g
    · subst kg
      refine ⟨f, ?_⟩
      simp [Ne.symm kf, e]
    · refine ⟨k, ?_⟩
      simp [kg, kf, e]
  cases op with
  | make f =>
    intro w hw
    rcases List.mem_cons.1 (show w ∈ s.next :: s.live from hw) with rfl | hw
    · exact ⟨f, by simp [functorStep]⟩
    · obtain ⟨k, e⟩ := H w hw
      refine ⟨k, ?_⟩
      have : k ≠ f := by
        rintro rfl
        rw [show s.wrapper k = none from h] at e
        cases e
      simp [functorStep, this, e]
  | moveInit f g => exact mv f g h.1 (fun e => absurd e h.2)
  | move f g => exact mv f g t (fun e => e ▸ t)
  | drop f =>
    simp only [functorStep]
    cases e : s.wrapper f with
    | none => exact H
    | some v =>
      intro w hw
      rw [g.once.mem_erase_iff] at hw
      obtain ⟨k, ek⟩ := H w hw.2
      refine ⟨k, ?_⟩
      have : k ≠ f := by
        rintro rfl
        rw [e] at ek
        cases ek
        exact hw.1 rfl
      simp [this, ek]

theorem functor_drop {s : Functors} (f k : Nat) :
    (functorStep s (.drop f)).wrapper k = if k = f then none else s.wrapper k := by
  simp only [functorStep]
  cases e : s.wrapper f with
  | none =>
    by_cases h : k = f
    · subst h
      simp [e]
    · simp [h]
  | some w => rfl

theorem functor_drops : ∀ (fs : List Nat) (s : Functors) (k : Nat),
    (functorRun s (fs.map .drop)).wrapper k = if k ∈ fs then none else s.wrapper k
  | [], s, k => by simp [functorRun]
  | f :: fs, s, k => by
    show (functorRun (functorStep s (.drop f)) (fs.map .drop)).wrapper k = _
    rw [functor_drops fs, functor_drop]
    by_cases a : k ∈ fs <;> by_cases b : k = f <;> simp [a, b]

theorem functor_throughout_drop : ∀ (fs : List Nat) (s : Functors),
    FunctorThroughout (fun s op => FunctorProper s op ∧ FunctorTidy s op) s (fs.map .drop)
  | [], _ => trivial
  | _ :: fs, s => ⟨⟨trivial, trivial⟩, functor_throughout_drop fs _⟩

end Verif.Own
