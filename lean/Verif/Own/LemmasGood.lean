import Verif.Own.Lemmas

namespace Verif.Own

open Spec

theorem valid_live {s : State} {o : Id} {i : Nat} (h : s.valid (.member o i) = true) : o ∈ s.live ∧ i < s.size o := by
  simpa [State.valid] using h

theorem live_valid {s : State} {o : Id} {i : Nat} (h : o ∈ s.live) (k : i < s.size o) : s.valid (.member o i) = true := by
  simp [State.valid, h, k]

theorem good_reach {s : State} (g : Good s) {p z : Id} (h : p ∈ s.live) (r : Reach s p z) : z ∈ s.live := by
  induction r with
  | refl => exact h
  | step _ o ih =>
    obtain ⟨i, hi, ei⟩ := o
    exact g.exist _ _ (live_valid ih hi) ei

theorem good_nice {s : State} (g : Good s) {l : Loc} {p : Id} (v : s.valid l = true) (e : s.slot l = some p)
    (a : ¬ Inside s p l) : Nice s p := by
  have lp := g.exist l p v e
  refine ⟨?_, ?_⟩
  · intro x y i j z hx hy hi hj ei ej
    have := g.unique _ _ z (live_valid (good_reach g lp hx) hi) (live_valid (good_reach g lp hy) hj) ei ej
    simpa using this
  · rintro x hx ⟨i, hi, ei⟩
    have := g.unique _ _ p (live_valid (good_reach g lp hx) hi) v ei e
    subst this
    exact a hx

theorem destroyPtr_ok {s : State} (g : Good s) (nd : s.live.Nodup) {l : Loc} (v : s.valid l = true) (a : Apart s l) :
    ∃ m, destroyPtr s (s.slot l) = some (lessen s m) ∧ EverythingOf s (s.slot l) m := by
  cases e : s.slot l with
  | none => exact ⟨[], by simp [destroyPtr], rfl⟩
  | some p =>
    exact destroy_ok s.live.length [] s p nd (good_nice g v e (a p e)) (fun z => good_reach g (g.exist l p v e))
      (by simp) (by simp) (by simp) (by simp)

theorem valid_lessen {s : State} {m : List Id} {k : Loc} :
    (lessen s m).valid k = true ↔ s.valid k = true ∧ ∀ o i, k = .member o i → o ∉ m := by
  cases k with
  | var v => simp [State.valid]
  | member o i =>
    have e : (lessen s m).size o = s.size o := rfl
    simp only [State.valid, e, Bool.and_eq_true, decide_eq_true_eq]
    simp only [lessen, List.mem_filter, decide_eq_true_eq]
    constructor
    · rintro ⟨⟨a, b⟩, c⟩
      exact ⟨⟨a, c⟩, fun o' i' e => by cases e; exact b⟩
    · rintro ⟨⟨a, c⟩, b⟩
      exact ⟨⟨a, b o i rfl⟩, c⟩

/-- Which places are left. -/
theorem valid_after {s : State} {m : List Id} {l k : Loc} (em : EverythingOf s (s.slot l) m) :
    (lessen s m).valid k = true ↔ s.valid k = true ∧ ∀ p, s.slot l = some p → ¬ Inside s p k := by
  rw [valid_lessen]
  constructor
  · rintro ⟨v, h⟩
    refine ⟨v, fun p e ins => ?_⟩
    rw [e] at em
    cases k with
    | var _ => exact ins
    | member o i => exact h o i rfl ((em.exact o).2 ins)
  · rintro ⟨v, h⟩
    refine ⟨v, ?_⟩
    rintro o i rfl hm
    cases e : s.slot l with
    | none =>
      rw [e] at em
      cases (show m = [] from em)
      cases hm
    | some p =>
      rw [e] at em
      exact h p e ((em.exact o).1 hm)

/-- Other places still point to what exists. -/
theorem exist_after {s : State} (g : Good s) {m : List Id} {l k : Loc} (v : s.valid l = true) (em : EverythingOf s (s.slot l) m)
    (vk : (lessen s m).valid k = true) (ne : k ≠ l) {q : Id} (eq : s.slot k = some q) : q ∈ (lessen s m).live := by
  obtain ⟨vs, ins⟩ := (valid_after em).1 vk
  have lq := g.exist k q vs eq
  simp only [lessen, List.mem_filter, decide_eq_true_eq]
  refine ⟨lq, fun hm => ?_⟩
  cases e : s.slot l with
  | none =>
    rw [e] at em
    cases (show m = [] from em)
    cases hm
  | some p =>
    rw [e] at em
    have r := (em.exact q).1 hm
    cases r with
    | refl => exact ne (g.unique k l _ vs v eq e)
    | step r o =>
      obtain ⟨i, hi, ei⟩ := o
      have := g.unique _ _ q vs (live_valid (good_reach g (g.exist l p v e) r) hi) eq ei
      subst this
      exact ins p e r

@[simp] theorem lessen_slot (s : State) (m : List Id) : (lessen s m).slot = s.slot := rfl
@[simp] theorem lessen_size (s : State) (m : List Id) : (lessen s m).size = s.size := rfl

/-- Putting a pointer that nothing else holds. -/
theorem good_put {t : State} {l : Loc} {v : Option Id}
    (ex : ∀ k q, k ≠ l → t.valid k = true → t.slot k = some q → q ∈ t.live)
    (un : ∀ k k' q, k ≠ l → k' ≠ l → t.valid k = true → t.valid k' = true → t.slot k = some q → t.slot k' = some q → k = k')
    (hv : ∀ q, v = some q → q ∈ t.live ∧ ∀ k, k ≠ l → t.valid k = true → t.slot k ≠ some q) :
    Good { t with slot := fun k => if k = l then v else t.slot k } := by
  have val : ∀ k, State.valid { t with slot := fun k => if k = l then v else t.slot k } k = t.valid k := by
    intro k
    cases k <;> rfl
  refine ⟨?_, ?_⟩
  · intro k q vk e
    rw [val] at vk
    simp only at e
    split at e
    · exact (hv q e).1
    · next ne => exact ex k q ne vk e
  · intro k k' q vk vk' e e'
    rw [val] at vk vk'
    simp only at e e'
    split at e
    · next h =>
      split at e'
      · next h' => rw [h, h']
      · next h' => exact absurd e' ((hv q e).2 k' h' vk')
    · next h =>
      split at e'
      · next h' => exact absurd e ((hv q e').2 k h vk)
      · next h' => exact un k k' q h h' vk vk' e e'

theorem un_after {s : State} (g : Good s) {m : List Id} {k k' : Loc} {q : Id} (v : (lessen s m).valid k = true)
    (v' : (lessen s m).valid k' = true) (e : s.slot k = some q) (e' : s.slot k' = some q) : k = k' :=
  g.unique k k' q (valid_lessen.1 v).1 (valid_lessen.1 v').1 e e'

theorem after_lessen (s : State) (m : List Id) (f : Loc → Option Id) : After s { lessen s m with slot := f } m f :=
  ⟨rfl, by simp [lessen], fun _ => rfl, rfl, rfl⟩

/-- `Owned::operator=(T*)` with a pointer that nothing holds. -/
theorem assignRaw_ok {s : State} (g : Good s) (nd : s.live.Nodup) {dst : Loc} {p : Option Id} (v : s.valid dst = true)
    (a : Apart s dst) (hp : ∀ q, p = some q → q ∈ s.live ∧ ∀ k, s.valid k = true → s.slot k ≠ some q) :
    ∃ s' m, assignRaw s dst p = some s' ∧ EverythingOf s (s.slot dst) m ∧ After s s' m (put s.slot dst p) ∧ Good s' := by
  obtain ⟨m, em, hm⟩ := destroyPtr_ok g nd v a
  have vd : (lessen s m).valid dst = true := (valid_after hm).2 ⟨v, fun q e => a q e⟩
  have as : s.slot dst = none ∨ s.slot dst ≠ p := by
    cases e : s.slot dst with
    | none => exact .inl rfl
    | some q =>
      refine .inr ?_
      rintro rfl
      exact (hp q rfl).2 dst v e
  refine ⟨{ lessen s m with slot := put s.slot dst p }, m, ?_, hm, after_lessen s m _, ?_⟩
  · simp only [assignRaw, State.read, v, if_true, Option.bind_eq_bind, Option.bind_some, as, em, State.write, vd]
    rfl
  · apply good_put (t := lessen s m)
    · exact fun k q ne vk e => exist_after g v hm vk ne e
    · exact fun k k' q _ _ vk vk' e e' => un_after g vk vk' e e'
    · intro q e
      obtain ⟨lq, nq⟩ := hp q e
      refine ⟨?_, fun k _ vk => nq k (valid_lessen.1 vk).1⟩
      simp only [lessen, List.mem_filter, decide_eq_true_eq]
      refine ⟨lq, fun hq => ?_⟩
      cases e' : s.slot dst with
      | none =>
        rw [e'] at hm
        cases (show m = [] from hm)
        cases hq
      | some d =>
        rw [e'] at hm
        have r := (hm.exact q).1 hq
        cases r with
        | refl => exact nq dst v e'
        | step r o =>
          obtain ⟨i, hi, ei⟩ := o
          exact nq _ (live_valid (good_reach g (g.exist dst d v e') r) hi) ei

theorem clear_eq (s : State) (dst : Loc) : clear s dst = assignRaw s dst none := by
  unfold clear assignRaw
  cases h : s.read dst with
  | none => rfl
  | some p =>
    cases p <;> simp

theorem clear_ok {s : State} (g : Good s) (nd : s.live.Nodup) {dst : Loc} (v : s.valid dst = true) (a : Apart s dst) :
    ∃ s' m, clear s dst = some s' ∧ EverythingOf s (s.slot dst) m ∧ After s s' m (put s.slot dst none) ∧ Good s' := by
  rw [clear_eq]
  exact assignRaw_ok g nd v a (by simp)

/-- `Owned::operator=(Owned&&)`. -/
theorem moveAssign_ok {s : State} (g : Good s) (nd : s.live.Nodup) {dst src : Loc} (v : s.valid dst = true)
    (vs : s.valid src = true) (a : Apart s dst) (h : ∀ p, s.slot dst = some p → dst ≠ src ∧ ¬ Inside s p src) :
    ∃ s' m, moveAssign s dst src = some s' ∧ EverythingOf s (s.slot dst) m ∧
      After s s' m (put (put s.slot src none) dst (s.slot src)) ∧ Good s' := by
  obtain ⟨m, em, hm⟩ := destroyPtr_ok g nd v a
  have vd : (lessen s m).valid dst = true := (valid_after hm).2 ⟨v, fun q e => a q e⟩
  have vs' : (lessen s m).valid src = true := (valid_after hm).2 ⟨vs, fun q e => (h q e).2⟩
  have as : s.slot dst = none ∨ s.slot dst ≠ s.slot src := by
    cases e : s.slot dst with
    | none => exact .inl rfl
    | some q =>
      refine .inr fun e' => ?_
      exact (h q e).1 (g.unique dst src q v vs e e'.symm)
  have vd' : State.valid { lessen s m with slot := put s.slot src none } dst = true := by
    rw [← vd]
    cases dst <;> rfl
  refine ⟨{ lessen s m with slot := put (put s.slot src none) dst (s.slot src) }, m, ?_, hm, after_lessen s m _, ?_⟩
  · have e1 : (lessen s m).read src = some (s.slot src) := by simp [State.read, vs']
    have e2 : (lessen s m).write src none = some { lessen s m with slot := put s.slot src none } := by
      simp only [State.write, vs', if_true]
      rfl
    have r1 : s.read dst = some (s.slot dst) := by simp [State.read, v]
    have r2 : s.read src = some (s.slot src) := by simp [State.read, vs]
    simp only [moveAssign, r1, r2, if_true, Option.bind_eq_bind, Option.bind_some, as, em, release]
    rw [e1]
    simp only [Option.bind_some]
    rw [e2]
    simp only [Option.bind_some, State.write, vd', if_true, Option.pure_def]
    rfl
  · have val : ∀ k, State.valid { lessen s m with slot := put s.slot src none } k = (lessen s m).valid k := by
      intro k
      cases k <;> rfl
    have get : ∀ k q, put s.slot src none k = some q → k ≠ src ∧ s.slot k = some q := by
      intro k q e
      unfold put at e
      split at e
      · cases e
      · next ne => exact ⟨ne, e⟩
    apply good_put (t := { lessen s m with slot := put s.slot src none })
    · intro k q ne vk e
      rw [val] at vk
      exact exist_after g v hm vk ne (get k q e).2
    · intro k k' q _ _ vk vk' e e'
      rw [val] at vk vk'
      exact un_after g vk vk' (get k q e).2 (get k' q e').2
    · intro q e
      refine ⟨?_, ?_⟩
      · by_cases ds : src = dst
        · subst ds
          exact absurd rfl (h q e).1
        · exact exist_after g v hm vs' ds e
      · intro k _ vk e'
        rw [val] at vk
        obtain ⟨ne, e'⟩ := get k q e'
        exact ne (un_after g vk vs' e' e)

theorem release_ok {s : State} (g : Good s) {src : Loc} (v : s.valid src = true) :
    ∃ s', release s src = some (s.slot src, s') ∧ After s s' [] (put s.slot src none) ∧ Good s' := by
  refine ⟨{ s with slot := put s.slot src none }, ?_, ⟨by simp, by simp, fun _ => rfl, rfl, rfl⟩, ?_⟩
  · simp only [release, State.read, v, if_true, Option.bind_eq_bind, Option.bind_some, State.write]
    rfl
  · apply good_put (t := s)
    · exact fun k q _ vk e => g.exist k q vk e
    · exact fun k k' q _ _ vk vk' e e' => g.unique k k' q vk vk' e e'
    · intro q e
      cases e

end Verif.Own
