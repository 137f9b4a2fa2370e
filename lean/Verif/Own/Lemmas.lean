import Verif.Own.Spec

namespace Verif.Own

open Spec

theorem Spec.Reach.trans {s : State} {p q z : Id} (h : Reach s p q) (k : Reach s q z) : Reach s p z := by
  induction k with
  | refl => exact h
  | step _ o ih => exact .step ih o

/-- What is needed of the objects reached from `p`. -/
structure Nice (s : State) (p : Id) : Prop where
  unique : ∀ x y i j z, Reach s p x → Reach s p y → i < s.size x → j < s.size y →
    s.slot (.member x i) = some z → s.slot (.member y j) = some z → x = y ∧ i = j
  root : ∀ x, Reach s p x → ¬ Owns s x p

theorem Nice.back {s : State} {p c : Id} (h : Nice s p) (o : Owns s p c) : ¬ Reach s c p := by
  intro r
  have hc : Reach s p c := .step .refl o
  cases r with
  | refl => exact h.root p .refl o
  | step r o' => exact h.root _ (hc.trans r) o'

theorem Nice.child {s : State} {p c : Id} (h : Nice s p) (o : Owns s p c) : Nice s c := by
  have hc : Reach s p c := .step .refl o
  refine ⟨fun x y i j z hx hy => h.unique x y i j z (hc.trans hx) (hc.trans hy), ?_⟩
  rintro x hx ⟨j, hj, ej⟩
  obtain ⟨i, hi, ei⟩ := o
  have := h.unique p x i j c .refl (hc.trans hx) hi hj ei ej
  exact h.back ⟨i, hi, ei⟩ (this.1 ▸ hx)

theorem reach_meet {s : State} {p c d z : Id} (h : Nice s p) (hc : Reach s p c) (hd : Reach s p d) (r : Reach s c z) :
    Reach s d z → Reach s c d ∨ Reach s d c := by
  induction r with
  | refl => exact Or.inr
  | @step y z r o ih =>
    intro k
    cases k with
    | refl => exact .inl (.step r o)
    | step k o' =>
      obtain ⟨i, hi, ei⟩ := o
      obtain ⟨j, hj, ej⟩ := o'
      have := h.unique _ _ _ _ _ (hc.trans r) (hd.trans k) hi hj ei ej
      exact ih (this.1 ▸ k)

theorem reach_sibling {s : State} {p c d : Id} {i j : Nat} (h : Nice s p) (hi : i < s.size p) (hj : j < s.size p)
    (ei : s.slot (.member p i) = some c) (ej : s.slot (.member p j) = some d) (ne : i ≠ j) : ¬ Reach s c d := by
  intro r
  cases r with
  | refl => exact ne (h.unique p p i j c .refl .refl hi hj ei ej).2
  | step r o =>
    obtain ⟨k, hk, ek⟩ := o
    have hc : Reach s p c := .step .refl ⟨i, hi, ei⟩
    have := h.unique _ p k j d (hc.trans r) .refl hk hj ek ej
    exact h.back ⟨i, hi, ei⟩ (this.1 ▸ r)

theorem siblings_apart {s : State} {p c d z : Id} {i j : Nat} (h : Nice s p) (hi : i < s.size p) (hj : j < s.size p)
    (ei : s.slot (.member p i) = some c) (ej : s.slot (.member p j) = some d) (ne : i ≠ j) (r : Reach s c z) :
    ¬ Reach s d z := by
  intro k
  have hc : Reach s p c := .step .refl ⟨i, hi, ei⟩
  have hd : Reach s p d := .step .refl ⟨j, hj, ej⟩
  cases reach_meet h hc hd r k with
  | inl r => exact reach_sibling h hi hj ei ej ne r
  | inr r => exact reach_sibling h hj hi ej ei (Ne.symm ne) r

/-- `s` after `l` was destroyed. -/
def lessen (s : State) (l : List Id) : State :=
  { s with live := s.live.filter (fun o => decide (o ∉ l)), gone := s.gone ++ l }

@[simp] theorem lessen_nil (s : State) : lessen s [] = s := by
  cases s
  simp [lessen, List.filter_eq_self]

theorem lessen_lessen (s : State) (l m : List Id) : lessen (lessen s l) m = lessen s (l ++ m) := by
  simp only [lessen, List.filter_filter, List.append_assoc, State.mk.injEq, and_true, true_and]
  apply List.filter_congr
  intro o _
  by_cases a : o ∈ l <;> by_cases b : o ∈ m <;> simp [a, b]

theorem erase_eq_filter {l : List Id} (h : l.Nodup) (o : Id) : l.erase o = l.filter (fun x => decide (x ∉ [o])) := by
  rw [h.erase_eq_filter]
  apply List.filter_congr
  intro x _
  by_cases a : x = o <;> simp [a]

theorem reach_congr {s t : State} (hs : t.slot = s.slot) (hz : t.size = s.size) {p z : Id} : Reach t p z ↔ Reach s p z := by
  constructor
  · intro r
    induction r with
    | refl => exact .refl
    | step _ o ih => exact .step ih (by simpa only [Owns, hs, hz] using o)
  · intro r
    induction r with
    | refl => exact .refl
    | step _ o ih => exact .step ih (by simpa only [Owns, hs, hz] using o)

theorem reach_lessen {s : State} {l : List Id} {p z : Id} : Reach (lessen s l) p z ↔ Reach s p z :=
  reach_congr (s := s) (t := lessen s l) rfl rfl

theorem nice_lessen {s : State} {l : List Id} {p : Id} (h : Nice s p) : Nice (lessen s l) p :=
  ⟨fun x y i j z hx hy => h.unique x y i j z (reach_lessen.1 hx) (reach_lessen.1 hy), fun x hx => h.root x (reach_lessen.1 hx)⟩

theorem reach_first {s : State} {p z : Id} (r : Reach s p z) : z = p ∨ ∃ c, Owns s p c ∧ Reach s c z := by
  induction r with
  | refl => exact .inl rfl
  | @step y z _ o ih =>
    refine .inr ?_
    rcases ih with rfl | ⟨c, oc, rc⟩
    · exact ⟨z, o, .refl⟩
    · exact ⟨c, oc, .step rc o⟩

theorem everything_lessen {s : State} {l m : List Id} {p : Id} : Everything (lessen s l) p m ↔ Everything s p m := by
  constructor
  · rintro ⟨a, b, c⟩
    exact ⟨a, fun z => (b z).trans reach_lessen, fun x y hx => c x y (reach_lessen.2 hx)⟩
  · rintro ⟨a, b, c⟩
    exact ⟨a, fun z => (b z).trans reach_lessen.symm, fun x y hx => c x y (reach_lessen.1 hx)⟩

/-- The result of `destroy` when there is nothing wrong. -/
def DestroyOk (f : Nat) (d : State → Id → Option State) (A : List Id) : Prop :=
  ∀ (s : State) (p : Id), s.live.Nodup → Nice s p → (∀ z, Reach s p z → z ∈ s.live) → A.Nodup → (∀ a ∈ A, a ∈ s.live) →
    (∀ a ∈ A, ¬ Reach s p a) → s.live.length ≤ f + A.length → ∃ l, d s p = some (lessen s l) ∧ Everything s p l

theorem members_ok {d : State → Id → Option State} {p : Id} {A : List Id} {f : Nat} (hd : DestroyOk f d (p :: A)) :
    ∀ (i : Nat) (s : State), i ≤ s.size p → s.live.Nodup → Nice s p →
      (∀ j c z, j < i → s.slot (.member p j) = some c → Reach s c z → z ∈ s.live) → (p :: A).Nodup →
      (∀ a ∈ p :: A, a ∈ s.live) → (∀ a ∈ A, ¬ Reach s p a) → s.live.length ≤ f + (A.length + 1) →
      ∃ l, members d s p i = some (lessen s l) ∧ l.Nodup ∧
        (∀ z, z ∈ l ↔ ∃ j c, j < i ∧ s.slot (.member p j) = some c ∧ Reach s c z) ∧
        (∀ x y, x ∈ l → Owns s x y → ∃ a b c, l = a ++ y :: b ++ x :: c)
  | 0, s, _, _, _, _, _, _, _, _ => ⟨[], by simp [members], by simp, by simp, by simp⟩
  | i + 1, s, hi, nd, nice, live, nA, lA, rA, len => by
    rw [members]
    cases e : s.slot (.member p i) with
    | none =>
      obtain ⟨l, el, ndl, ml, ol⟩ := members_ok hd i s (by omega) nd nice
        (fun j c z hj => live j c z (by omega)) nA lA rA len
      refine ⟨l, el, ndl, ?_, ol⟩
      intro z
      rw [ml]
      constructor
      · rintro ⟨j, c, hj, ej, r⟩
        exact ⟨j, c, by omega, ej, r⟩
      · rintro ⟨j, c, hj, ej, r⟩
        have : j ≠ i := by
          rintro rfl
          rw [e] at ej
          cases ej
        exact ⟨j, c, by omega, ej, r⟩
    | some c =>
      have oc : Owns s p c := ⟨i, by omega, e⟩
      have hc : Reach s p c := .step .refl oc
      obtain ⟨l, el, hl⟩ := hd s c nd (nice.child oc) (fun z r => live i c z (by omega) e r) nA lA (by
        intro a ha r
        cases ha with
        | head => exact nice.back oc r
        | tail _ ha => exact rA a ha (hc.trans r)) (by simpa using len)
      simp only [el]
      have mem : ∀ {o}, o ∈ s.live → o ∉ l → o ∈ (lessen s l).live := by
        intro o a b
        simp [lessen, a, b]
      obtain ⟨m, em, ndm, mm, om⟩ := members_ok hd i (lessen s l) (show i ≤ s.size p by omega) (nd.filter _)
        (nice_lessen nice) (by
          intro j c' z hj ej r
          have r := reach_lessen.1 r
          refine mem (live j c' z (by omega) ej r) ?_
          rw [hl.exact]
          exact fun k => siblings_apart nice (by omega) (by omega) e ej (by omega) k r) nA (by
          intro a ha
          refine mem (lA a ha) ?_
          rw [hl.exact]
          intro r
          cases ha with
          | head => exact nice.back oc r
          | tail _ ha => exact rA a ha (hc.trans r)) (fun a ha r => rA a ha (reach_lessen.1 r))
        (Nat.le_trans (List.length_filter_le _ _) len)
      simp only [reach_lessen] at mm
      refine ⟨l ++ m, by rw [em, lessen_lessen], ?_, ?_, ?_⟩
      · rw [List.nodup_append]
        refine ⟨hl.once, ndm, ?_⟩
        rintro x hx y hy rfl
        obtain ⟨j, c', hj, ej, r⟩ := (mm x).1 hy
        exact siblings_apart nice (by omega) (by omega) e ej (by omega) ((hl.exact x).1 hx) r
      · intro z
        rw [List.mem_append, hl.exact, mm]
        constructor
        · rintro (r | ⟨j, c', hj, ej, r⟩)
          · exact ⟨i, c, by omega, e, r⟩
          · exact ⟨j, c', by omega, ej, r⟩
        · rintro ⟨j, c', hj, ej, r⟩
          by_cases k : j = i
          · subst k
            rw [e] at ej
            cases ej
            exact .inl r
          · exact .inr ⟨j, c', by omega, ej, r⟩
      · intro x y hx o
        rcases List.mem_append.1 hx with hx | hx
        · obtain ⟨a, b, c', h⟩ := hl.order x y ((hl.exact x).1 hx) o
          exact ⟨a, b, c' ++ m, by rw [h]; simp⟩
        · obtain ⟨a, b, c', h⟩ := om x y hx o
          exact ⟨l ++ a, b, c', by rw [h]; simp⟩

theorem nodup_length {A L : List Id} (h : A.Nodup) (sub : ∀ a ∈ A, a ∈ L) : A.length ≤ L.length := by
  induction A generalizing L with
  | nil => simp
  | cons a A ih =>
    have h' := List.nodup_cons.1 h
    have := ih (L := L.erase a) h'.2 (by
      intro b hb
      have : b ≠ a := by
        rintro rfl
        exact h'.1 hb
      exact (List.mem_erase_of_ne this).2 (sub b (by simp [hb])))
    rw [List.length_erase_of_mem (sub a (by simp))] at this
    have : 0 < L.length := List.length_pos_of_mem (sub a (by simp))
    simp
    omega

theorem destroy_ok : ∀ (f : Nat) (A : List Id) (s : State) (p : Id), s.live.Nodup → Nice s p →
    (∀ z, Reach s p z → z ∈ s.live) → A.Nodup → (∀ a ∈ A, a ∈ s.live) → (∀ a ∈ A, ¬ Reach s p a) →
    s.live.length ≤ f + A.length → ∃ l, destroy f s p = some (lessen s l) ∧ Everything s p l
  | 0, A, s, p, nd, nice, live, nA, lA, rA, len => by
    exfalso
    have := nodup_length (A := p :: A) (L := s.live) (List.nodup_cons.2 ⟨fun h => rA p h .refl, nA⟩) (by
      intro a ha
      cases ha with
      | head => exact live p .refl
      | tail _ ha => exact lA a ha)
    simp at this
    omega
  | f + 1, A, s, p, nd, nice, live, nA, lA, rA, len => by
    have nA' : (p :: A).Nodup := List.nodup_cons.2 ⟨fun h => rA p h .refl, nA⟩
    have lA' : ∀ a ∈ p :: A, a ∈ s.live := by
      intro a ha
      cases ha with
      | head => exact live p .refl
      | tail _ ha => exact lA a ha
    obtain ⟨l, el, ndl, ml, ol⟩ := members_ok (f := f) (d := destroy f) (p := p) (A := A)
      (fun s p nd nice live nA lA rA len => destroy_ok f _ s p nd nice live nA lA rA len)
      (s.size p) s (Nat.le_refl _) nd nice
      (fun j c z hj ej r => live z ((Reach.step .refl ⟨j, hj, ej⟩).trans r)) nA' lA' rA (by omega)
    have pl : p ∉ l := by
      rw [ml]
      rintro ⟨j, c, hj, ej, r⟩
      exact nice.back ⟨j, hj, ej⟩ r
    have ex : ∀ z, z ∈ l ++ [p] ↔ Reach s p z := by
      intro z
      rw [List.mem_append, ml, List.mem_singleton]
      constructor
      · rintro (⟨j, c, hj, ej, r⟩ | rfl)
        · exact (Reach.step .refl ⟨j, hj, ej⟩).trans r
        · exact .refl
      · intro r
        rcases reach_first r with rfl | ⟨c, ⟨j, hj, ej⟩, r⟩
        · exact .inr rfl
        · exact .inl ⟨j, c, hj, ej, r⟩
    refine ⟨l ++ [p], ?_, ?_, ex, ?_⟩
    · rw [destroy, if_pos (live p .refl), el]
      have : p ∈ (lessen s l).live := by simp [lessen, live p .refl, pl]
      simp only [if_pos this]
      rw [← lessen_lessen]
      congr 1
      show State.mk _ _ _ _ _ = State.mk _ _ _ _ _
      congr 1
      exact erase_eq_filter (nd.filter _) p
    · rw [List.nodup_append]
      refine ⟨ndl, by simp, ?_⟩
      rintro x hx y hy rfl
      rw [List.mem_singleton] at hy
      subst hy
      exact pl hx
    · intro x y hx o
      rcases List.mem_append.1 ((ex x).2 hx) with h | h
      · obtain ⟨a, b, c, e⟩ := ol x y h o
        exact ⟨a, b, c ++ [p], by rw [e]; simp⟩
      · rw [List.mem_singleton] at h
        subst h
        have : y ∈ l := by
          obtain ⟨j, hj, ej⟩ := o
          exact (ml y).2 ⟨j, y, hj, ej, .refl⟩
        obtain ⟨a, b, e⟩ := List.append_of_mem this
        exact ⟨a, b, [], by rw [e]⟩

end Verif.Own
