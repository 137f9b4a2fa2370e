import Verif.Own.LemmasGood

namespace Verif.Own

open Spec

/-! ## Accounts -/

/-- What any destruction leaves. -/
def Shrinks (s s' : State) : Prop := s'.slot = s.slot ∧ s'.size = s.size ∧ s'.next = s.next ∧ (Account s → Account s')

theorem shrinks_trans {s t u : State} (h : Shrinks s t) (k : Shrinks t u) : Shrinks s u :=
  ⟨k.1.trans h.1, k.2.1.trans h.2.1, k.2.2.1.trans h.2.2.1, fun a => k.2.2.2 (h.2.2.2 a)⟩

theorem members_shrinks {d : State → Id → Option State} (hd : ∀ s p s', d s p = some s' → Shrinks s s') {o : Id} :
    ∀ (i : Nat) (s s' : State), members d s o i = some s' → Shrinks s s'
  | 0, s, s', h => by
    cases h
    exact ⟨rfl, rfl, rfl, id⟩
  | i + 1, s, s', h => by
    rw [members] at h
    split at h
    · exact members_shrinks hd i s s' h
    · next p _ =>
      cases e : d s p with
      | none => simp [e] at h
      | some t =>
        simp only [e] at h
        exact shrinks_trans (hd s p t e) (members_shrinks hd i t s' h)

theorem account_erase {s : State} {o : Id} (h : o ∈ s.live) (a : Account s) :
    Account { s with live := s.live.erase o, gone := s.gone ++ [o] } := by
  obtain ⟨a1, a2, a3, a4⟩ := a
  refine ⟨?_, a2.erase _, ?_, ?_⟩
  · simp only [List.nodup_append]
    refine ⟨a1, by simp, ?_⟩
    intro x hx y hy
    rw [List.mem_singleton] at hy
    subst hy
    rintro rfl
    exact a3 x h hx
  · intro x hx
    simp only at hx
    rw [a2.mem_erase_iff] at hx
    simp [a3 x hx.2, hx.1]
  · intro x
    simp only
    rw [a4, a2.mem_erase_iff, List.mem_append, List.mem_singleton]
    by_cases e : x = o
    · subst e
      simp [h]
    · simp [e]

theorem destroy_shrinks : ∀ (f : Nat) (s : State) (p : Id) (s' : State), destroy f s p = some s' → Shrinks s s'
  | 0, s, p, s', h => by simp [destroy] at h
  | f + 1, s, p, s', h => by
    rw [destroy] at h
    split at h
    · cases e : members (destroy f) s p (s.size p) with
      | none => simp [e] at h
      | some t =>
        simp only [e] at h
        split at h
        · next m =>
          cases h
          obtain ⟨h1, h2, h3, h4⟩ := members_shrinks (destroy_shrinks f) _ s t e
          exact ⟨h1, h2, h3, fun a => account_erase m (h4 a)⟩
        · cases h
    · cases h

theorem destroyPtr_shrinks {s s' : State} {p : Option Id} (h : destroyPtr s p = some s') : Shrinks s s' := by
  cases p with
  | none =>
    cases h
    exact ⟨rfl, rfl, rfl, id⟩
  | some p => exact destroy_shrinks _ s p s' h

theorem account_write {s s' : State} {l : Loc} {p : Option Id} (h : s.write l p = some s') (a : Account s) : Account s' := by
  unfold State.write at h
  split at h
  · cases h
    exact ⟨a.1, a.2, a.3, a.4⟩
  · cases h

theorem account_assignRaw {s s' : State} {l : Loc} {p : Option Id} (h : assignRaw s l p = some s') (a : Account s) :
    Account s' := by
  simp only [assignRaw, Option.bind_eq_bind, Option.bind_eq_some_iff] at h
  obtain ⟨q, _, h⟩ := h
  split at h
  · obtain ⟨t, h1, h2⟩ := Option.bind_eq_some_iff.1 h
    exact account_write h2 ((destroyPtr_shrinks h1).2.2.2 a)
  · cases h

theorem account_release {s s' : State} {l : Loc} {p : Option Id} (h : release s l = some (p, s')) (a : Account s) :
    Account s' := by
  simp only [release, Option.bind_eq_bind, Option.bind_eq_some_iff] at h
  obtain ⟨q, _, t, h1, h2⟩ := h
  cases h2
  exact account_write h1 a

theorem account_move {s s' : State} {l k : Loc} (h : moveAssign s l k = some s') (a : Account s) : Account s' := by
  simp only [moveAssign, Option.bind_eq_bind, Option.bind_eq_some_iff] at h
  obtain ⟨q, _, r, _, h⟩ := h
  split at h
  · obtain ⟨t, h1, h2⟩ := Option.bind_eq_some_iff.1 h
    obtain ⟨⟨p, u⟩, h2, h3⟩ := Option.bind_eq_some_iff.1 h2
    exact account_write h3 (account_release h2 ((destroyPtr_shrinks h1).2.2.2 a))
  · cases h

theorem next_fresh {s : State} (a : Account s) : s.next ∉ s.live := by
  intro h
  exact Nat.lt_irrefl _ ((a.all s.next).2 (.inl h))

theorem account_new {s : State} (n : Nat) (a : Account s) : Account (new s n).2 := by
  refine ⟨a.once, List.nodup_cons.2 ⟨next_fresh a, a.live_once⟩, ?_, ?_⟩
  · intro o ho hg
    have hg : o ∈ s.gone := hg
    rcases List.mem_cons.1 (show o ∈ s.next :: s.live from ho) with rfl | ho
    · exact Nat.lt_irrefl _ ((a.all s.next).2 (.inr hg))
    · exact a.apart o ho hg
  · intro o
    show o < s.next + 1 ↔ o ∈ s.next :: s.live ∨ o ∈ s.gone
    rw [List.mem_cons, or_assoc, ← a.all, Nat.lt_succ_iff_lt_or_eq]
    exact or_comm

theorem account_step {s s' : State} {op : Op} (h : step s op = some s') (a : Account s) : Account s' := by
  cases op with
  | create dst n => exact account_assignRaw h (account_new n a)
  | move dst src => exact account_move h a
  | assign dst p => exact account_assignRaw h a
  | release src =>
    simp only [step, Option.map_eq_some_iff] at h
    obtain ⟨⟨p, t⟩, h, rfl⟩ := h
    exact account_release h a
  | clear dst =>
    rw [step, clear_eq] at h
    exact account_assignRaw h a

theorem account_run {s s' : State} {ops : List Op} (h : run s ops = some s') (a : Account s) : Account s' := by
  induction ops generalizing s with
  | nil =>
    cases h
    exact a
  | cons op ops ih =>
    obtain ⟨t, h1, h2⟩ := Option.bind_eq_some_iff.1 (show (step s op).bind (run · ops) = some s' from h)
    exact ih h2 (account_step h1 a)

/-! ## New objects -/

theorem valid_new {s : State} {n : Nat} {k : Loc} :
    (new s n).2.valid k = true ↔ (∃ i, i < n ∧ k = .member s.next i) ∨ (s.valid k = true ∧ ∀ i, k ≠ .member s.next i) := by
  cases k with
  | var v => simp [State.valid]
  | member o i =>
    by_cases e : o = s.next
    · subst e
      simp [State.valid, new]
    · simp [State.valid, new, e]

theorem slot_new {s : State} {n : Nat} {k : Loc} (h : ∀ i, k ≠ .member s.next i) : (new s n).2.slot k = s.slot k := by
  cases k with
  | var v => rfl
  | member o i =>
    have : o ≠ s.next := by
      rintro rfl
      exact h i rfl
    simp [new, this]

theorem slot_new_next {s : State} {n i : Nat} : (new s n).2.slot (.member s.next i) = none := by simp [new]

theorem valid_ne_next {s : State} (a : Account s) {k : Loc} (h : s.valid k = true) (i : Nat) : k ≠ .member s.next i := by
  rintro rfl
  exact next_fresh a (valid_live h).1

theorem good_new {s : State} (n : Nat) (g : Good s) : Good (new s n).2 := by
  refine ⟨?_, ?_⟩
  · intro l p v e
    rcases valid_new.1 v with ⟨i, _, rfl⟩ | ⟨v, ne⟩
    · rw [slot_new_next] at e
      cases e
    · rw [slot_new ne] at e
      exact List.mem_cons_of_mem _ (g.exist l p v e)
  · intro l k p v v' e e'
    rcases valid_new.1 v with ⟨i, _, rfl⟩ | ⟨v, ne⟩
    · rw [slot_new_next] at e
      cases e
    rcases valid_new.1 v' with ⟨i, _, rfl⟩ | ⟨v', ne'⟩
    · rw [slot_new_next] at e'
      cases e'
    rw [slot_new ne] at e
    rw [slot_new ne'] at e'
    exact g.unique l k p v v' e e'

theorem owns_new {s : State} {n : Nat} {x y : Id} (h : x ≠ s.next) : Owns (new s n).2 x y ↔ Owns s x y := by
  have e : (new s n).2.size x = s.size x := by simp [new, h]
  have e' : ∀ i, (new s n).2.slot (.member x i) = s.slot (.member x i) := fun i => slot_new (by simpa using fun k => absurd k h)
  simp [Owns, e, e']

theorem not_owns_new {s : State} {n : Nat} {y : Id} : ¬ Owns (new s n).2 s.next y := by
  rintro ⟨i, _, e⟩
  rw [slot_new_next] at e
  cases e

theorem live_ne_next {s : State} (a : Account s) {x : Id} (h : x ∈ s.live) : x ≠ s.next := by
  rintro rfl
  exact next_fresh a h

theorem reach_new {s : State} (n : Nat) (a : Account s) (g : Good s) {p z : Id} (h : p ∈ s.live) :
    Reach (new s n).2 p z ↔ Reach s p z := by
  constructor
  · intro r
    induction r with
    | refl => exact .refl
    | step _ o ih => exact .step ih ((owns_new (live_ne_next a (good_reach g h ih))).1 o)
  · intro r
    induction r with
    | refl => exact .refl
    | step r o ih => exact .step ih ((owns_new (live_ne_next a (good_reach g h r))).2 o)

theorem apart_new {s : State} (n : Nat) (a : Account s) (g : Good s) {l : Loc} (v : s.valid l = true) (h : Apart s l) :
    Apart (new s n).2 l := by
  intro p e ins
  rw [slot_new (valid_ne_next a v)] at e
  cases l with
  | var v => exact ins
  | member o i => exact h p e ((reach_new n a g (g.exist _ p v e)).1 ins)

theorem everything_new {s : State} (n : Nat) (a : Account s) (g : Good s) {l : Loc} (v : s.valid l = true) {m : List Id}
    (h : EverythingOf (new s n).2 ((new s n).2.slot l) m) : EverythingOf s (s.slot l) m := by
  rw [slot_new (valid_ne_next a v)] at h
  cases e : s.slot l with
  | none =>
    rw [e] at h
    exact h
  | some p =>
    rw [e] at h
    have lp := g.exist l p v e
    obtain ⟨h1, h2, h3⟩ := h
    refine ⟨h1, fun z => (h2 z).trans (reach_new n a g lp), ?_⟩
    intro x y r o
    exact h3 x y ((reach_new n a g lp).2 r) ((owns_new (live_ne_next a (good_reach g lp r))).2 o)

theorem create_ok {s : State} (g : Good s) (a : Account s) {dst : Loc} (n : Nat) (v : s.valid dst = true) (ap : Apart s dst) :
    ∃ s' m, create s dst n = some s' ∧ EverythingOf s (s.slot dst) m ∧
      After (new s n).2 s' m (put (new s n).2.slot dst (some s.next)) ∧ Good s' := by
  have g' := good_new n g
  have v' : (new s n).2.valid dst = true := valid_new.2 (.inr ⟨v, valid_ne_next a v⟩)
  obtain ⟨s', m, h1, h2, h3, h4⟩ := assignRaw_ok g' (account_new n a).live_once (p := some s.next) v' (apart_new n a g v ap) (by
    intro q e
    cases e
    refine ⟨by simp [new], ?_⟩
    intro k vk e
    rcases valid_new.1 vk with ⟨i, _, rfl⟩ | ⟨vk, ne⟩
    · rw [slot_new_next] at e
      cases e
    · rw [slot_new ne] at e
      exact next_fresh a (g.exist k _ vk e))
  exact ⟨s', m, h1, everything_new n a g v h2, h3, h4⟩

/-! ## Programs -/

theorem proper_step {s : State} (g : Good s) (a : Account s) {op : Op} (h : Proper s op) :
    ∃ s', step s op = some s' ∧ Good s' := by
  cases op with
  | create dst n =>
    obtain ⟨s', m, h1, _, _, h4⟩ := create_ok g a n h.1 h.2
    exact ⟨s', h1, h4⟩
  | move dst src =>
    obtain ⟨s', m, h1, _, _, h4⟩ := moveAssign_ok g a.live_once h.1 h.2.1 h.2.2.1 h.2.2.2
    exact ⟨s', h1, h4⟩
  | assign dst p =>
    obtain ⟨s', m, h1, _, _, h4⟩ := assignRaw_ok g a.live_once h.1 h.2.1 h.2.2
    exact ⟨s', h1, h4⟩
  | release src =>
    obtain ⟨s', h1, _, h4⟩ := release_ok g (show s.valid src = true from h)
    exact ⟨s', by simp [step, h1], h4⟩
  | clear dst =>
    obtain ⟨s', m, h1, _, _, h4⟩ := clear_ok g a.live_once h.1 h.2
    exact ⟨s', h1, h4⟩

theorem good_start : Good start := by
  refine ⟨?_, ?_⟩
  · intro l p _ e
    cases e
  · intro l k p _ _ e
    cases e

theorem account_start : Account start := ⟨by simp [start], by simp [start], by simp [start], by simp [start]⟩

theorem proper_run {ok : State → Op → Prop} (inv : State → Prop)
    (hs : ∀ s op, inv s → ok s op → ∃ s', step s op = some s' ∧ inv s') :
    ∀ (ops : List Op) (s : State), inv s → Throughout ok s ops → ∃ s', run s ops = some s' ∧ inv s'
  | [], s, h, _ => ⟨s, rfl, h⟩
  | op :: ops, s, h, t => by
    obtain ⟨s1, e1, h1⟩ := hs s op h t.1
    obtain ⟨s2, e2, h2⟩ := proper_run inv hs ops s1 h1 (t.2 s1 e1)
    exact ⟨s2, by simp [run, e1, e2], h2⟩

/-! ## Forests -/

theorem after_valid {s s' : State} {m : List Id} {f : Loc → Option Id} (h : After s s' m f) {k : Loc} :
    s'.valid k = true ↔ s.valid k = true ∧ ∀ o i, k = .member o i → o ∉ m := by
  rw [← valid_lessen (s := s)]
  cases k with
  | var v => simp [State.valid]
  | member o i =>
    have : o ∈ s'.live ↔ o ∈ (lessen s m).live := by
      rw [h.live]
      simp [lessen]
    have z : (lessen s m).size = s.size := rfl
    simp only [State.valid, this, h.size, z]

theorem reach_edge {s s' : State} {o b : Id} (E : ∀ x y, Owns s' x y → Owns s x y ∨ (x = o ∧ y = b)) {x z : Id}
    (r : Reach s' x z) : Reach s x z ∨ (Reach s x o ∧ Reach s b z) := by
  induction r with
  | refl => exact .inl .refl
  | @step y z _ e ih =>
    rcases E y z e with e | ⟨rfl, rfl⟩
    · rcases ih with r | ⟨r, k⟩
      · exact .inl (.step r e)
      · exact .inr ⟨r, .step k e⟩
    · rcases ih with r | ⟨r, k⟩
      · exact .inr ⟨r, .refl⟩
      · exact .inr ⟨r, .refl⟩

theorem reach_sub {s s' : State} (E : ∀ x y, Owns s' x y → Owns s x y) {x z : Id} (r : Reach s' x z) : Reach s x z := by
  induction r with
  | refl => exact .refl
  | step _ e ih => exact .step ih (E _ _ e)

theorem forest_put {s s' : State} {dst : Loc} {v : Option Id} (F : Forest s)
    (E : ∀ x y, Owns s' x y → Owns s x y ∨ (∃ i, dst = .member x i ∧ v = some y))
    (L : ∀ l p, s'.valid l = true → s'.slot l = some p → (s.valid l = true ∧ s.slot l = some p) ∨ (l = dst ∧ v = some p))
    (N : ∀ b, v = some b → ¬ Inside s b dst) : Forest s' := by
  intro l vl p e ins
  cases l with
  | var v => exact ins
  | member h i =>
    have r : Reach s' p h := ins
    cases hd : dst with
    | var d =>
      have r := reach_sub (s := s) (by
        intro x y o
        rcases E x y o with o | ⟨i, e, _⟩
        · exact o
        · rw [hd] at e
          cases e) r
      rcases L _ p vl e with ⟨a, b⟩ | ⟨a, _⟩
      · exact F _ a p b r
      · rw [hd] at a
        cases a
    | member o j =>
      cases hv : v with
      | none =>
        have r := reach_sub (s := s) (by
          intro x y o
          rcases E x y o with o | ⟨i, _, e⟩
          · exact o
          · rw [hv] at e
            cases e) r
        rcases L _ p vl e with ⟨a, b⟩ | ⟨_, a⟩
        · exact F _ a p b r
        · rw [hv] at a
          cases a
      | some b =>
        have nb : ¬ Reach s b o := by
          have := N b hv
          rw [hd] at this
          exact this
        have r := reach_edge (s := s) (o := o) (b := b) (by
          intro x y k
          rcases E x y k with k | ⟨i, e, e'⟩
          · exact .inl k
          · rw [hd] at e
            rw [hv] at e'
            cases e
            cases e'
            exact .inr ⟨rfl, rfl⟩) r
        rcases L _ p vl e with ⟨a, c⟩ | ⟨a, c⟩
        · have ow : Owns s h p := ⟨i, (valid_live a).2, c⟩
          rcases r with r | ⟨r, k⟩
          · exact F _ a p c r
          · exact nb ((Reach.step k ow).trans r)
        · rw [hd] at a
          rw [hv] at c
          cases a
          cases c
          rcases r with r | ⟨r, _⟩ <;> exact nb r

theorem forest_after {s s' : State} {m : List Id} {f : Loc → Option Id} {dst : Loc} {v : Option Id} (F : Forest s)
    (h : After s s' m (put f dst v)) (hf : ∀ k p, f k = some p → s.slot k = some p) (N : ∀ b, v = some b → ¬ Inside s b dst) :
    Forest s' := by
  have get : ∀ k p, s'.slot k = some p → s.slot k = some p ∨ (k = dst ∧ v = some p) := by
    intro k p e
    rw [h.slot] at e
    unfold put at e
    split at e
    · next q => exact .inr ⟨q, e⟩
    · exact .inl (hf k p e)
  apply forest_put F (dst := dst) (v := v) _ _ N
  · rintro x y ⟨i, hi, e⟩
    rw [h.size] at hi
    rcases get _ y e with e | ⟨e, e'⟩
    · exact .inl ⟨i, hi, e⟩
    · exact .inr ⟨i, e.symm, e'⟩
  · intro l p vl e
    rcases get _ p e with e | e
    · exact .inl ⟨((after_valid h).1 vl).1, e⟩
    · exact .inr e

theorem forest_new {s : State} (n : Nat) (a : Account s) (g : Good s) (F : Forest s) : Forest (new s n).2 := by
  intro l v
  rcases valid_new.1 v with ⟨i, _, rfl⟩ | ⟨v, ne⟩
  · intro p e
    rw [slot_new_next] at e
    cases e
  · exact apart_new n a g v (F l v)

/-- What is left still has its owner. -/
theorem held_after {s s' : State} {m : List Id} {f : Loc → Option Id} {dst : Loc} (H : Held s)
    (em : EverythingOf s (s.slot dst) m) (h : After s s' m f)
    (hf : ∀ k, s'.valid k = true → k ≠ dst → f k = s.slot k ∨ ∃ k', s'.valid k' = true ∧ f k' = s.slot k) : Held s' := by
  intro o ho
  obtain ⟨lo, no⟩ := (h.live o).1 ho
  obtain ⟨k, vk, ek⟩ := H o lo
  have in_m : ∀ p, s.slot dst = some p → Reach s p o → False := by
    intro p e r
    rw [e] at em
    exact no ((em.exact o).2 r)
  have ne : k ≠ dst := by
    rintro rfl
    exact in_m o ek .refl
  have vk' : s'.valid k = true := by
    rw [after_valid h]
    refine ⟨vk, ?_⟩
    rintro x i rfl hx
    cases e : s.slot dst with
    | none =>
      rw [e] at em
      cases (show m = [] from em)
      cases hx
    | some p =>
      rw [e] at em
      exact no ((em.exact o).2 (.step ((em.exact x).1 hx) ⟨i, (valid_live vk).2, ek⟩))
  rcases hf k vk' ne with e | ⟨k', v', e⟩
  · exact ⟨k, vk', by rw [h.slot, e, ek]⟩
  · exact ⟨k', v', by rw [h.slot, e, ek]⟩

/-- With neither cycles nor loose objects, everything is reached from a variable. -/
theorem held_root {s : State} (F : Forest s) (H : Held s) :
    ∀ (n : Nat) (A : List Id) (x : Id), x ∈ s.live → A.Nodup → (∀ a ∈ A, a ∈ s.live ∧ Reach s x a ∧ a ≠ x) →
      s.live.length ≤ n + A.length → ∃ v p, s.slot (.var v) = some p ∧ Reach s p x
  | 0, A, x, hx, nA, hA, len => by
    exfalso
    have := nodup_length (A := x :: A) (L := s.live) (List.nodup_cons.2 ⟨fun h => (hA x h).2.2 rfl, nA⟩) (by
      intro a ha
      cases ha with
      | head => exact hx
      | tail _ ha => exact (hA a ha).1)
    simp at this
    omega
  | n + 1, A, x, hx, nA, hA, len => by
    obtain ⟨l, v, e⟩ := H x hx
    cases l with
    | var w => exact ⟨w, x, e, .refl⟩
    | member o i =>
      have ox : Owns s o x := ⟨i, (valid_live v).2, e⟩
      have no : ¬ Reach s x o := F _ v x e
      obtain ⟨w, p, h1, h2⟩ := held_root F H n (x :: A) o (valid_live v).1
        (List.nodup_cons.2 ⟨fun h => (hA x h).2.2 rfl, nA⟩) (by
          intro a ha
          cases ha with
          | head =>
            refine ⟨hx, .step .refl ox, ?_⟩
            rintro rfl
            exact no .refl
          | tail _ ha =>
            obtain ⟨h1, h2, h3⟩ := hA a ha
            refine ⟨h1, (Reach.step .refl ox).trans h2, ?_⟩
            rintro rfl
            exact no h2) (by simp; omega)
      exact ⟨w, p, h1, .step h2 ox⟩

theorem put_ne {f : Loc → Option Id} {l k : Loc} {p : Option Id} (h : k ≠ l) : put f l p k = f k := by simp [put, h]

theorem put_same {f : Loc → Option Id} {l : Loc} {p : Option Id} : put f l p l = p := by simp [put]

theorem tidy_step {s : State} (g : Good s) (a : Account s) (F : Forest s) (H : Held s) {op : Op} (h : Proper s op)
    (t : Tidy s op) : ∃ s', step s op = some s' ∧ Good s' ∧ Account s' ∧ Forest s' ∧ Held s' := by
  cases op with
  | create dst n =>
    obtain ⟨s', m, h1, h2, h3, h4⟩ := create_ok g a n h.1 h.2
    refine ⟨s', h1, h4, account_step (op := .create dst n) h1 a, ?_, ?_⟩
    · refine forest_after (forest_new n a g F) h3 (fun _ _ e => e) ?_
      intro b e ins
      cases e
      cases dst with
      | var v => exact ins
      | member o i =>
        rcases reach_first (show Reach (new s n).2 s.next o from ins) with e | ⟨c, k, _⟩
        · exact live_ne_next a (valid_live h.1).1 e
        · exact not_owns_new k
    · intro o ho
      obtain ⟨lo, no⟩ := (h3.live o).1 ho
      have vd : s'.valid dst = true := by
        rw [after_valid h3]
        refine ⟨valid_new.2 (.inr ⟨h.1, valid_ne_next a h.1⟩), ?_⟩
        rintro x i rfl hx
        cases e : s.slot (.member x i) with
        | none =>
          rw [e] at h2
          cases (show m = [] from h2)
          cases hx
        | some p =>
          rw [e] at h2
          exact h.2 p e ((h2.exact x).1 hx)
      rcases List.mem_cons.1 (show o ∈ s.next :: s.live from lo) with rfl | lo
      · exact ⟨dst, vd, by rw [h3.slot, put_same]⟩
      · obtain ⟨k, vk, ek⟩ := H o lo
        have ne : k ≠ dst := by
          rintro rfl
          rw [ek] at h2
          exact no ((h2.exact o).2 .refl)
        refine ⟨k, ?_, ?_⟩
        · rw [after_valid h3]
          refine ⟨valid_new.2 (.inr ⟨vk, valid_ne_next a vk⟩), ?_⟩
          rintro x i rfl hx
          cases e : s.slot dst with
          | none =>
            rw [e] at h2
            cases (show m = [] from h2)
            cases hx
          | some p =>
            rw [e] at h2
            exact no ((h2.exact o).2 (.step ((h2.exact x).1 hx) ⟨i, (valid_live vk).2, ek⟩))
        · rw [h3.slot, put_ne ne, slot_new (valid_ne_next a vk), ek]
  | move dst src =>
    obtain ⟨s', m, h1, h2, h3, h4⟩ := moveAssign_ok g a.live_once h.1 h.2.1 h.2.2.1 h.2.2.2
    refine ⟨s', h1, h4, account_move h1 a, ?_, ?_⟩
    · refine forest_after F h3 ?_ t
      intro k p e
      unfold put at e
      split at e
      · cases e
      · exact e
    · refine held_after H h2 h3 ?_
      intro k vk ne
      by_cases ks : k = src
      · subst ks
        refine .inr ⟨dst, ?_, put_same⟩
        rw [after_valid h3]
        refine ⟨h.1, ?_⟩
        rintro x i rfl hx
        cases e : s.slot (.member x i) with
        | none =>
          rw [e] at h2
          cases (show m = [] from h2)
          cases hx
        | some p =>
          rw [e] at h2
          exact h.2.2.1 p e ((h2.exact x).1 hx)
      · exact .inl (by rw [put_ne ne, put_ne ks])
  | assign dst p => cases t
  | release src => cases t
  | clear dst =>
    obtain ⟨s', m, h1, h2, h3, h4⟩ := clear_ok g a.live_once h.1 h.2
    refine ⟨s', h1, h4, account_step (op := .clear dst) h1 a, ?_, ?_⟩
    · exact forest_after F h3 (fun _ _ e => e) (by simp)
    · exact held_after H h2 h3 (fun k _ ne => .inl (put_ne ne))

/-- Clearing variables. -/
theorem clear_vars : ∀ (vs : List Nat) (s : State), Good s → Account s →
    ∃ s', run s (vs.map fun v => .clear (.var v)) = some s' ∧ Good s' ∧
      ∀ o, o ∈ s'.live ↔ o ∈ s.live ∧ ¬ ∃ v ∈ vs, ∃ p, s.slot (.var v) = some p ∧ Reach s p o
  | [], s, g, _ => ⟨s, rfl, g, by simp⟩
  | v :: vs, s, g, a => by
    obtain ⟨t, m, h1, h2, h3, h4⟩ := clear_ok g a.live_once (dst := .var v) rfl (fun p _ h => h)
    obtain ⟨s', k1, k2, k3⟩ := clear_vars vs t h4 (account_step (op := .clear (.var v)) h1 a)
    refine ⟨s', ?_, k2, ?_⟩
    · simp [run, step, h1, k1]
    · have slots : ∀ x i, t.slot (.member x i) = s.slot (.member x i) := by
        intro x i
        rw [h3.slot, put_ne (by simp)]
      have re : ∀ p z, Reach t p z ↔ Reach s p z := by
        intro p z
        constructor
        · exact reach_sub (fun x y ⟨i, hi, e⟩ => ⟨i, by rwa [h3.size] at hi, by rwa [slots] at e⟩)
        · exact reach_sub (fun x y ⟨i, hi, e⟩ => ⟨i, by rwa [h3.size], by rwa [slots]⟩)
      intro o
      rw [k3, h3.live]
      have hm : o ∈ m ↔ ∃ p, s.slot (.var v) = some p ∧ Reach s p o := by
        cases e : s.slot (.var v) with
        | none =>
          rw [e] at h2
          cases (show m = [] from h2)
          simp
        | some p =>
          rw [e] at h2
          simp [h2.exact]
      constructor
      · rintro ⟨⟨lo, no⟩, nv⟩
        refine ⟨lo, ?_⟩
        rintro ⟨w, hw, p, e, r⟩
        by_cases wv : w = v
        · subst wv
          exact no (hm.2 ⟨p, e, r⟩)
        · refine nv ⟨w, (List.mem_cons.1 hw).resolve_left wv, p, ?_, (re p o).2 r⟩
          rw [h3.slot, put_ne (by simpa using wv), e]
      · rintro ⟨lo, nv⟩
        refine ⟨⟨lo, ?_⟩, ?_⟩
        · intro h
          obtain ⟨p, e, r⟩ := hm.1 h
          exact nv ⟨v, by simp, p, e, r⟩
        · rintro ⟨w, hw, p, e, r⟩
          rw [h3.slot] at e
          unfold put at e
          split at e
          · cases e
          · exact nv ⟨w, by simp [hw], p, e, (re p o).1 r⟩

end Verif.Own
