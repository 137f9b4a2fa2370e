import Verif.Cook.Lemmas
/-!
# Cook jobs — properties C36
-/
namespace Verif.Cook
open Spec

set_option linter.unusedSectionVars false

variable {Job Dep : Type} [DecidableEq Job]

/-- What holds between requests. -/
structure Top (w : World Job Dep) (old : Job → Option (Res Job Dep)) (P : Job → Prop)
    (s : St Job Dep) : Prop where
  settled : ∀ k v, s.checked k = some v → v = .upToDate
  inv : Inv P s
  nodup : s.log.Nodup
  log : ∀ k, k ∈ s.log ↔ s.checked k ≠ none ∧ mustCook w k (old k) = some true
  untouched : ∀ k, s.checked k = none → s.results k = old k
  unchanged : ∀ k, s.checked k ≠ none → mustCook w k (old k) = some true ∨
    (mustCook w k (old k) = some false ∧ s.results k = old k)

theorem Top.start (w : World Job Dep) (old : Job → Option (Res Job Dep)) (P : Job → Prop) :
    Top w old P (St.start old) where
  settled := fun k v h => by cases h
  inv := ⟨fun j _ _ h => absurd rfl h, fun j h => absurd rfl h⟩
  nodup := List.nodup_nil
  log := fun k => by simp [St.start]
  untouched := fun _ _ => rfl
  unchanged := fun k h => absurd rfl h

theorem Top.ext {w : World Job Dep} {old : Job → Option (Res Job Dep)} {P : Job → Prop}
    {s s' : St Job Dep} (h : Top w old P s) (he : Ext w (fun _ => False) s s') (hi : Inv P s') :
    Top w old P s' where
  settled := fun k v hv => by
    cases hc : s.checked k with
    | none => exact he.fresh k v hc hv
    | some u =>
      rw [he.kept k u hc] at hv
      rw [← Option.some.inj hv]
      exact h.settled k u hc
  inv := hi
  nodup := by
    obtain ⟨L, e1, e2, e3⟩ := he.log
    rw [e1, List.nodup_append]
    refine ⟨h.nodup, e2, ?_⟩
    rintro a ha b hb rfl
    exact ((h.log a).mp ha).1 ((e3 a).mp hb).1
  log := fun k => by
    obtain ⟨L, e1, e2, e3⟩ := he.log
    rw [e1, List.mem_append, h.log, e3]
    cases hc : s.checked k with
    | none =>
      rw [h.untouched k hc]
      simp
    | some v =>
      rw [he.kept k v hc]
      simp
  untouched := fun k hk => by
    have hc : s.checked k = none := by
      cases hc : s.checked k with
      | none => rfl
      | some v => rw [he.kept k v hc] at hk; cases hk
    rw [he.untouched k hk, h.untouched k hc]
  unchanged := fun k hk => by
    cases hc : s.checked k with
    | none =>
      have := he.unchanged k hc hk
      rwa [h.untouched k hc] at this
    | some v =>
      have hne : s.checked k ≠ none := by rw [hc]; simp
      rw [he.results k (fun h => h) hne]
      exact h.unchanged k hne

theorem Top.defer {w : World Job Dep} {old : Job → Option (Res Job Dep)} {P Q : Job → Prop}
    {s : St Job Dep} (h : Top w old P s) (D : List Job)
    (hD : ∀ k, k ∈ s.deferred ∨ P k → k ∈ D ∨ Q k) : Top w old Q { s with deferred := D } where
  settled := h.settled
  inv := ⟨fun j r k h1 h2 h3 => by
    rcases h.inv.refs j r k h1 h2 h3 with h | h
    · exact .inl h
    · exact .inr (hD k h), h.inv.has⟩
  nodup := h.nodup
  log := h.log
  untouched := h.untouched
  unchanged := h.unchanged

theorem Top.ensure {w : World Job Dep} {old : Job → Option (Res Job Dep)} {P : Job → Prop}
    {s s' : St Job Dep} {fuel : Nat} {j : Job} (h : Top w old P s)
    (he : ensureCooked w fuel s j = .ok s') :
    Top w old P s' ∧ s'.checked j = some .upToDate ∧
      ∀ k, s.checked k ≠ none → s'.checked k ≠ none := by
  obtain ⟨e, i, c⟩ := ensureCooked_good w fuel P s s' j h.inv he
  refine ⟨h.ext e i, c, ?_⟩
  intro k hk
  cases hc : s.checked k with
  | none => exact absurd hc hk
  | some v => rw [e.kept k v hc]; simp

theorem Top.all {w : World Job Dep} {old : Job → Option (Res Job Dep)} {fuel : Nat} (js : List Job) :
    ∀ {s s' : St Job Dep}, Top w old (· ∈ js) s → ensureAll w fuel s js = .ok s' →
    Top w old (fun _ => False) s' ∧ (∀ j ∈ js, s'.checked j ≠ none) ∧
      ∀ k, s.checked k ≠ none → s'.checked k ≠ none := by
  induction js with
  | nil =>
    intro s s' h he
    cases he
    refine ⟨?_, by simp, fun _ h => h⟩
    exact h.defer s.deferred (fun k hk => hk.elim .inl (fun h => by simp at h))
  | cons j js ih =>
    intro s s' h he
    rw [ensureAll] at he
    cases h1 : ensureCooked w fuel s j with
    | assert => rw [h1] at he; cases he
    | fuel => rw [h1] at he; cases he
    | ok s1 =>
      rw [h1] at he
      obtain ⟨t1, c1, k1⟩ := h.ensure h1
      have t2 : Top w old (· ∈ js) s1 :=
        { t1 with inv := ⟨fun a r k ha hr hk => by
            rcases t1.inv.refs a r k ha hr hk with h | h | h
            · exact .inl h
            · exact .inr (.inl h)
            · rcases List.mem_cons.mp h with rfl | h
              · exact .inl (by rw [c1]; simp)
              · exact .inr (.inr h), t1.inv.has⟩ }
      obtain ⟨t3, c3, k3⟩ := ih t2 he
      refine ⟨t3, ?_, fun k hk => k3 k (k1 k hk)⟩
      intro a ha
      rcases List.mem_cons.mp ha with rfl | ha
      · exact k3 a (by rw [c1]; simp)
      · exact c3 a ha

theorem Top.rounds {w : World Job Dep} {old : Job → Option (Res Job Dep)} {fuel : Nat}
    {order : List Job → List Job} (ho : ∀ l, (order l).Perm l) (n : Nat) :
    ∀ {s s' : St Job Dep}, Top w old (fun _ => False) s → cookDeferred w fuel order n s = .ok s' →
    Top w old (fun _ => False) s' ∧ s'.deferred = [] ∧
      ∀ k, s.checked k ≠ none → s'.checked k ≠ none := by
  induction n with
  | zero => intro s s' _ he; cases he
  | succ n ih =>
    intro s s' h he
    rw [cookDeferred] at he
    split at he
    · rename_i hd
      cases he
      exact ⟨h, hd, fun _ h => h⟩
    · cases h1 : ensureAll w fuel { s with deferred := [] } (order s.deferred) with
      | assert => rw [h1] at he; cases he
      | fuel => rw [h1] at he; cases he
      | ok s1 =>
        rw [h1] at he
        have t0 : Top w old (· ∈ order s.deferred) { s with deferred := [] } := by
          refine h.defer [] (fun k hk => .inr ?_)
          rcases hk with hk | hk
          · exact (ho _).mem_iff.mpr hk
          · exact hk.elim
        obtain ⟨t1, -, k1⟩ := t0.all _ h1
        obtain ⟨t2, d2, k2⟩ := ih t1 he
        exact ⟨t2, d2, fun k hk => k2 k (k1 k hk)⟩

theorem Top.serve {w : World Job Dep} {old : Job → Option (Res Job Dep)} {fuel n : Nat}
    {order : List Job → List Job} (ho : ∀ l, (order l).Perm l) (rs : List (Req Job)) :
    ∀ {s s' : St Job Dep}, Top w old (fun _ => False) s → serve w fuel order n rs s = .ok s' →
    Top w old (fun _ => False) s' ∧ (∀ j ∈ requested rs, s'.checked j ≠ none) ∧
      (∀ k, s.checked k ≠ none → s'.checked k ≠ none) ∧
      (rs.getLast? = some .deferred → s'.deferred = []) := by
  induction rs with
  | nil =>
    intro s s' h he
    cases he
    exact ⟨h, by simp [requested], fun _ h => h, by simp⟩
  | cons r rs ih =>
    intro s s' h he
    cases r with
    | cook j =>
      rw [Cook.serve] at he
      cases h1 : ensureCooked w fuel s j with
      | assert => rw [h1] at he; cases he
      | fuel => rw [h1] at he; cases he
      | ok s1 =>
        rw [h1] at he
        obtain ⟨t1, c1, k1⟩ := h.ensure h1
        obtain ⟨t2, c2, k2, l2⟩ := ih t1 he
        refine ⟨t2, ?_, fun k hk => k2 k (k1 k hk), ?_⟩
        · intro a ha
          rcases List.mem_cons.mp ha with rfl | ha
          · exact k2 a (by rw [c1]; simp)
          · exact c2 a ha
        · intro hl
          cases rs with
          | nil => simp at hl
          | cons b t => rw [List.getLast?_cons_cons] at hl; exact l2 hl
    | deferred =>
      rw [Cook.serve] at he
      cases h1 : cookDeferred w fuel order n s with
      | assert => rw [h1] at he; cases he
      | fuel => rw [h1] at he; cases he
      | ok s1 =>
        rw [h1] at he
        obtain ⟨t1, c1, k1⟩ := h.rounds ho n h1
        obtain ⟨t2, c2, k2, l2⟩ := ih t1 he
        refine ⟨t2, c2, fun k hk => k2 k (k1 k hk), ?_⟩
        intro hl
        cases rs with
        | nil => cases he; exact c1
        | cons b t => rw [List.getLast?_cons_cons] at hl; exact l2 hl

theorem stale_of_must {w : World Job Dep} {old : Job → Option (Res Job Dep)} {j : Job}
    (h : mustCook w j (old j) = some true) : Stale w old j := by
  cases ho : old j with
  | none => exact .inl ho
  | some r =>
    rw [ho] at h
    obtain ⟨d, hd, hc⟩ := anyChanged_true h
    exact .inr ⟨r, d, ho, hd, hc⟩

theorem not_stale_of_must {w : World Job Dep} {old : Job → Option (Res Job Dep)} {j : Job}
    (h : mustCook w j (old j) = some false) : ¬ Stale w old j := by
  rintro (ho | ⟨r, d, ho, hd, hc⟩)
  · rw [ho] at h; cases h
  · rw [ho] at h
    have := anyChanged_false h d hd
    rw [hc] at this
    cases this

/-- **C36**: whatever the cook functions, the dependencies, the earlier results, the requests and the
order in which deferred jobs are enumerated, if the cook comes to its end, then no cook function
was called twice, the ones called are exactly those of the stale jobs among those looked at, and
jobs that were not stale keep their results. -/
theorem C36_once (w : World Job Dep) (old : Job → Option (Res Job Dep)) (fuel n : Nat)
    (order : List Job → List Job) (ho : ∀ l, (order l).Perm l) (rs : List (Req Job))
    (s : St Job Dep) (h : serve w fuel order n rs (.start old) = .ok s) :
    s.log.Nodup ∧ (∀ j, j ∈ s.log ↔ s.checked j = some .upToDate ∧ Stale w old j) ∧
    (∀ j, ¬ Stale w old j → s.results j = old j) := by
  obtain ⟨t, -, -, -⟩ := (Top.start w old (fun _ => False)).serve ho rs h
  refine ⟨t.nodup, ?_, ?_⟩
  · intro j
    rw [t.log]
    constructor
    · rintro ⟨h1, h2⟩
      cases hc : s.checked j with
      | none => exact absurd hc h1
      | some v => rw [t.settled j v hc]; exact ⟨rfl, stale_of_must h2⟩
    · rintro ⟨h1, h2⟩
      have hne : s.checked j ≠ none := by rw [h1]; simp
      refine ⟨hne, ?_⟩
      rcases t.unchanged j hne with h | ⟨h, -⟩
      · exact h
      · exact absurd h2 (not_stale_of_must h)
  · intro j hj
    cases hc : s.checked j with
    | none => exact t.untouched j hc
    | some v =>
      rcases t.unchanged j (by rw [hc]; simp) with h | ⟨-, h⟩
      · exact absurd (stale_of_must h) hj
      · exact h

/-- **C36**: if the last request was to cook the deferred jobs, then every job referenced, directly
or through other jobs, from any job looked at — in particular from the requested ones — is up to
date and has a result. -/
theorem C36_everything_referenced (w : World Job Dep) (old : Job → Option (Res Job Dep)) (fuel n : Nat)
    (order : List Job → List Job) (ho : ∀ l, (order l).Perm l) (rs : List (Req Job))
    (s : St Job Dep) (h : serve w fuel order n rs (.start old) = .ok s)
    (hl : rs.getLast? = some .deferred) :
    (∀ j ∈ requested rs, s.checked j = some .upToDate) ∧
    ∀ a b, s.checked a = some .upToDate → Reach s.results a b →
      s.checked b = some .upToDate ∧ s.results b ≠ none := by
  obtain ⟨t, c, -, l⟩ := (Top.start w old (fun _ => False)).serve ho rs h
  have hd := l hl
  have up : ∀ j, s.checked j ≠ none → s.checked j = some .upToDate := by
    intro j hj
    cases hc : s.checked j with
    | none => exact absurd hc hj
    | some v => rw [t.settled j v hc]
  refine ⟨fun j hj => up j (c j hj), ?_⟩
  intro a b ha hr
  have : s.checked b ≠ none := by
    induction hr with
    | refl => rw [ha]; simp
    | step _ h2 h3 ih =>
      rcases t.inv.refs _ _ _ ih h2 h3 with h | h | h
      · exact h
      · rw [hd] at h; simp at h
      · exact h.elim
  exact ⟨up b this, t.inv.has b this⟩

/-- Job 0 cooks job 1 and references jobs 2 and 3; job 3 references job 0. -/
def sample : World Nat Nat where
  hasChanged := fun _ d => some (d == 7)
  prog := fun j =>
    if j = 0 then .dep 5 (.cook 1 (fun _ => .ref 2 (.ref 3 .done)))
    else if j = 3 then .ref 0 .done else .done

/-- The hypotheses of the theorems above are met: job 2 has an up-to-date result, job 3 a stale one;
jobs 0, 1 and 3 are cooked. -/
example : ∃ s, serve sample 5 (fun l => l.reverse) 5 [.cook 0, .deferred]
    (.start (fun j => if j = 2 then some ⟨[6], []⟩ else if j = 3 then some ⟨[7], []⟩ else none)) = .ok s ∧
    s.log = [0, 1, 3] := ⟨_, rfl, rfl⟩

/-! ## The cook comes to its end -/

/-- Conditions under which nothing can go wrong: no cycle among jobs cooking each other, no job
referenced twice, dependencies that can be checked. -/
structure Sane (w : World Job Dep) (old : Job → Option (Res Job Dep)) (rank : Job → Nat) : Prop where
  down : ∀ j i, Needs (w.prog j) i → rank i < rank j
  once : ∀ j, OnceEach [] (w.prog j)
  checkable : ∀ j r d, old j = some r → d ∈ r.deps → w.hasChanged j d ≠ none

theorem runProg_ok {w : World Job Dep} {old : Job → Option (Res Job Dep)} {rank : Job → Nat}
    {fuel : Nat} (j : Job)
    (he : ∀ (s : St Job Dep) (i : Job), rank i < rank j → Inv (fun _ => True) s →
      (∀ k, s.checked k = some .inProgress → rank i < rank k) →
      (∀ k, s.checked k = none → s.results k = old k) →
      ∃ s', ensureCooked w fuel s i = .ok s')
    (p : Prog Job Dep) : ∀ (s : St Job Dep) (res : Res Job Dep),
      (∀ i, Needs p i → rank i < rank j) → s.results j = some res → OnceEach res.refs p →
      Inv (fun _ => True) s → s.checked j = some .inProgress →
      (∀ k, s.checked k = some .inProgress → rank j ≤ rank k) →
      (∀ k, s.checked k = none → s.results k = old k) →
      ∃ s', runProg (ensureCooked w fuel) j p s = .ok s' := by
  have hI : ∀ (s : St Job Dep) (r : Res Job Dep) (D : List Job), Inv (fun _ => True) s →
      Inv (fun _ => True) { s.store j r with deferred := D } := by
    intro s r D hi
    refine ⟨fun _ _ _ _ _ _ => .inr (.inr trivial), ?_⟩
    intro a ha h
    by_cases haj : a = j
    · subst haj
      have := store_same s a r
      rw [show (s.store a r).results a = none from h] at this
      cases this
    · exact hi.has a ha (by rw [← h]; exact (store_other s r haj).symm)
  induction p with
  | done => intro s _ _ _ _ _ _ _ _; exact ⟨s, rfl⟩
  | dep d k ih =>
    intro s res hn hr ho hi hc hp hu
    rw [runProg, hr]
    cases ho with
    | dep ho =>
      refine ih _ _ (fun i h => hn i (.dep h)) (store_same s j _) ho (hI s _ s.deferred hi) hc hp ?_
      intro a ha
      have haj : a ≠ j := by
        rintro rfl
        have : s.checked a = none := ha
        rw [hc] at this; cases this
      rw [store_other s _ haj]
      exact hu a ha
  | ref i k ih =>
    intro s res hn hr ho hi hc hp hu
    cases ho with
    | ref hni ho =>
      have key : ∃ D, addReference j s i =
          .ok { s.store j { res with refs := res.refs ++ [i] } with deferred := D } := by
        unfold addReference
        rw [hr]
        dsimp only
        rw [if_neg hni]
        cases hc' : s.checked i with
        | some v =>
          have : (s.store j { res with refs := res.refs ++ [i] }).checked i = some v := hc'
          rw [this]
          exact ⟨s.deferred, rfl⟩
        | none =>
          have : (s.store j { res with refs := res.refs ++ [i] }).checked i = none := hc'
          rw [this]
          exact ⟨_, rfl⟩
      obtain ⟨D, hD⟩ := key
      rw [runProg, hD]
      dsimp only
      refine ih _ { res with refs := res.refs ++ [i] } (fun i h => hn i (.ref h)) (store_same s j _) ho
        (hI s _ D hi) hc hp ?_
      intro a ha
      have haj : a ≠ j := by
        rintro rfl
        have : s.checked a = none := ha
        rw [hc] at this; cases this
      exact (store_other s _ haj).trans (hu a ha)
  | cook i k ih =>
    intro s res hn hr ho hi hc hp hu
    cases ho with
    | cook ho =>
      have hij := hn i .here
      obtain ⟨s1, h1⟩ := he s i hij hi
        (fun k hk => Nat.lt_of_lt_of_le hij (hp k hk)) hu
      rw [runProg, h1]
      dsimp only
      obtain ⟨e, i1, -⟩ := ensureCooked_good w fuel (fun _ => True) s s1 i hi h1
      have hjne : s.checked j ≠ none := by rw [hc]; simp
      refine ih _ s1 res (fun i h => hn i (.cook h)) ?_ (ho _) i1 (e.kept j _ hc) ?_ ?_
      · rw [e.results j (fun h => h) hjne, hr]
      · intro k hk
        cases hck : s.checked k with
        | none => have := e.fresh k _ hck hk; cases this
        | some v =>
          rw [e.kept k v hck] at hk
          cases hk
          exact hp k hck
      · intro k hk
        have hck : s.checked k = none := by
          cases hck : s.checked k with
          | none => rfl
          | some v => rw [e.kept k v hck] at hk; cases hk
        rw [e.untouched k hk, hu k hck]

theorem ensureCooked_ok {w : World Job Dep} {old : Job → Option (Res Job Dep)} {rank : Job → Nat}
    (hw : Sane w old rank) (fuel : Nat) : ∀ (s : St Job Dep) (j : Job), rank j < fuel →
      Inv (fun _ => True) s → (∀ k, s.checked k = some .inProgress → rank j < rank k) →
      (∀ k, s.checked k = none → s.results k = old k) →
      ∃ s', ensureCooked w fuel s j = .ok s' := by
  induction fuel with
  | zero => intro s j h; omega
  | succ fuel ih =>
    intro s j hf hi hp hu
    rw [ensureCooked]
    cases hc : s.checked j with
    | some v =>
      cases v with
      | upToDate => exact ⟨s, rfl⟩
      | inProgress => have := hp j hc; omega
    | none =>
      dsimp only
      have hr0 : (s.mark j .inProgress).results j = s.results j := rfl
      have hmne : mustCook w j (s.results j) ≠ none := by
        rw [hu j hc]
        cases ho : old j with
        | none => simp [mustCook]
        | some r => exact anyChanged_some (fun d hd => hw.checkable j r d ho hd)
      rw [hr0]
      cases hm : mustCook w j (s.results j) with
      | none => exact absurd hm hmne
      | some b =>
        cases b with
        | true =>
          dsimp only
          generalize hs2 : ({ (s.mark j .inProgress).store j ⟨[], []⟩ with
            log := ((s.mark j .inProgress).store j ⟨[], []⟩).log ++ [j] } : St Job Dep) = s2
          have c2 : ∀ k, s2.checked k = if k = j then some .inProgress else s.checked k := by
            intro k; rw [← hs2]; rfl
          have r2 : ∀ k, s2.results k = if k = j then some ⟨[], []⟩ else s.results k := by
            intro k; rw [← hs2]; rfl
          have hi2 : Inv (fun _ => True) s2 := by
            refine ⟨fun _ _ _ _ _ _ => .inr (.inr trivial), ?_⟩
            intro a ha
            rw [r2]
            by_cases haj : a = j
            · rw [if_pos haj]; simp
            · rw [if_neg haj]; rw [c2, if_neg haj] at ha; exact hi.has a ha
          have hcj : s2.checked j = some .inProgress := by rw [c2, if_pos rfl]
          obtain ⟨s3, h3⟩ := runProg_ok (w := w) (old := old) (rank := rank) (fuel := fuel) j
            (fun s i h1 h2 h3 h4 => ih s i (by omega) h2 h3 h4) (w.prog j) s2 ⟨[], []⟩
            (hw.down j) (by rw [r2, if_pos rfl]) (hw.once j) hi2 hcj
            (by
              intro k hk
              rw [c2] at hk
              by_cases hkj : k = j
              · rw [hkj]; omega
              · rw [if_neg hkj] at hk; exact Nat.le_of_lt (hp k hk))
            (by
              intro k hk
              rw [c2] at hk
              by_cases hkj : k = j
              · rw [if_pos hkj] at hk; cases hk
              · rw [if_neg hkj] at hk; rw [r2, if_neg hkj]; exact hu k hk)
          rw [h3]
          dsimp only
          obtain ⟨e, -⟩ := runProg_good w (ensureCooked_good w fuel) (fun _ => True) j _ s2 s3 hi2
            (by rw [hcj]; simp) h3
          unfold finish
          rw [if_pos (e.kept j _ hcj)]
          exact ⟨_, rfl⟩
        | false =>
          dsimp only
          cases hr : s.results j with
          | none => rw [hr] at hm; cases hm
          | some res =>
            dsimp only
            unfold finish
            rw [if_pos (by simp [St.mark])]
            exact ⟨_, rfl⟩

/-- A set of jobs closed under cooking, referencing and earlier references. -/
structure Closed (w : World Job Dep) (old : Job → Option (Res Job Dep)) (U : List Job) : Prop where
  needs : ∀ j ∈ U, ∀ i, Needs (w.prog j) i → i ∈ U
  refs : ∀ j ∈ U, ∀ i, Refs (w.prog j) i → i ∈ U
  old : ∀ j ∈ U, ∀ r, old j = some r → ∀ i ∈ r.refs, i ∈ U

theorem runProg_within {w : World Job Dep} {old : Job → Option (Res Job Dep)} {U : List Job}
    {fuel : Nat} (j : Job)
    (he : ∀ (s s' : St Job Dep) (i : Job), i ∈ U → Inv (fun _ => True) s →
      (∀ k, s.checked k = none → s.results k = old k) → (∀ k ∈ s.deferred, k ∈ U) →
      ensureCooked w fuel s i = .ok s' → ∀ k ∈ s'.deferred, k ∈ U)
    (p : Prog Job Dep) : ∀ (s s' : St Job Dep),
      (∀ i, Needs p i → i ∈ U) → (∀ i, Refs p i → i ∈ U) → Inv (fun _ => True) s →
      s.checked j ≠ none → (∀ k, s.checked k = none → s.results k = old k) →
      (∀ k ∈ s.deferred, k ∈ U) → runProg (ensureCooked w fuel) j p s = .ok s' →
      ∀ k ∈ s'.deferred, k ∈ U := by
  have hI : ∀ (s : St Job Dep) (r : Res Job Dep) (D : List Job), Inv (fun _ => True) s →
      Inv (fun _ => True) { s.store j r with deferred := D } := by
    intro s r D hi
    refine ⟨fun _ _ _ _ _ _ => .inr (.inr trivial), ?_⟩
    intro a ha h
    by_cases haj : a = j
    · subst haj
      have := store_same s a r
      rw [show (s.store a r).results a = none from h] at this
      cases this
    · exact hi.has a ha (by rw [← h]; exact (store_other s r haj).symm)
  induction p with
  | done => intro s s' _ _ _ _ _ hd h; cases h; exact hd
  | dep d k ih =>
    intro s s' hn hr hi hj hu hd h
    rw [runProg] at h
    cases hres : s.results j with
    | none => rw [hres] at h; cases h
    | some res =>
      rw [hres] at h
      refine ih _ s' (fun i h => hn i (.dep h)) (fun i h => hr i (.dep h)) (hI s _ s.deferred hi) hj ?_ hd h
      intro a ha
      have haj : a ≠ j := by rintro rfl; exact hj ha
      exact (store_other s _ haj).trans (hu a ha)
  | ref i k ih =>
    intro s s' hn hr hi hj hu hd h
    rw [runProg] at h
    cases ha : addReference j s i with
    | assert => rw [ha] at h; cases h
    | fuel => rw [ha] at h; cases h
    | ok s1 =>
      rw [ha] at h
      have key : ∃ r D, s1 = { s.store j r with deferred := D } ∧ ∀ k ∈ D, k ∈ U := by
        unfold addReference at ha
        cases hres : s.results j with
        | none => rw [hres] at ha; cases ha
        | some res =>
          rw [hres] at ha
          dsimp only at ha
          split at ha
          · cases ha
          · split at ha
            · cases ha; exact ⟨_, s.deferred, rfl, hd⟩
            · cases ha
              refine ⟨_, addDeferred s.deferred i, rfl, ?_⟩
              intro k hk
              rcases mem_addDeferred.mp hk with hk | rfl
              · exact hd k hk
              · exact hr k .here
      obtain ⟨r, D, rfl, hD⟩ := key
      refine ih _ s' (fun i h => hn i (.ref h)) (fun i h => hr i (.ref h)) (hI s r D hi) hj ?_ hD h
      intro a ha
      have haj : a ≠ j := by rintro rfl; exact hj ha
      exact (store_other s _ haj).trans (hu a ha)
  | cook i k ih =>
    intro s s' hn hr hi hj hu hd h
    rw [runProg] at h
    cases h1 : ensureCooked w fuel s i with
    | assert => rw [h1] at h; cases h
    | fuel => rw [h1] at h; cases h
    | ok s1 =>
      rw [h1] at h
      obtain ⟨e, i1, -⟩ := ensureCooked_good w fuel (fun _ => True) s s1 i hi h1
      refine ih _ s1 s' (fun i h => hn i (.cook h)) (fun i h => hr i (.cook h)) i1 ?_ ?_
        (he s s1 i (hn i .here) hi hu hd h1) h
      · cases hc : s.checked j with
        | none => exact absurd hc hj
        | some v => rw [e.kept j v hc]; simp
      · intro k hk
        have hck : s.checked k = none := by
          cases hck : s.checked k with
          | none => rfl
          | some v => rw [e.kept k v hck] at hk; cases hk
        rw [e.untouched k hk, hu k hck]

theorem ensureCooked_within {w : World Job Dep} {old : Job → Option (Res Job Dep)} {U : List Job}
    (hU : Closed w old U) (fuel : Nat) : ∀ (s s' : St Job Dep) (i : Job), i ∈ U → Inv (fun _ => True) s →
      (∀ k, s.checked k = none → s.results k = old k) → (∀ k ∈ s.deferred, k ∈ U) →
      ensureCooked w fuel s i = .ok s' → ∀ k ∈ s'.deferred, k ∈ U := by
  induction fuel with
  | zero => intro s s' i _ _ _ _ h; cases h
  | succ fuel ih =>
    intro s s' j hj hi hu hd h
    rw [ensureCooked] at h
    cases hc : s.checked j with
    | some v =>
      rw [hc] at h
      cases v with
      | upToDate => cases h; exact hd
      | inProgress => cases h
    | none =>
      rw [hc] at h
      dsimp only at h
      have hr0 : (s.mark j .inProgress).results j = s.results j := rfl
      rw [hr0] at h
      have fin : ∀ (s2 s3 : St Job Dep), finish j s2 = .ok s3 → s3.deferred = s2.deferred := by
        intro s2 s3 h
        unfold finish at h
        split at h
        · cases h; rfl
        · cases h
      cases hm : mustCook w j (s.results j) with
      | none => rw [hm] at h; cases h
      | some b =>
        rw [hm] at h
        cases b with
        | true =>
          dsimp only at h
          generalize hs2 : ({ (s.mark j .inProgress).store j ⟨[], []⟩ with
            log := ((s.mark j .inProgress).store j ⟨[], []⟩).log ++ [j] } : St Job Dep) = s2 at h
          have c2 : ∀ k, s2.checked k = if k = j then some .inProgress else s.checked k := by
            intro k; rw [← hs2]; rfl
          have r2 : ∀ k, s2.results k = if k = j then some ⟨[], []⟩ else s.results k := by
            intro k; rw [← hs2]; rfl
          have d2 : s2.deferred = s.deferred := by rw [← hs2]; rfl
          cases hp : runProg (ensureCooked w fuel) j (w.prog j) s2 with
          | assert => rw [hp] at h; cases h
          | fuel => rw [hp] at h; cases h
          | ok s3 =>
            rw [hp] at h
            rw [fin _ _ h]
            refine runProg_within j ih (w.prog j) s2 s3 (hU.needs j hj) (hU.refs j hj) ?_
              (by rw [c2, if_pos rfl]; simp) ?_ (by rw [d2]; exact hd) hp
            · refine ⟨fun _ _ _ _ _ _ => .inr (.inr trivial), ?_⟩
              intro a ha
              rw [r2]
              by_cases haj : a = j
              · rw [if_pos haj]; simp
              · rw [if_neg haj]; rw [c2, if_neg haj] at ha; exact hi.has a ha
            · intro k hk
              rw [c2] at hk
              by_cases hkj : k = j
              · rw [if_pos hkj] at hk; cases hk
              · rw [if_neg hkj] at hk; rw [r2, if_neg hkj]; exact hu k hk
        | false =>
          dsimp only at h
          cases hr : s.results j with
          | none => rw [hr] at h; cases h
          | some res =>
            rw [hr] at h
            rw [fin _ _ h]
            intro k hk
            rcases mem_foldl_addDeferred.mp hk with hk | hk
            · exact hd k hk
            · exact hU.old j hj res (by rw [← hu j hc, hr]) k hk

/-- How many jobs of `U` have not been looked at. -/
def unchecked (U : List Job) (s : St Job Dep) : Nat := (U.filter (fun j => (s.checked j).isNone)).length

theorem unchecked_le {U : List Job} {s s' : St Job Dep}
    (h : ∀ k, s.checked k ≠ none → s'.checked k ≠ none) : unchecked U s' ≤ unchecked U s := by
  unfold unchecked
  induction U with
  | nil => simp
  | cons a t ih =>
    rw [List.filter_cons, List.filter_cons]
    have := h a
    cases h1 : s.checked a <;> cases h2 : s'.checked a <;> simp_all <;> omega

theorem unchecked_lt {U : List Job} {s s' : St Job Dep}
    (h : ∀ k, s.checked k ≠ none → s'.checked k ≠ none) {j : Job} (hj : j ∈ U)
    (h1 : s.checked j = none) (h2 : s'.checked j ≠ none) : unchecked U s' < unchecked U s := by
  have hle := @unchecked_le Job Dep
  unfold unchecked at hle ⊢
  induction U with
  | nil => simp at hj
  | cons a t ih =>
    rw [List.filter_cons, List.filter_cons]
    by_cases haj : a = j
    · subst haj
      have := hle (U := t) h
      cases h3 : s'.checked a with
      | none => exact absurd h3 h2
      | some v => simp [h1]; omega
    · have hjt : j ∈ t := by
        rcases List.mem_cons.mp hj with rfl | h
        · exact absurd rfl haj
        · exact h
      have := ih hjt
      have := h a
      cases h3 : s.checked a <;> cases h4 : s'.checked a <;> simp_all <;> omega

theorem ensureAll_noop {w : World Job Dep} {fuel : Nat} (hf : 0 < fuel) (js : List Job) {s : St Job Dep}
    (h : ∀ j ∈ js, s.checked j = some .upToDate) : ensureAll w fuel s js = .ok s := by
  induction js with
  | nil => rfl
  | cons j js ih =>
    obtain ⟨f, rfl⟩ : ∃ f, fuel = f + 1 := ⟨fuel - 1, by omega⟩
    rw [ensureAll, ensureCooked, h j (by simp)]
    exact ih (fun k hk => h k (List.mem_cons_of_mem _ hk))

theorem Top.weak {w : World Job Dep} {old : Job → Option (Res Job Dep)} {P : Job → Prop}
    {s : St Job Dep} (h : Top w old P s) : Inv (fun _ => True) s :=
  ⟨fun _ _ _ _ _ _ => .inr (.inr trivial), h.inv.has⟩

theorem ensure_completes {w : World Job Dep} {old : Job → Option (Res Job Dep)} {rank : Job → Nat}
    {U : List Job} (hw : Sane w old rank) (hU : Closed w old U) {fuel : Nat}
    (hf : ∀ j ∈ U, rank j < fuel) {P : Job → Prop} {s : St Job Dep} (ht : Top w old P s)
    (hd : ∀ k ∈ s.deferred, k ∈ U) {j : Job} (hj : j ∈ U) :
    ∃ s', ensureCooked w fuel s j = .ok s' ∧ ∀ k ∈ s'.deferred, k ∈ U := by
  obtain ⟨s', h⟩ := ensureCooked_ok hw fuel s j (hf j hj) ht.weak
    (fun k hk => by have := ht.settled k _ hk; cases this) ht.untouched
  exact ⟨s', h, ensureCooked_within hU fuel s s' j hj ht.weak ht.untouched hd h⟩

theorem ensureAll_completes {w : World Job Dep} {old : Job → Option (Res Job Dep)} {rank : Job → Nat}
    {U : List Job} (hw : Sane w old rank) (hU : Closed w old U) {fuel : Nat}
    (hf : ∀ j ∈ U, rank j < fuel) {P : Job → Prop} (js : List Job) : ∀ {s : St Job Dep},
    Top w old P s → (∀ k ∈ s.deferred, k ∈ U) → (∀ j ∈ js, j ∈ U) →
    ∃ s', ensureAll w fuel s js = .ok s' ∧ ∀ k ∈ s'.deferred, k ∈ U := by
  induction js with
  | nil => intro s _ hd _; exact ⟨s, rfl, hd⟩
  | cons j js ih =>
    intro s ht hd hj
    obtain ⟨s1, h1, d1⟩ := ensure_completes hw hU hf ht hd (hj j (by simp))
    rw [ensureAll, h1]
    exact ih (ht.ensure h1).1 d1 (fun k hk => hj k (List.mem_cons_of_mem _ hk))

theorem cookDeferred_completes {w : World Job Dep} {old : Job → Option (Res Job Dep)}
    {rank : Job → Nat} {U : List Job} (hw : Sane w old rank) (hU : Closed w old U) {fuel : Nat}
    (hf : ∀ j ∈ U, rank j < fuel) {order : List Job → List Job} (ho : ∀ l, (order l).Perm l) (n : Nat) :
    ∀ {s : St Job Dep}, Top w old (fun _ => False) s → (∀ k ∈ s.deferred, k ∈ U) →
    unchecked U s + 2 ≤ n → ∃ s', cookDeferred w fuel order n s = .ok s' := by
  induction n with
  | zero => intro s _ _ h; omega
  | succ n ih =>
    intro s ht hd hn
    rw [cookDeferred]
    split
    · exact ⟨s, rfl⟩
    · rename_i hne
      have hjU : ∀ j ∈ order s.deferred, j ∈ U := fun j hj => hd j ((ho _).mem_iff.mp hj)
      have t0 : Top w old (· ∈ order s.deferred) { s with deferred := [] } := by
        refine ht.defer [] (fun k hk => .inr ?_)
        rcases hk with hk | hk
        · exact (ho _).mem_iff.mpr hk
        · exact hk.elim
      by_cases hall : ∀ j ∈ order s.deferred, s.checked j = some .upToDate
      · have hfp : 0 < fuel := by
          cases hdl : s.deferred with
          | nil => exact absurd hdl hne
          | cons a t =>
            have := hf a (hd a (by rw [hdl]; simp))
            omega
        rw [ensureAll_noop (s := { s with deferred := [] }) hfp _ hall]
        dsimp only
        obtain ⟨m, rfl⟩ : ∃ m, n = m + 1 := ⟨n - 1, by omega⟩
        rw [cookDeferred]
        exact ⟨_, if_pos rfl⟩
      · obtain ⟨s1, h1, d1⟩ := ensureAll_completes hw hU hf (order s.deferred) t0 (by simp) hjU
        rw [h1]
        dsimp only
        obtain ⟨t1, c1, k1⟩ := t0.all _ h1
        refine ih t1 d1 ?_
        have : ∃ j ∈ order s.deferred, s.checked j = none := by
          refine Classical.byContradiction fun hno => hall fun j hj => ?_
          cases hc : s.checked j with
          | none => exact absurd ⟨j, hj, hc⟩ hno
          | some v => rw [ht.settled j v hc]
        obtain ⟨j, hj, hcj⟩ := this
        have := unchecked_lt (s := s) (s' := s1) (fun k hk => k1 k hk) (hjU j hj) hcj (c1 j hj)
        omega

/-- The results of one call depend on nothing but what `Top` describes. -/
theorem cookDeferred_within {w : World Job Dep} {order : List Job → List Job} {fuel : Nat} (n : Nat) :
    ∀ {s s' : St Job Dep}, cookDeferred w fuel order n s = .ok s' → s'.deferred = [] := by
  induction n with
  | zero => intro s s' h; cases h
  | succ n ih =>
    intro s s' h
    rw [cookDeferred] at h
    split at h
    · rename_i hd; cases h; exact hd
    · split at h
      · exact ih h
      · cases h
      · cases h

theorem serve_completes {w : World Job Dep} {old : Job → Option (Res Job Dep)}
    {rank : Job → Nat} {U : List Job} (hw : Sane w old rank) (hU : Closed w old U) {fuel n : Nat}
    (hf : ∀ j ∈ U, rank j < fuel) {order : List Job → List Job} (ho : ∀ l, (order l).Perm l)
    (hn : U.length + 2 ≤ n) (rs : List (Req Job)) : ∀ {s : St Job Dep},
    Top w old (fun _ => False) s → (∀ k ∈ s.deferred, k ∈ U) → (∀ j ∈ requested rs, j ∈ U) →
    ∃ s', serve w fuel order n rs s = .ok s' := by
  induction rs with
  | nil => intro s _ _ _; exact ⟨s, rfl⟩
  | cons r rs ih =>
    intro s ht hd hr
    cases r with
    | cook j =>
      obtain ⟨s1, h1, d1⟩ := ensure_completes hw hU hf ht hd (hr j (by simp [requested]))
      rw [Cook.serve, h1]
      exact ih (ht.ensure h1).1 d1 (fun k hk => hr k (by simp [requested, hk]))
    | deferred =>
      have hle : unchecked U s ≤ U.length := List.length_filter_le _ _
      obtain ⟨s1, h1⟩ := cookDeferred_completes hw hU hf ho n ht hd (by omega)
      rw [Cook.serve, h1]
      refine ih (ht.rounds ho n h1).1 ?_ (fun k hk => hr k (by simpa [requested] using hk))
      rw [cookDeferred_within n h1]
      simp

/-- **C36**: if no chain of jobs cooking jobs is cyclic, no cook function references a job twice and
dependencies can be checked, then every sequence of requests comes to its end without a failed
assertion — with the depth of nesting bounded by the rank and the number of rounds by the number of
jobs. -/
theorem C36_completes (w : World Job Dep) (old : Job → Option (Res Job Dep)) (rank : Job → Nat)
    (U : List Job) (hw : Sane w old rank) (hU : Closed w old U) (fuel n : Nat)
    (hf : ∀ j ∈ U, rank j < fuel) (order : List Job → List Job) (ho : ∀ l, (order l).Perm l)
    (hn : U.length + 2 ≤ n) (rs : List (Req Job)) (hr : ∀ j ∈ requested rs, j ∈ U) :
    ∃ s, serve w fuel order n rs (.start old) = .ok s :=
  serve_completes hw hU hf ho hn rs (Top.start w old _) (by simp [St.start]) hr

example : Sane sample (fun _ => none) (fun j => if j = 0 then 1 else 0) ∧
    Closed sample (fun _ => none) [0, 1, 2, 3] := by
  have prog0 : sample.prog 0 = .dep 5 (.cook 1 (fun _ => .ref 2 (.ref 3 .done))) := rfl
  have prog3 : sample.prog 3 = .ref 0 .done := rfl
  have progn : ∀ j, j ≠ 0 → j ≠ 3 → sample.prog j = .done := by
    intro j h1 h2; simp [sample, h1, h2]
  have cases3 : ∀ j, j = 0 ∨ j = 3 ∨ sample.prog j = .done := by
    intro j
    by_cases h1 : j = 0
    · exact .inl h1
    by_cases h2 : j = 3
    · exact .inr (.inl h2)
    exact .inr (.inr (progn j h1 h2))
  have needs : ∀ j i, Needs (sample.prog j) i → j = 0 ∧ i = 1 := by
    intro j i h
    rcases cases3 j with rfl | rfl | hp
    · rw [prog0] at h
      cases h with
      | dep h =>
        cases h with
        | here => exact ⟨rfl, rfl⟩
        | cook h =>
          cases h with
          | ref h => cases h with | ref h => cases h
    · rw [prog3] at h; cases h with | ref h => cases h
    · rw [hp] at h; cases h
  have refs : ∀ j i, Refs (sample.prog j) i → i = 2 ∨ i = 3 ∨ i = 0 := by
    intro j i h
    rcases cases3 j with rfl | rfl | hp
    · rw [prog0] at h
      cases h with
      | dep h =>
        cases h with
        | cook h =>
          cases h with
          | here => simp
          | ref h =>
            cases h with
            | here => simp
            | ref h => cases h
    · rw [prog3] at h
      cases h with
      | here => simp
      | ref h => cases h
    · rw [hp] at h; cases h
  refine ⟨⟨?_, ?_, by intro j r d h; cases h⟩, ⟨?_, ?_, by intro j _ r h; cases h⟩⟩
  · intro j i h
    obtain ⟨rfl, rfl⟩ := needs j i h
    decide
  · intro j
    rcases cases3 j with rfl | rfl | hp
    · rw [prog0]
      exact .dep (.cook fun _ => .ref (by simp) (.ref (by simp) .done))
    · rw [prog3]; exact .ref (by simp) .done
    · rw [hp]; exact .done
  · intro j _ i h
    obtain ⟨rfl, rfl⟩ := needs j i h
    simp
  · intro j _ i h
    rcases refs j i h with rfl | rfl | rfl <;> simp

/-- A job that cooks itself, directly or not, runs into the assertion about dependency loops: here
two jobs cooking each other. -/
theorem C36_loop_asserts :
    serve (⟨fun _ _ => none, fun j => .cook (1 - j) (fun _ => .done)⟩ : World Nat Nat) 9 id 9
      [.cook 0] (.start fun _ => none) = .assert := rfl

/-- Asking whether a job is cooked spoils it: if it has not been looked at, the answer is no, and
cooking it afterwards fails an assertion — for every job and state. -/
theorem C36_isCooked_spoils (w : World Job Dep) (fuel : Nat) (s : St Job Dep) (j : Job)
    (h : s.checked j = none) :
    (isCooked s j).1 = false ∧ ensureCooked w (fuel + 1) (isCooked s j).2 j = .assert := by
  unfold isCooked
  rw [h]
  refine ⟨rfl, ?_⟩
  rw [ensureCooked]
  simp [St.mark]

example : (St.start (fun _ => none) : St Nat Nat).checked 0 = none := rfl

/-- A recorded dependency that cannot be checked any more (a file that was removed) fails an
assertion, instead of making the job stale. -/
theorem C36_vanished_dependency (w : World Job Dep) (fuel : Nat) (s : St Job Dep) (j : Job)
    (r : Res Job Dep) (d : Dep) (ds : List Dep) (hc : s.checked j = none)
    (hr : s.results j = some r) (hd : r.deps = d :: ds) (hv : w.hasChanged j d = none) :
    ensureCooked w (fuel + 1) s j = .assert := by
  rw [ensureCooked, hc]
  have hr0 : (s.mark j .inProgress).results j = s.results j := rfl
  dsimp only
  rw [hr0, hr]
  simp [mustCook, hd, anyChanged, hv]

example : ∃ (w : World Nat Nat) (s : St Nat Nat), s.checked 0 = none ∧
    s.results 0 = some ⟨[3], []⟩ ∧ w.hasChanged 0 3 = none :=
  ⟨⟨fun _ _ => none, fun _ => .done⟩, .start (fun _ => some ⟨[3], []⟩), rfl, rfl, rfl⟩

end Verif.Cook
