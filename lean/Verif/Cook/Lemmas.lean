import Verif.Cook.Spec
/-!
# Cook jobs — helper lemmas
-/
namespace Verif.Cook
open Spec

variable {Job Dep : Type} [DecidableEq Job]

theorem mem_addDeferred {l : List Job} {j k : Job} : k ∈ addDeferred l j ↔ k ∈ l ∨ k = j := by
  unfold addDeferred
  split
  · rename_i h
    constructor
    · exact .inl
    · rintro (h' | rfl)
      · exact h'
      · exact h
  · simp

theorem mem_foldl_addDeferred {l refs : List Job} {k : Job} :
    k ∈ refs.foldl addDeferred l ↔ k ∈ l ∨ k ∈ refs := by
  induction refs generalizing l with
  | nil => simp
  | cons a t ih =>
    rw [List.foldl_cons, ih, mem_addDeferred, List.mem_cons]
    constructor
    · rintro ((h | h) | h)
      · exact .inl h
      · exact .inr (.inl h)
      · exact .inr (.inr h)
    · rintro (h | h | h)
      · exact .inl (.inl h)
      · exact .inl (.inr h)
      · exact .inr h

theorem anyChanged_true {f : Dep → Option Bool} {ds : List Dep} (h : anyChanged f ds = some true) :
    ∃ d ∈ ds, f d = some true := by
  induction ds with
  | nil => simp [anyChanged] at h
  | cons d t ih =>
    rw [anyChanged] at h
    split at h
    · cases h
    · rename_i hd; exact ⟨d, by simp, hd⟩
    · obtain ⟨e, he, h'⟩ := ih h
      exact ⟨e, List.mem_cons_of_mem _ he, h'⟩

theorem anyChanged_false {f : Dep → Option Bool} {ds : List Dep} (h : anyChanged f ds = some false) :
    ∀ d ∈ ds, f d = some false := by
  induction ds with
  | nil => simp
  | cons d t ih =>
    rw [anyChanged] at h
    split at h
    · cases h
    · cases h
    · rename_i hd
      intro e he
      rcases List.mem_cons.mp he with rfl | he
      · exact hd
      · exact ih h e he

theorem anyChanged_some {f : Dep → Option Bool} {ds : List Dep} (h : ∀ d ∈ ds, f d ≠ none) :
    anyChanged f ds ≠ none := by
  induction ds with
  | nil => simp [anyChanged]
  | cons d t ih =>
    rw [anyChanged]
    split
    · rename_i hd; exact absurd hd (h d (by simp))
    · simp
    · exact ih (fun e he => h e (List.mem_cons_of_mem _ he))

/-- How the state may change during a call; `X` are the jobs whose results the call may work on. -/
structure Ext (w : World Job Dep) (X : Job → Prop) (s s' : St Job Dep) : Prop where
  kept : ∀ k v, s.checked k = some v → s'.checked k = some v
  fresh : ∀ k v, s.checked k = none → s'.checked k = some v → v = .upToDate
  deferred : ∀ k ∈ s.deferred, k ∈ s'.deferred
  results : ∀ k, ¬ X k → s.checked k ≠ none → s'.results k = s.results k
  untouched : ∀ k, s'.checked k = none → s'.results k = s.results k
  log : ∃ L, s'.log = s.log ++ L ∧ L.Nodup ∧
    (∀ k, k ∈ L ↔ s.checked k = none ∧ s'.checked k ≠ none ∧
      mustCook w k (s.results k) = some true)
  unchanged : ∀ k, s.checked k = none → s'.checked k ≠ none →
    mustCook w k (s.results k) = some true ∨
    (mustCook w k (s.results k) = some false ∧ s'.results k = s.results k)

theorem Ext.refl (w : World Job Dep) (X : Job → Prop) (s : St Job Dep) : Ext w X s s where
  kept := fun _ _ h => h
  fresh := fun k v h h' => by rw [h] at h'; cases h'
  deferred := fun _ h => h
  results := fun _ _ _ => rfl
  untouched := fun _ _ => rfl
  log := ⟨[], by simp, by simp, fun k => by
    simp only [List.not_mem_nil, false_iff]
    rintro ⟨h1, h2, -⟩
    exact h2 h1⟩
  unchanged := fun k h h' => absurd h h'

theorem Ext.trans {w : World Job Dep} {X : Job → Prop} {s s1 s2 : St Job Dep}
    (hX : ∀ k, X k → s.checked k ≠ none) (h1 : Ext w X s s1) (h2 : Ext w X s1 s2) :
    Ext w X s s2 where
  kept := fun k v h => h2.kept k v (h1.kept k v h)
  fresh := fun k v h h' => by
    cases h3 : s1.checked k with
    | none => exact h2.fresh k v h3 h'
    | some u =>
      have := h1.fresh k u h h3
      have h4 := h2.kept k u h3
      rw [h4] at h'
      cases h'
      exact this
  deferred := fun k h => h2.deferred k (h1.deferred k h)
  results := fun k hk h => by
    rw [h2.results k hk, h1.results k hk h]
    cases h3 : s.checked k with
    | none => exact absurd h3 h
    | some v => rw [h1.kept k v h3]; simp
  untouched := fun k h => by
    have h3 : s1.checked k = none := by
      cases h3 : s1.checked k with
      | none => rfl
      | some v => rw [h2.kept k v h3] at h; cases h
    rw [h2.untouched k h, h1.untouched k h3]
  log := by
    obtain ⟨L1, e1, n1, m1⟩ := h1.log
    obtain ⟨L2, e2, n2, m2⟩ := h2.log
    refine ⟨L1 ++ L2, by rw [e2, e1, List.append_assoc], ?_, ?_⟩
    · rw [List.nodup_append]
      refine ⟨n1, n2, ?_⟩
      rintro a ha b hb rfl
      exact ((m1 a).mp ha).2.1 ((m2 a).mp hb).1
    · intro k
      rw [List.mem_append, m1, m2]
      constructor
      · rintro (⟨a, b, c⟩ | ⟨a, b, c⟩)
        · refine ⟨a, ?_, c⟩
          cases h3 : s1.checked k with
          | none => exact absurd h3 b
          | some v => rw [h2.kept k v h3]; simp
        · have h4 : s.checked k = none := by
            cases h4 : s.checked k with
            | none => rfl
            | some v => rw [h1.kept k v h4] at a; cases a
          rw [h1.untouched k a] at c
          exact ⟨h4, b, c⟩
      · rintro ⟨a, b, c⟩
        cases h3 : s1.checked k with
        | none =>
          right
          rw [h1.untouched k h3]
          exact ⟨rfl, b, c⟩
        | some v => left; exact ⟨a, by simp, c⟩
  unchanged := fun k h h' => by
    cases h3 : s1.checked k with
    | none =>
      have := h2.unchanged k h3 h'
      rwa [h1.untouched k h3] at this
    | some v =>
      rcases h1.unchanged k h (by rw [h3]; simp) with h4 | ⟨h4, h5⟩
      · exact .inl h4
      · refine .inr ⟨h4, ?_⟩
        rw [h2.results k, h5]
        · intro hx; exact hX k hx h
        · rw [h3]; simp

theorem Ext.weaken {w : World Job Dep} {X Y : Job → Prop} {s s' : St Job Dep}
    (h : Ext w X s s') (hXY : ∀ k, X k → Y k) : Ext w Y s s' :=
  { h with results := fun k hk hc => h.results k (fun hx => hk (hXY k hx)) hc }

/-- Invariant: whatever a checked job references is checked, deferred or in `P`; and checked jobs
have results. -/
structure Inv (P : Job → Prop) (s : St Job Dep) : Prop where
  refs : ∀ j r k, s.checked j ≠ none → s.results j = some r → k ∈ r.refs →
    s.checked k ≠ none ∨ k ∈ s.deferred ∨ P k
  has : ∀ j, s.checked j ≠ none → s.results j ≠ none

/-- The specification of a call. -/
def Good (w : World Job Dep) (ens : St Job Dep → Job → Out (St Job Dep)) : Prop :=
  ∀ (P : Job → Prop) (s s' : St Job Dep) (j : Job), Inv P s → ens s j = .ok s' →
    Ext w (fun _ => False) s s' ∧ Inv P s' ∧ s'.checked j = some .upToDate

theorem store_same (s : St Job Dep) (j : Job) (r : Res Job Dep) : (s.store j r).results j = some r := by
  simp [St.store]

theorem store_other (s : St Job Dep) {j k : Job} (r : Res Job Dep) (h : k ≠ j) :
    (s.store j r).results k = s.results k := by
  simp [St.store, h]

theorem Ext.of_store (w : World Job Dep) {s : St Job Dep} {j : Job} (hj : s.checked j ≠ none)
    (r : Res Job Dep) (D : List Job) (hD : ∀ k ∈ s.deferred, k ∈ D) :
    Ext w (· = j) s { s.store j r with deferred := D } where
  kept := fun _ _ h => h
  fresh := fun k v h h' => by
    have : s.checked k = some v := h'
    rw [h] at this; cases this
  deferred := hD
  results := fun k hk _ => store_other s r hk
  untouched := fun k h => store_other s r (fun hk => hj (by rw [← hk]; exact h))
  log := ⟨[], by simp [St.store], by simp, fun k => by
    simp only [List.not_mem_nil, false_iff]
    rintro ⟨h1, h2, -⟩
    exact h2 h1⟩
  unchanged := fun k h h' => absurd h h'

theorem runProg_good (w : World Job Dep) {ens : St Job Dep → Job → Out (St Job Dep)}
    (he : Good w ens) (P : Job → Prop) (j : Job) (p : Prog Job Dep) :
    ∀ (s s' : St Job Dep), Inv P s → s.checked j ≠ none → runProg ens j p s = .ok s' →
      Ext w (· = j) s s' ∧ Inv P s' := by
  induction p with
  | done =>
    intro s s' hi _ h
    cases h
    exact ⟨Ext.refl _ _ _, hi⟩
  | dep d k ih =>
    intro s s' hi hj h
    rw [runProg] at h
    split at h
    · cases h
    · rename_i res hr
      have e := Ext.of_store w hj { res with deps := res.deps ++ [d] } s.deferred (fun _ h => h)
      have e' : Ext w (· = j) s (s.store j { res with deps := res.deps ++ [d] }) := e
      have hi' : Inv P (s.store j { res with deps := res.deps ++ [d] }) := by
        constructor
        · intro a r x ha hra hx
          by_cases haj : a = j
          · subst haj
            rw [store_same] at hra
            cases hra
            exact hi.refs a res x ha hr hx
          · rw [store_other s _ haj] at hra
            exact hi.refs a r x ha hra hx
        · intro a ha
          by_cases haj : a = j
          · subst haj; rw [store_same]; simp
          · rw [store_other s _ haj]; exact hi.has a ha
      obtain ⟨f1, f2⟩ := ih _ _ hi' hj h
      exact ⟨e'.trans (by rintro k rfl; exact hj) f1, f2⟩
  | ref i k ih =>
    intro s s' hi hj h
    rw [runProg] at h
    cases ha : addReference j s i with
    | assert => rw [ha] at h; cases h
    | fuel => rw [ha] at h; cases h
    | ok s1 =>
      rw [ha] at h
      dsimp only at h
      unfold addReference at ha
      cases hr : s.results j with
      | none => rw [hr] at ha; cases ha
      | some res =>
        rw [hr] at ha
        dsimp only at ha
        split at ha
        · cases ha
        · have key : ∃ D, s1 = { s.store j { res with refs := res.refs ++ [i] } with deferred := D } ∧
              (∀ k ∈ s.deferred, k ∈ D) ∧ (s.checked i ≠ none ∨ i ∈ D) := by
            cases hc : s.checked i with
            | some v =>
              have hc' : (s.store j { res with refs := res.refs ++ [i] }).checked i = some v := hc
              rw [hc'] at ha
              cases ha
              exact ⟨s.deferred, rfl, fun _ h => h, .inl (by simp)⟩
            | none =>
              have hc' : (s.store j { res with refs := res.refs ++ [i] }).checked i = none := hc
              rw [hc'] at ha
              cases ha
              exact ⟨addDeferred s.deferred i, rfl, fun k hk => mem_addDeferred.mpr (.inl hk),
                .inr (mem_addDeferred.mpr (.inr rfl))⟩
          obtain ⟨D, rfl, hD, hiD⟩ := key
          have e := Ext.of_store w hj { res with refs := res.refs ++ [i] } D hD
          have hi' : Inv P { s.store j { res with refs := res.refs ++ [i] } with deferred := D } := by
            constructor
            · intro a r x ha' hra hx
              have old : ∀ y, (s.checked y ≠ none ∨ y ∈ s.deferred ∨ P y) →
                  (s.checked y ≠ none ∨ y ∈ D ∨ P y) := by
                rintro y (h | h | h)
                · exact .inl h
                · exact .inr (.inl (hD y h))
                · exact .inr (.inr h)
              by_cases haj : a = j
              · subst haj
                have : some r = some { res with refs := res.refs ++ [i] } := by
                  rw [← hra]; exact store_same s a _
                cases this
                rcases List.mem_append.mp hx with hx | hx
                · exact old x (hi.refs a res x ha' hr hx)
                · rw [List.mem_singleton.mp hx]
                  rcases hiD with h | h
                  · exact .inl h
                  · exact .inr (.inl h)
              · have : s.results a = some r := by rw [← hra]; exact (store_other s _ haj).symm
                exact old x (hi.refs a r x ha' this hx)
            · intro a ha'
              by_cases haj : a = j
              · subst haj
                exact fun h => by
                  have := store_same s a { res with refs := res.refs ++ [i] }
                  rw [show (s.store a { res with refs := res.refs ++ [i] }).results a = none from h] at this
                  cases this
              · exact fun h => hi.has a ha' (by rw [← h]; exact (store_other s _ haj).symm)
          obtain ⟨f1, f2⟩ := ih _ _ hi' hj h
          exact ⟨e.trans (by rintro k rfl; exact hj) f1, f2⟩
  | cook i k ih =>
    intro s s' hi hj h
    rw [runProg] at h
    cases ha : ens s i with
    | assert => rw [ha] at h; cases h
    | fuel => rw [ha] at h; cases h
    | ok s1 =>
      rw [ha] at h
      dsimp only at h
      obtain ⟨e1, i1, -⟩ := he P s s1 i hi ha
      have hj1 : s1.checked j ≠ none := by
        cases hc : s.checked j with
        | none => exact absurd hc hj
        | some v => rw [e1.kept j v hc]; simp
      obtain ⟨f1, f2⟩ := ih _ _ _ i1 hj1 h
      exact ⟨(e1.weaken (fun _ h => h.elim)).trans (by rintro k rfl; exact hj) f1, f2⟩

theorem ensureCooked_good (w : World Job Dep) (fuel : Nat) : Good w (ensureCooked w fuel) := by
  induction fuel with
  | zero => intro P s s' j _ h; cases h
  | succ fuel ih =>
    intro P s s' j hi h
    rw [ensureCooked] at h
    cases hc : s.checked j with
    | some v =>
      rw [hc] at h
      cases v with
      | inProgress => cases h
      | upToDate => cases h; exact ⟨Ext.refl _ _ _, hi, hc⟩
    | none =>
      rw [hc] at h
      dsimp only at h
      cases hm : mustCook w j ((s.mark j .inProgress).results j) with
      | none => rw [hm] at h; cases h
      | some b =>
        rw [hm] at h
        have hm' : mustCook w j (s.results j) = some b := hm
        cases b with
        | true =>
          dsimp only at h
          generalize hs2 : ({ (s.mark j .inProgress).store j ⟨[], []⟩ with
            log := ((s.mark j .inProgress).store j ⟨[], []⟩).log ++ [j] } : St Job Dep) = s2 at h
          have c2 : ∀ k, s2.checked k = if k = j then some .inProgress else s.checked k := by
            intro k; rw [← hs2]; rfl
          have r2 : ∀ k, s2.results k = if k = j then some ⟨[], []⟩ else s.results k := by
            intro k; rw [← hs2]; rfl
          have d2 : s2.deferred = s.deferred := by rw [← hs2]; rfl
          have l2 : s2.log = s.log ++ [j] := by rw [← hs2]; rfl
          have hi2 : Inv P s2 := by
            constructor
            · intro a r x ha hra hx
              rw [r2] at hra
              by_cases haj : a = j
              · rw [if_pos haj] at hra; cases hra; simp at hx
              · rw [if_neg haj] at hra
                rw [c2, if_neg haj] at ha
                rw [c2, d2]
                by_cases hxj : x = j
                · rw [if_pos hxj]; simp
                · rw [if_neg hxj]; exact hi.refs a r x ha hra hx
            · intro a ha
              rw [r2]
              by_cases haj : a = j
              · rw [if_pos haj]; simp
              · rw [if_neg haj]; rw [c2, if_neg haj] at ha; exact hi.has a ha
          cases hp : runProg (ensureCooked w fuel) j (w.prog j) s2 with
          | assert => rw [hp] at h; cases h
          | fuel => rw [hp] at h; cases h
          | ok s3 =>
            rw [hp] at h
            dsimp only at h
            unfold finish at h
            split at h
            · rename_i hfin
              cases h
              obtain ⟨e, i3⟩ := runProg_good w ih P j _ s2 s3 hi2 (by rw [c2, if_pos rfl]; simp) hp
              have cm : ∀ k, (s3.mark j .upToDate).checked k =
                  if k = j then some .upToDate else s3.checked k := fun k => rfl
              refine ⟨?_, ?_, by rw [cm, if_pos rfl]⟩
              · constructor
                · intro k v hk
                  have hkj : k ≠ j := by rintro rfl; rw [hc] at hk; cases hk
                  rw [cm, if_neg hkj]
                  exact e.kept k v (by rw [c2, if_neg hkj]; exact hk)
                · intro k v hk hv
                  rw [cm] at hv
                  by_cases hkj : k = j
                  · rw [if_pos hkj] at hv; cases hv; rfl
                  · rw [if_neg hkj] at hv
                    exact e.fresh k v (by rw [c2, if_neg hkj]; exact hk) hv
                · intro k hk; exact e.deferred k (by rw [d2]; exact hk)
                · intro k _ hk
                  have hkj : k ≠ j := by rintro rfl; exact hk hc
                  have := e.results k hkj (by rw [c2, if_neg hkj]; exact hk)
                  rw [r2, if_neg hkj] at this
                  exact this
                · intro k hk
                  rw [cm] at hk
                  by_cases hkj : k = j
                  · rw [if_pos hkj] at hk; cases hk
                  · rw [if_neg hkj] at hk
                    have := e.untouched k hk
                    rw [r2, if_neg hkj] at this
                    exact this
                · obtain ⟨L, e1, e2, e3⟩ := e.log
                  refine ⟨j :: L, ?_, ?_, ?_⟩
                  · show s3.log = _
                    rw [e1, l2]; simp
                  · rw [List.nodup_cons]
                    refine ⟨fun hj => ?_, e2⟩
                    have := ((e3 j).mp hj).1
                    rw [c2, if_pos rfl] at this
                    cases this
                  · intro k
                    rw [List.mem_cons, e3, cm, c2, r2]
                    by_cases hkj : k = j
                    · subst hkj
                      rw [if_pos rfl, if_pos rfl]
                      simp [hc, hm']
                    · rw [if_neg hkj, if_neg hkj, if_neg hkj]
                      simp [hkj]
                · intro k hk hk'
                  by_cases hkj : k = j
                  · subst hkj; exact .inl hm'
                  · rw [cm, if_neg hkj] at hk'
                    have := e.unchanged k (by rw [c2, if_neg hkj]; exact hk) hk'
                    rw [r2, if_neg hkj] at this
                    exact this
              · constructor
                · intro a r x ha hra hx
                  have ha3 : s3.checked a ≠ none := by
                    rw [cm] at ha
                    by_cases haj : a = j
                    · rw [haj, hfin]; simp
                    · rwa [if_neg haj] at ha
                  rcases i3.refs a r x ha3 hra hx with h | h | h
                  · left; rw [cm]; split
                    · simp
                    · exact h
                  · exact .inr (.inl h)
                  · exact .inr (.inr h)
                · intro a ha
                  have ha3 : s3.checked a ≠ none := by
                    rw [cm] at ha
                    by_cases haj : a = j
                    · rw [haj, hfin]; simp
                    · rwa [if_neg haj] at ha
                  exact i3.has a ha3
            · cases h
        | false =>
          dsimp only at h
          have hr0 : (s.mark j .inProgress).results j = s.results j := rfl
          rw [hr0] at h
          cases hr : s.results j with
          | none => rw [hr] at h; cases h
          | some res =>
            rw [hr] at h
            dsimp only at h
            unfold finish at h
            split at h
            · cases h
              generalize hs' : St.mark ({ s.mark j .inProgress with
                deferred := res.refs.foldl addDeferred (s.mark j .inProgress).deferred } :
                St Job Dep) j .upToDate = s'
              have cm : ∀ k, s'.checked k = if k = j then some .upToDate else s.checked k := by
                intro k
                rw [← hs']
                show (if k = j then some Status.upToDate else
                  if k = j then some Status.inProgress else s.checked k) = _
                split <;> rfl
              have rm : s'.results = s.results := by rw [← hs']; rfl
              have dm : s'.deferred = res.refs.foldl addDeferred s.deferred := by rw [← hs']; rfl
              have lm : s'.log = s.log := by rw [← hs']; rfl
              refine ⟨?_, ?_, by rw [cm, if_pos rfl]⟩
              · constructor
                · intro k v hk
                  have hkj : k ≠ j := by rintro rfl; rw [hc] at hk; cases hk
                  rw [cm, if_neg hkj]; exact hk
                · intro k v hk hv
                  rw [cm] at hv
                  by_cases hkj : k = j
                  · rw [if_pos hkj] at hv; cases hv; rfl
                  · rw [if_neg hkj, hk] at hv; cases hv
                · intro k hk; rw [dm]; exact mem_foldl_addDeferred.mpr (.inl hk)
                · intro k _ _; rw [rm]
                · intro k _; rw [rm]
                · refine ⟨[], by rw [lm]; simp, by simp, ?_⟩
                  intro k
                  simp only [List.not_mem_nil, false_iff]
                  rintro ⟨h1, h2, h3⟩
                  rw [cm] at h2
                  by_cases hkj : k = j
                  · subst hkj; rw [hm'] at h3; cases h3
                  · rw [if_neg hkj] at h2; exact h2 h1
                · intro k h1 h2
                  rw [cm] at h2
                  by_cases hkj : k = j
                  · subst hkj; exact .inr ⟨hm', by rw [rm]⟩
                  · rw [if_neg hkj] at h2; exact absurd h1 h2
              · constructor
                · intro a r x ha hra hx
                  rw [rm] at hra
                  rw [dm, cm]
                  by_cases hxj : x = j
                  · rw [if_pos hxj]; simp
                  rw [if_neg hxj, mem_foldl_addDeferred]
                  by_cases haj : a = j
                  · subst haj
                    rw [hr] at hra
                    cases hra
                    exact .inr (.inl (.inr hx))
                  · rw [cm, if_neg haj] at ha
                    rcases hi.refs a r x ha hra hx with h | h | h
                    · exact .inl h
                    · exact .inr (.inl (.inl h))
                    · exact .inr (.inr h)
                · intro a ha
                  rw [rm]
                  by_cases haj : a = j
                  · rw [haj, hr]; simp
                  · rw [cm, if_neg haj] at ha; exact hi.has a ha
            · cases h

end Verif.Cook
