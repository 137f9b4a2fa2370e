import Verif.Inst.Lemmas2
/-!
# Instantiating a project — helper lemmas: that it ends, when it succeeds, and all root targets
-/
namespace Verif.Inst

open Verif.Build (Vis TType)
open Spec

theorem nodup_length_le : ∀ (n : Nat) (l : List Nat), l.Nodup → (∀ x ∈ l, x < n) → l.length ≤ n := by
  intro n
  induction n with
  | zero =>
    intro l _ h
    cases l with
    | nil => simp
    | cons x l => exact absurd (h x (by simp)) (by omega)
  | succ n ih =>
    intro l hn h
    have h1 := ih (l.erase n) (hn.erase n) (by
      intro x hx
      have h2 := (hn.mem_erase_iff).mp hx
      have := h x h2.2
      have := h2.1
      omega)
    rw [List.length_erase] at h1
    split at h1 <;> omega

theorem Spec.Reach.trans {P : Project} {a b c : Nat} (h1 : Reach P a b) (h2 : Reach P b c) : Reach P a c := by
  induction h1 with
  | refl => exact h2
  | step h _ ih => exact .step h (ih h2)

theorem Spec.Reach.lt {P : Project} {n a b : Nat} (hn : Below P n) (h : Reach P a b) (ha : a < n) : b < n := by
  induction h with
  | refl => exact ha
  | step h _ ih => exact ih (hn _ _ ha h)

/-- Where every chain ends there is no way back. -/
theorem no_way_back {P : Project} {s : Nat} (h : EndsFrom (Asks P) s) :
    ∀ t, Asks P s t → ¬ Reach P t s := by
  induction h with
  | intro s _ ih =>
    intro t hst hts
    cases hts with
    | refl => exact ih s hst s hst (.refl _)
    | @step _ u _ h1 h2 => exact ih t hst u h1 (h2.trans (.step hst (.refl _)))

/-- All sources with an entry are below `n`. -/
def AllBelow (st : St) (n : Nat) : Prop := ∀ e ∈ st.entries, e.src < n

theorem AllBelow.room {P : Project} {st : St} {n : Nat} (hb : AllBelow st n) (g : Good P st) {s : Nat}
    (hs : ¬ Has st.entries s) (hsn : s < n) : st.entries.length < n := by
  have := nodup_length_le n (s :: st.entries.map Entry.src) (List.nodup_cons.mpr ⟨hs, g.nodup⟩) (by
    intro x hx
    rcases List.mem_cons.mp hx with rfl | hx
    · exact hsn
    · obtain ⟨e, he, rfl⟩ := List.mem_map.mp hx
      exact hb e he)
  simp at this
  omega

theorem Step.below {P : Project} {s n : Nat} {st st' : St} {o : Option Nat} {new : List Entry}
    (h : Step P s st st' o new) (hn : Below P n) (hb : AllBelow st n) (hs : s < n) : AllBelow st' n := by
  intro e he
  rw [h.ent] at he
  rcases List.mem_append.mp he with he | he
  · exact hb e he
  · exact (h.reach e he).lt hn hs

theorem Step.longer {P : Project} {s : Nat} {st st' : St} {o : Option Nat} {new : List Entry}
    (h : Step P s st st' o new) : st.entries.length ≤ st'.entries.length := by
  rw [h.ent]; simp

theorem mid_length {a new : List Entry} {s : Nat} {x y : Option Dep} {st : St}
    (h : st.entries = a ++ ⟨s, x⟩ :: new) : (a ++ (⟨s, y⟩ : Entry) :: new).length = st.entries.length := by
  rw [h]; simp

theorem mid_below {a new : List Entry} {s : Nat} {x y : Option Dep} {st : St} {n : Nat}
    (h : st.entries = a ++ ⟨s, x⟩ :: new) (hb : AllBelow st n) :
    AllBelow { st with entries := a ++ ⟨s, y⟩ :: new } n := by
  intro e he
  rcases List.mem_append.mp he with he | he
  · exact hb e (by rw [h]; simp [he])
  · rcases List.mem_cons.mp he with rfl | he
    · exact hb ⟨s, x⟩ (by rw [h]; simp)
    · exact hb e (by rw [h]; simp [he])

/-! ## It always ends -/

theorem runTarget_ends {P : Project} {n k : Nat} (hn : Below P n) {rec : Nat → St → Res (St × Option Nat)}
    (hw : Works P rec)
    (hr : ∀ t st, Good P st → AllBelow st n → t < n → n ≤ k + st.entries.length → rec t st ≠ .deep)
    (a : List Entry) (s : Nat) (hs : s < n) :
    ∀ (post pre : List Act), (P.source s).body = .target (pre ++ post) →
    ∀ st d new, Mid P a s pre st d new → AllBelow st n → n ≤ k + st.entries.length →
    runTarget rec a.length post st ≠ .deep := by
  intro post
  induction post with
  | nil => intro pre _ st d new _ _ _; simp [runTarget]
  | cons x post ih =>
    intro pre hb st d new m ab hk
    have hb' : (P.source s).body = .target ((pre ++ [x]) ++ post) := by rw [hb]; simp
    cases x with
    | edit f =>
      rw [runTarget_edit m]
      exact ih _ hb' _ _ new (m.edit f) (mid_below m.ent ab) (by
        have := mid_length (y := some { d with data := f d.data }) m.ent
        simp only [this]; exact hk)
    | dep v t =>
      have hreq : Asks P s t := asks_of hb (v := v) (by simp)
      have ht : t < n := hn _ _ hs hreq
      cases h1 : rec t st with
      | loop u => simp [runTarget, h1, Res.bind]
      | twice u => simp [runTarget, h1, Res.bind]
      | deep => exact absurd h1 (hr t st m.good ab ht hk)
      | ok r =>
        obtain ⟨st1, o⟩ := r
        obtain ⟨sh1, new1, stp, m1, e1⟩ := runTarget_cons m hw v hreq post h1
        rw [e1]
        have ab1 := stp.below hn ab ht
        have hk1 : n ≤ k + st1.entries.length := by have := stp.longer; omega
        cases o with
        | none => exact ih _ hb' st1 d _ m1 ab1 hk1
        | some j =>
          simp only
          split
          · simp
          · rename_i hj
            exact ih _ hb' _ _ _ (m1.link v stp.ready hj) (mid_below m1.ent ab1) (by
              have := mid_length (y := some { d with deps := d.deps ++ [(v, j)] }) m1.ent
              simp only [this]; exact hk1)

theorem runExtern_ends {P : Project} {n k : Nat} (hn : Below P n) {rec : Nat → St → Res (St × Option Nat)}
    (hw : Works P rec)
    (hr : ∀ t st, Good P st → AllBelow st n → t < n → n ≤ k + st.entries.length → rec t st ≠ .deep)
    (s : Nat) (hs : s < n) : ∀ (acts : List Act), (∀ v t, Act.dep v t ∈ acts → Asks P s t) →
    ∀ st d, Good P st → AllBelow st n → n ≤ k + st.entries.length → runExtern rec acts st d ≠ .deep := by
  intro acts
  induction acts with
  | nil => intro _ st d _ _ _; simp [runExtern]
  | cons x acts ih =>
    intro ha st d g ab hk
    have ha' : ∀ v t, Act.dep v t ∈ acts → Asks P s t := fun v t h => ha v t (List.mem_cons_of_mem _ h)
    cases x with
    | edit f => exact ih ha' st _ g ab hk
    | dep v t =>
      have ht : t < n := hn _ _ hs (ha v t (by simp))
      simp only [runExtern]
      cases h1 : rec t st with
      | loop u => simp [Res.bind]
      | twice u => simp [Res.bind]
      | deep => exact absurd h1 (hr t st g ab ht hk)
      | ok r =>
        obtain ⟨st1, o⟩ := r
        obtain ⟨g1, -, new1, stp⟩ := hw t st st1 o g h1
        have ab1 := stp.below hn ab ht
        have hk1 : n ≤ k + st1.entries.length := by have := stp.longer; omega
        simp only [Res.bind]
        cases o with
        | none => exact ih ha' st1 d g1 ab1 hk1
        | some j => exact ih ha' st1 _ g1 ab1 hk1

theorem instantiate_ends {P : Project} {n : Nat} (hn : Below P n) :
    ∀ (fuel s : Nat) (root : Bool) (st : St), Good P st → AllBelow st n → s < n →
    n ≤ fuel + st.entries.length → instantiate P fuel s root st ≠ .deep := by
  intro fuel
  induction fuel with
  | zero =>
    intro s root st g ab hs hk
    rw [instantiate_eq]
    cases hf : st.find s with
    | none =>
      have := ab.room g (find_none.mp hf) hs
      omega
    | some i =>
      simp only
      split
      · split <;> simp
      · simp
  | succ fuel ih =>
    intro s root st g ab hs hk
    rw [instantiate_eq]
    cases hf : st.find s with
    | some i =>
      simp only
      split
      · split <;> simp
      · simp
    | none =>
      have hh := find_none.mp hf
      have hw := works_rec P fuel
      simp only
      have ab1 : ∀ (x : Option Dep) (sh : Option Nat), AllBelow { st with
          entries := st.entries ++ [⟨s, x⟩], shared := sh } n := by
        intro x sh e he
        rcases List.mem_append.mp he with he | he
        · exact ab e he
        · simp at he; subst he; exact hs
      cases hb : (P.source s).body with
      | target acts =>
        simp only
        have := runTarget_ends hn hw (k := fuel) (fun t st g ab ht hk => ih t false st g ab ht hk)
          st.entries s hs acts [] (by rw [hb]; rfl) _ _ _ (Mid.start g hh root) (ab1 _ _)
          (by simp; omega)
        revert this
        generalize runTarget _ _ _ _ = r
        cases r <;> simp [Res.bind]
      | extern =>
        simp only
        cases hc : chosen P s with
        | none => simp
        | some p =>
          simp only
          have := runExtern_ends hn hw (k := fuel) (fun t st g ab ht hk => ih t false st g ab ht hk)
            s hs (P.provider p).acts (fun v t h => ⟨v, by
              unfold requests; rw [hb, hc]; exact mem_asked.mpr h⟩) _ newExtern
              (MidE.start g hh hb).good (ab1 _ _)
            (by simp; omega)
          revert this
          generalize runExtern _ _ _ _ = r
          cases r with
          | ok r =>
            intro _
            simp only [Res.bind]
            split <;> simp
          | loop _ => simp [Res.bind]
          | twice _ => simp [Res.bind]
          | deep => simp

/-! ## It succeeds -/

/-- Nothing that is being instantiated can be reached. -/
def Clear (P : Project) (a : List Entry) (s : Nat) : Prop :=
  ∀ e ∈ a, ∀ d, e.dep = some d → d.init = false → ¬ Reach P s e.src

theorem mem_wanted {P : Project} {l : List (Vis × Nat)} {t : Nat} (h : some t ∈ (wanted P l).map (·.2)) :
    t ∈ (l.map (·.2)).filter (available P) := by
  unfold wanted at h
  simp only [List.map_map, List.mem_map, List.mem_filter, Function.comp, Option.some.injEq] at h
  obtain ⟨q, ⟨h1, h2⟩, rfl⟩ := h
  exact List.mem_filter.mpr ⟨List.mem_map.mpr ⟨q, h1, rfl⟩, h2⟩

theorem runTarget_ok {P : Project} {n k : Nat} (hn : Below P n)
    {rec : Nat → St → Res (St × Option Nat)} (hw : Works P rec) (hp : WorksP P rec)
    (hr : ∀ t st, Good P st → Acct P st → AllBelow st n → t < n → n ≤ k + st.entries.length →
      EndsFrom (Asks P) t → (∀ u, Reach P t u → NoRepeat P u) → Clear P st.entries t →
      ∃ r, rec t st = .ok r)
    (a : List Entry) (s : Nat) (hs : s < n) (he : EndsFrom (Asks P) s)
    (hrep : ∀ u, Reach P s u → NoRepeat P u) (hcl : Clear P a s) :
    ∀ (post pre : List Act), (P.source s).body = .target (pre ++ post) →
    ∀ st d new, Mid P a s pre st d new → Acct P st → edgesOf st.entries d.deps = wanted P (asked pre) →
    AllBelow st n → n ≤ k + st.entries.length → ∃ st', runTarget rec a.length post st = .ok st' := by
  intro post
  induction post with
  | nil => intro pre _ st d new _ _ _ _ _; exact ⟨st, rfl⟩
  | cons x post ih =>
    intro pre hb st d new m c ed ab hk
    have hb' : (P.source s).body = .target ((pre ++ [x]) ++ post) := by rw [hb]; simp
    have isT : IsTarget P s := ⟨_, hb⟩
    cases x with
    | edit f =>
      rw [runTarget_edit m]
      have le : Le st.entries (a ++ ⟨s, some { d with data := f d.data }⟩ :: new) :=
        m.ent ▸ Le.replace a new s (Open.of m.opened)
      refine ih _ hb' _ _ new (m.edit f) (c.replaceOpen m.good m.ent m.opened m.opened isT) ?_
        (mid_below m.ent ab) (by
        have := mid_length (y := some { d with data := f d.data }) m.ent
        simp only [this]; exact hk)
      simp only [edgesOf_mono le m.deps]
      rw [ed, asked_append]; simp [asked]
    | dep v t =>
      have hreq : Asks P s t := asks_of hb (v := v) (by simp)
      have ht : t < n := hn _ _ hs hreq
      have cl : Clear P st.entries t := by
        intro e hmem d' hd' hi hreach
        rw [m.ent] at hmem
        rcases List.mem_append.mp hmem with hmem | hmem
        · exact hcl e hmem d' hd' hi (.step hreq hreach)
        · rcases List.mem_cons.mp hmem with rfl | hmem
          · exact no_way_back he t hreq hreach
          · rw [m.settled e hmem d' hd'] at hi; cases hi
      obtain ⟨⟨st1, o⟩, h1⟩ := hr t st m.good c ab ht hk (he.inv hreq)
        (fun u hu => hrep u (.step hreq hu)) cl
      obtain ⟨sh1, new1, stp, m1, e1⟩ := runTarget_cons m hw v hreq post h1
      have c1 := hp t st st1 o m.good c h1
      rw [e1]
      have ab1 := stp.below hn ab ht
      have hk1 : n ≤ k + st1.entries.length := by have := stp.longer; omega
      have le1 : Le st.entries st1.entries := by rw [stp.ent]; exact Le.append _ _
      have ed1 : edgesOf st1.entries d.deps = wanted P (asked pre) := by
        rw [edgesOf_mono le1 m.deps, ed]
      have av := stp.available c1
      cases o with
      | none =>
        refine ih _ hb' st1 d _ m1 c1 ?_ ab1 hk1
        rw [wanted_one, ed1, av]; simp
      | some j =>
        obtain ⟨dj, hj, -⟩ := stp.found j rfl
        have hnot : j ∉ d.deps.map (·.2) := by
          intro hmem
          obtain ⟨q, hq, hqj⟩ := List.mem_map.mp hmem
          have h2 : some t ∈ (wanted P (asked pre)).map (·.2) := by
            rw [← ed1]
            refine List.mem_map.mpr ⟨(q.1, srcAt st1.entries q.2), List.mem_map.mpr ⟨q, hq, rfl⟩, ?_⟩
            simp [hqj, srcAt, hj]
          have h3 := mem_wanted h2
          have h4 := hrep s (.refl _) isT
          have h5 : requests P s = asked pre ++ (v, t) :: asked post := by
            unfold requests; rw [hb]
            simp only
            rw [asked_append]; rfl
          rw [h5] at h4
          simp only [List.map_append, List.map_cons, List.filter_append] at h4
          rw [List.filter_cons, if_pos (by rw [av]; rfl)] at h4
          exact (List.nodup_append.mp h4).2.2 t h3 t (by simp) rfl
        simp only
        rw [if_neg hnot]
        have le2 : Le st1.entries (a ++ ⟨s, some { d with deps := d.deps ++ [(v, j)] }⟩ :: (new ++ new1)) := by
          have := Le.replace a (new ++ new1) s (x := some d)
            (y := some { d with deps := d.deps ++ [(v, j)] }) (Open.of m.opened)
          rwa [← m1.ent] at this
        refine ih _ hb' _ _ _ (m1.link v stp.ready hnot)
          (c1.replaceOpen m1.good m1.ent m.opened m.opened isT) ?_ (mid_below m1.ent ab1) (by
              have := mid_length (y := some { d with deps := d.deps ++ [(v, j)] }) m1.ent
              simp only [this]; exact hk1)
        have : ∀ p ∈ d.deps ++ [(v, j)], Ready st1.entries p.2 := by
          intro p hp
          rcases List.mem_append.mp hp with hp | hp
          · exact m1.deps p hp
          · simp at hp; subst hp; exact stp.ready
        simp only [edgesOf_mono le2 this]
        rw [wanted_one, av, ← ed1]
        simp [edgesOf, srcAt, hj]

theorem instantiate_ok {P : Project} {n : Nat} (hP : Plain P) (hn : Below P n) :
    ∀ (fuel s : Nat) (root : Bool) (st : St), Good P st → Acct P st → AllBelow st n → s < n →
    n ≤ fuel + st.entries.length → EndsFrom (Asks P) s → (∀ u, Reach P s u → NoRepeat P u) →
    Clear P st.entries s → ∃ r, instantiate P fuel s root st = .ok r := by
  intro fuel
  induction fuel with
  | zero =>
    intro s root st g c ab hs hk he hrep hcl
    rw [instantiate_eq]
    cases hf : st.find s with
    | none =>
      have := ab.room g (find_none.mp hf) hs
      omega
    | some i =>
      simp only
      obtain ⟨e, hei, hes⟩ := find_some hf
      rw [depAt_of hei]
      cases hd : e.dep with
      | none => exact ⟨_, rfl⟩
      | some d =>
        simp only
        cases hi : d.init with
        | true => exact ⟨_, rfl⟩
        | false => exact absurd (by rw [hes]; exact .refl s) (hcl e (List.mem_of_getElem? hei) d hd hi)
  | succ fuel ih =>
    intro s root st g c ab hs hk he hrep hcl
    rw [instantiate_eq]
    cases hf : st.find s with
    | some i =>
      simp only
      obtain ⟨e, hei, hes⟩ := find_some hf
      rw [depAt_of hei]
      cases hd : e.dep with
      | none => exact ⟨_, rfl⟩
      | some d =>
        simp only
        cases hi : d.init with
        | true => exact ⟨_, rfl⟩
        | false => exact absurd (by rw [hes]; exact .refl s) (hcl e (List.mem_of_getElem? hei) d hd hi)
    | none =>
      have hh := find_none.mp hf
      have hw := works_rec P fuel
      have hp : WorksP P (fun t st => instantiate P fuel t false st) := fun t st st' o g c h =>
        instantiate_plain hP fuel t false st st' o g c h
      simp only
      cases hb : (P.source s).body with
      | target acts =>
        simp only
        have isT : IsTarget P s := ⟨_, hb⟩
        have c1 := c.add g hh (x := some (newTarget (P.source s).name
            (if root then some st.entries.length else st.shared))) (by simp [target_available isT])
          (by intro d hd hi; cases hd; simp [newTarget] at hi)
          (by intro d _ hx; rw [hb] at hx; cases hx)
          (if root then some st.entries.length else st.shared)
          (u := st.unselected) (v := st.uninstalled) (by intro t; simp [hb]) (by intro p; simp [hb])
          c.unselOnce c.uninstOnce
        obtain ⟨st2, h2⟩ := runTarget_ok hn hw hp (k := fuel)
          (fun t st g c ab ht hk he hr hc => ih t false st g c ab ht hk he hr hc)
          st.entries s hs he hrep hcl acts [] (by rw [hb]; rfl) _ _ _ (Mid.start g hh root) c1
          (by simp [newTarget, edgesOf, wanted, asked])
          (by
            intro e he
            rcases List.mem_append.mp he with he | he
            · exact ab e he
            · simp at he; subst he; exact hs)
          (by simp; omega)
        rw [h2]
        exact ⟨_, rfl⟩
      | extern =>
        simp only
        cases hc : chosen P s with
        | none => exact ⟨_, rfl⟩
        | some p =>
          simp only
          rw [runExtern_plain _ _ (hP p)]
          simp only [Res.bind]
          split <;> exact ⟨_, rfl⟩

/-! ## All root targets -/

/-- Nothing is left half done. -/
def Settled (st : St) : Prop := ∀ e ∈ st.entries, ∀ d, e.dep = some d → d.init = true

theorem roots_works (P : Project) (fuel : Nat) : ∀ (roots : List (Nat × Bool)) (st st' : St), Good P st →
    Settled st → instantiateRoots P fuel roots st = .ok st' →
    Good P st' ∧ Settled st' ∧ (Plain P → Acct P st → Acct P st') ∧
    (∃ new, st'.entries = st.entries ++ new ∧ ∀ e ∈ new, ∃ r ∈ roots, Reach P r.1 e.src) ∧
    ∀ r ∈ roots, Has st'.entries r.1 := by
  intro roots
  induction roots with
  | nil =>
    intro st st' g sd h
    simp only [instantiateRoots, Res.ok.injEq] at h
    subst h
    exact ⟨g, sd, fun _ c => c, ⟨[], by simp, by simp⟩, by simp⟩
  | cons r roots ih =>
    intro st st' g sd h
    simp only [instantiateRoots] at h
    obtain ⟨⟨st1, o⟩, h1, h2⟩ := Res.bind_ok.mp h
    obtain ⟨g1, -, new1, stp⟩ := instantiate_works P fuel r.1 r.2 st st1 o g h1
    have sd1 : Settled st1 := by
      intro e he
      rw [stp.ent] at he
      rcases List.mem_append.mp he with he | he
      · exact sd e he
      · exact stp.settled e he
    obtain ⟨g2, sd2, c2, ⟨new2, e2, r2⟩, h3⟩ := ih st1 st' g1 sd1 h2
    refine ⟨g2, sd2, fun hP c => c2 hP (instantiate_plain hP fuel r.1 r.2 st st1 o g c h1),
      ⟨new1 ++ new2, by rw [e2, stp.ent]; simp, ?_⟩, ?_⟩
    · intro e he
      rcases List.mem_append.mp he with he | he
      · exact ⟨r, by simp, stp.reach e he⟩
      · obtain ⟨q, hq, hr⟩ := r2 e he
        exact ⟨q, List.mem_cons_of_mem _ hq, hr⟩
    · intro q hq
      rcases List.mem_cons.mp hq with rfl | hq
      · refine stp.has.mono ?_
        rw [e2]; exact Le.append _ _
      · exact h3 q hq

theorem roots_start {P : Project} {fuel : Nat} {roots : List (Nat × Bool)} {st : St}
    (h : instantiateRoots P fuel roots St.start = .ok st) :
    Good P st ∧ Settled st ∧ (Plain P → Acct P st) ∧
    (∀ e ∈ st.entries, ∃ r ∈ roots, Reach P r.1 e.src) ∧ ∀ r ∈ roots, Has st.entries r.1 := by
  obtain ⟨g, sd, c, ⟨new, e, r⟩, h3⟩ := roots_works P fuel roots St.start st (Good.start P)
    (by simp [Settled, St.start]) h
  refine ⟨g, sd, fun hP => c hP (Acct.start P), ?_, h3⟩
  rw [e]
  simpa [St.start] using r

theorem roots_ends {P : Project} {n : Nat} (hn : Below P n) {fuel : Nat} (hf : n ≤ fuel) :
    ∀ (roots : List (Nat × Bool)) (st : St), Good P st → AllBelow st n → (∀ r ∈ roots, r.1 < n) →
    instantiateRoots P fuel roots st ≠ .deep := by
  intro roots
  induction roots with
  | nil => intro st _ _ _; simp [instantiateRoots]
  | cons r roots ih =>
    intro st g ab hr
    simp only [instantiateRoots]
    have h0 := instantiate_ends hn fuel r.1 r.2 st g ab (hr r (by simp)) (by omega)
    cases h1 : instantiate P fuel r.1 r.2 st with
    | loop _ => simp [Res.bind]
    | twice _ => simp [Res.bind]
    | deep => exact absurd h1 h0
    | ok q =>
      obtain ⟨st1, o⟩ := q
      obtain ⟨g1, -, new1, stp⟩ := instantiate_works P fuel r.1 r.2 st st1 o g h1
      exact ih st1 g1 (stp.below hn ab (hr r (by simp))) (fun q hq => hr q (List.mem_cons_of_mem _ hq))

theorem roots_ok {P : Project} {n : Nat} (hP : Plain P) (hn : Below P n) {fuel : Nat} (hf : n ≤ fuel) :
    ∀ (roots : List (Nat × Bool)) (st : St), Good P st → Acct P st → Settled st → AllBelow st n →
    (∀ r ∈ roots, r.1 < n ∧ EndsFrom (Asks P) r.1 ∧ ∀ u, Reach P r.1 u → NoRepeat P u) →
    ∃ st', instantiateRoots P fuel roots st = .ok st' := by
  intro roots
  induction roots with
  | nil => intro st _ _ _ _ _; exact ⟨st, rfl⟩
  | cons r roots ih =>
    intro st g c sd ab hr
    simp only [instantiateRoots]
    obtain ⟨h1, h2, h3⟩ := hr r (by simp)
    obtain ⟨⟨st1, o⟩, h4⟩ := instantiate_ok hP hn fuel r.1 r.2 st g c ab h1 (by omega) h2 h3
      (by intro e he d hd hi; rw [sd e he d hd] at hi; cases hi)
    rw [h4]
    obtain ⟨g1, -, new1, stp⟩ := instantiate_works P fuel r.1 r.2 st st1 o g h4
    have sd1 : Settled st1 := by
      intro e he
      rw [stp.ent] at he
      rcases List.mem_append.mp he with he | he
      · exact sd e he
      · exact stp.settled e he
    exact ih st1 g1 (instantiate_plain hP fuel r.1 r.2 st st1 o g c h4) sd1 (stp.below hn ab h1)
      (fun q hq => hr q (List.mem_cons_of_mem _ hq))

/-- Under `Plain`, an entry has all that its source asks for. -/
theorem has_asked {P : Project} {st : St} (hP : Plain P) (g : Good P st) (sd : Settled st) {s t : Nat}
    (h : Has st.entries s) (ha : Asks P s t) : Has st.entries t := by
  obtain ⟨j, e, he, rfl⟩ := has_iff.mp h
  cases hd : e.dep with
  | none =>
    have hb := g.kind e (List.mem_of_getElem? he) hd
    obtain ⟨v, hv⟩ := ha
    rw [plain_requests hP hb] at hv; cases hv
  | some d =>
    exact (g.final j e d he hd (sd e (List.mem_of_getElem? he) d hd)).closed t ha

theorem has_reach {P : Project} {st : St} (hP : Plain P) (g : Good P st) (sd : Settled st) {s t : Nat}
    (h : Has st.entries s) (ha : Reach P s t) : Has st.entries t := by
  induction ha with
  | refl => exact h
  | step h1 _ ih => exact ih (has_asked hP g sd h h1)

/-- Without requests of externs, chains through targets are all there is. -/
theorem ends_plain {P : Project} (hP : Plain P) {s : Nat} (h : EndsFrom (TargetAsks P) s)
    (hs : IsTarget P s) : EndsFrom (Asks P) s := by
  unfold EndsFrom at h
  induction h with
  | intro s _ ih =>
    refine Acc.intro _ fun t ht => ?_
    cases hb : (P.source t).body with
    | target acts => exact ih t ⟨hs, ⟨_, hb⟩, ht⟩ ⟨_, hb⟩
    | extern =>
      refine Acc.intro _ fun u hu => ?_
      obtain ⟨v, hv⟩ := hu
      rw [plain_requests hP hb] at hv; cases hv

theorem srcAt_inj {a : List Entry} (hn : (a.map (·.src)).Nodup) {i j : Nat} {s : Nat}
    (hi : srcAt a i = some s) (hj : srcAt a j = some s) : i = j := by
  have conv : ∀ k, srcAt a k = (a.map (·.src))[k]? := by intro k; simp [srcAt]
  rw [conv] at hi hj
  obtain ⟨hi1, hi2⟩ := List.getElem?_eq_some_iff.mp hi
  obtain ⟨hj1, hj2⟩ := List.getElem?_eq_some_iff.mp hj
  have pw := List.pairwise_iff_getElem.mp hn
  rcases Nat.lt_trichotomy i j with h | h | h
  · exact absurd (hi2.trans hj2.symm) (pw i j hi1 hj1 h)
  · exact h
  · exact absurd (hj2.trans hi2.symm) (pw j i hj1 hi1 h)

theorem noRepeat_of {P : Project} {st : St} (g : Good P st) (sd : Settled st) (c : Acct P st) {s : Nat}
    (h : Has st.entries s) : NoRepeat P s := by
  intro ht
  obtain ⟨j, e, he, rfl⟩ := has_iff.mp h
  cases hd : e.dep with
  | none =>
    have hb := g.kind e (List.mem_of_getElem? he) hd
    obtain ⟨acts, ha⟩ := ht
    rw [hb] at ha; cases ha
  | some d =>
    have hi := sd e (List.mem_of_getElem? he) d hd
    have f := g.final j e d he hd hi
    have ed := c.edges j e d he hd hi
    have e1 : (edgesOf st.entries d.deps).map (·.2) =
        (((requests P e.src).map (·.2)).filter (available P)).map some := by
      rw [ed]
      unfold wanted
      rw [List.map_map, List.filter_map, List.map_map]
      rfl
    have n1 : ((edgesOf st.entries d.deps).map (·.2)).Nodup := by
      unfold edgesOf
      rw [List.map_map]
      have := f.once
      unfold List.Nodup at this ⊢
      rw [List.pairwise_map] at this ⊢
      refine List.Pairwise.imp_of_mem ?_ this
      intro p q hp hq hne heq
      apply hne
      obtain ⟨e', d', h1, -, -⟩ := f.deps p hp
      exact srcAt_inj g.nodup (s := e'.src) (by simp [srcAt, h1])
        (by rw [← show srcAt st.entries p.2 = srcAt st.entries q.2 from heq]; simp [srcAt, h1])
    rw [e1] at n1
    unfold List.Nodup at n1 ⊢
    rw [List.pairwise_map] at n1
    exact n1.imp (fun h1 h2 => h1 (by rw [h2]))

end Verif.Inst
