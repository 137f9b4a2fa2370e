import Verif.Inst.Lemmas
/-!
# Instantiating a project — helper lemmas: what is linked, and when it succeeds
-/
namespace Verif.Inst

open Verif.Build (Vis TType)
open Spec

/-- The source of the entry with this index. -/
def srcAt (a : List Entry) (j : Nat) : Option Nat := (a[j]?).map (·.src)

theorem srcAt_mono {a b : List Entry} (h : Le a b) {j : Nat} (hr : Ready a j) : srcAt b j = srcAt a j := by
  obtain ⟨e, d, g, -, -⟩ := hr
  obtain ⟨e', g', hs, -⟩ := h j e g
  simp [srcAt, g, g', hs]

/-- The dependencies by their sources. -/
def edgesOf (a : List Entry) (deps : List (Vis × Nat)) : List (Vis × Option Nat) :=
  deps.map fun p => (p.1, srcAt a p.2)

theorem edgesOf_mono {a b : List Entry} (h : Le a b) {deps : List (Vis × Nat)}
    (hr : ∀ p ∈ deps, Ready a p.2) : edgesOf b deps = edgesOf a deps := by
  unfold edgesOf
  refine List.map_congr_left fun p hp => ?_
  rw [srcAt_mono h (hr p hp)]

/-- The dependencies asked for that are available. -/
def wanted (P : Project) (l : List (Vis × Nat)) : List (Vis × Option Nat) :=
  (l.filter (fun q => available P q.2)).map fun q => (q.1, some q.2)

theorem wanted_append (P : Project) (a b : List (Vis × Nat)) :
    wanted P (a ++ b) = wanted P a ++ wanted P b := by simp [wanted]

/-- What holds in addition if extern functions ask for nothing. -/
structure Acct (P : Project) (st : St) : Prop where
  avail : ∀ e ∈ st.entries, e.dep.isSome = available P e.src
  edges : ∀ (i : Nat) (e : Entry) (d : Dep), st.entries[i]? = some e → e.dep = some d → d.init = true →
    edgesOf st.entries d.deps = wanted P (requests P e.src)
  exts : ∀ e ∈ st.entries, ∀ d, e.dep = some d → (P.source e.src).body = .extern →
    ∃ p, chosen P e.src = some p ∧ d.data = edited (P.provider p).acts {}
  unsel : ∀ s, s ∈ st.unselected ↔ Has st.entries s ∧ (P.source s).body = .extern ∧ chosen P s = none
  unselOnce : st.unselected.Nodup
  uninst : ∀ p, p ∈ st.uninstalled ↔ ∃ s, Has st.entries s ∧ (P.source s).body = .extern ∧
    chosen P s = some p ∧ (P.provider p).installed = false
  uninstOnce : st.uninstalled.Nodup

theorem Acct.start (P : Project) : Acct P St.start := by
  refine ⟨?_, ?_, ?_, ?_, ?_, ?_, ?_⟩ <;> simp [St.start, Has]

theorem addNew_mem {l : List Nat} {x y : Nat} : y ∈ addNew l x ↔ y ∈ l ∨ y = x := by
  unfold addNew; split <;> simp_all

theorem addNew_nodup {l : List Nat} (h : l.Nodup) (x : Nat) : (addNew l x).Nodup := by
  unfold addNew
  split
  · exact h
  · refine List.nodup_append.mpr ⟨h, by simp, ?_⟩
    intro a ha b hb
    simp at hb; subst hb
    intro h; subst h; contradiction

theorem has_append {a b : List Entry} {s : Nat} : Has (a ++ b) s ↔ Has a s ∨ Has b s := by
  simp [Has]

/-- Exchanging an entry that is not complete for one that is not either. -/
theorem Acct.replaceOpen {P : Project} {st : St} (c : Acct P st) (g : Good P st) {a b : List Entry} {s : Nat}
    {d d' : Dep} (he : st.entries = a ++ ⟨s, some d⟩ :: b) (hx : d.init = false) (hy : d'.init = false)
    (ht : IsTarget P s) :
    Acct P { st with entries := a ++ ⟨s, some d'⟩ :: b } := by
  have le : Le st.entries (a ++ ⟨s, some d'⟩ :: b) := he ▸ Le.replace a b s (Open.of hx)
  have old : ∀ (i : Nat) (e : Entry), i ≠ a.length → (a ++ ⟨s, some d'⟩ :: b)[i]? = some e →
      st.entries[i]? = some e := by
    intro i e hi h
    rw [he]
    rcases Nat.lt_or_ge i a.length with h1 | h1
    · rw [List.getElem?_append_left h1] at h ⊢; exact h
    · rw [List.getElem?_append_right h1] at h ⊢
      obtain ⟨k, hk⟩ : ∃ k, i - a.length = k + 1 := ⟨i - a.length - 1, by omega⟩
      rw [hk] at h ⊢
      simpa using h
  have mem : ∀ e ∈ a ++ ⟨s, some d'⟩ :: b, e = ⟨s, some d'⟩ ∨ e ∈ st.entries := by
    intro e h
    rw [he]
    rcases List.mem_append.mp h with h | h
    · simp [h]
    · rcases List.mem_cons.mp h with h | h
      · exact .inl h
      · simp [h]
  have has : ∀ t, Has (a ++ ⟨s, some d'⟩ :: b) t ↔ Has st.entries t := by
    intro t; rw [he]; simp [Has]
  refine ⟨?_, ?_, ?_, ?_, c.unselOnce, ?_, c.uninstOnce⟩
  · intro e h
    rcases mem e h with rfl | h
    · have := c.avail ⟨s, some d⟩ (by rw [he]; simp)
      exact this
    · exact c.avail e h
  · intro i e d1 h hd hi
    by_cases hia : i = a.length
    · subst hia
      rw [get_mid] at h; cases h; cases hd
      rw [hy] at hi; cases hi
    · have h' := old i e hia h
      show edgesOf (a ++ ⟨s, some d'⟩ :: b) d1.deps = _
      rw [edgesOf_mono le (fun p hp => (g.final i e d1 h' hd hi).deps p hp)]
      exact c.edges i e d1 h' hd hi
  · intro e h d1 hd hb
    rcases mem e h with rfl | h
    · obtain ⟨acts, ha⟩ := ht
      simp only [ha] at hb; cases hb
    · exact c.exts e h d1 hd hb
  · intro t; rw [has]; exact c.unsel t
  · intro p
    rw [c.uninst p]
    constructor
    · rintro ⟨t, h1, h2⟩; exact ⟨t, (has t).mpr h1, h2⟩
    · rintro ⟨t, h1, h2⟩; exact ⟨t, (has t).mp h1, h2⟩

/-- What `instantiate` with some fuel is known to do if extern functions ask for nothing. -/
def WorksP (P : Project) (rec : Nat → St → Res (St × Option Nat)) : Prop :=
  ∀ s st st' o, Good P st → Acct P st → rec s st = .ok (st', o) → Acct P st'

theorem target_available {P : Project} {s : Nat} (h : IsTarget P s) : available P s = true := by
  obtain ⟨acts, ha⟩ := h
  unfold available; rw [ha]

theorem Step.available {P : Project} {t : Nat} {st st1 : St} {o : Option Nat} {new1 : List Entry}
    (stp : Step P t st st1 o new1) (c : Acct P st1) : Spec.available P t = o.isSome := by
  cases o with
  | none =>
    have := c.avail _ (stp.missing rfl)
    exact this.symm
  | some j =>
    obtain ⟨dj, hj, hji⟩ := stp.found j rfl
    have := c.avail _ (List.mem_of_getElem? hj)
    exact this.symm

theorem wanted_one (P : Project) (pre : List Act) (v : Vis) (t : Nat) :
    wanted P (asked (pre ++ [Act.dep v t])) =
      wanted P (asked pre) ++ if available P t then [(v, some t)] else [] := by
  rw [asked_append, wanted_append]
  simp only [asked, wanted, List.filter_cons, List.filter_nil]
  split <;> simp

theorem runTarget_plain {P : Project} {rec : Nat → St → Res (St × Option Nat)} (hw : Works P rec)
    (hp : WorksP P rec) (a : List Entry) (s : Nat) :
    ∀ (post pre : List Act), (P.source s).body = .target (pre ++ post) →
    ∀ st d new st', Mid P a s pre st d new → Acct P st →
    edgesOf st.entries d.deps = wanted P (asked pre) → runTarget rec a.length post st = .ok st' →
    ∃ d' new', Mid P a s (pre ++ post) st' d' new' ∧ Acct P st' ∧
      edgesOf st'.entries d'.deps = wanted P (asked (pre ++ post)) := by
  intro post
  induction post with
  | nil =>
    intro pre _ st d new st' m c e h
    simp only [runTarget, Res.ok.injEq] at h
    subst h
    exact ⟨d, new, by simpa using m, c, by simpa using e⟩
  | cons x post ih =>
    intro pre hb st d new st' m c e h
    have hb' : (P.source s).body = .target ((pre ++ [x]) ++ post) := by rw [hb]; simp
    have eq : pre ++ x :: post = (pre ++ [x]) ++ post := by simp
    have isT : IsTarget P s := ⟨_, hb⟩
    rw [eq]
    cases x with
    | edit f =>
      rw [runTarget_edit m] at h
      have le : Le st.entries (a ++ ⟨s, some { d with data := f d.data }⟩ :: new) :=
        m.ent ▸ Le.replace a new s (Open.of m.opened)
      refine ih _ hb' _ _ new st' (m.edit f) (c.replaceOpen m.good m.ent m.opened ?_ isT) ?_ h
      · exact m.opened
      · simp only [edgesOf_mono le m.deps]
        rw [e, asked_append]; simp [asked]
    | dep v t =>
      have hreq : Asks P s t := asks_of hb (v := v) (by simp)
      obtain ⟨⟨st1, o⟩, h1, -⟩ := Res.bind_ok.mp h
      obtain ⟨sh1, new1, stp, m1, e1⟩ := runTarget_cons m hw v hreq post h1
      have c1 := hp t st st1 o m.good c h1
      have le1 : Le st.entries st1.entries := by rw [stp.ent]; exact Le.append _ _
      have ed1 : edgesOf st1.entries d.deps = wanted P (asked pre) := by
        rw [edgesOf_mono le1 m.deps, e]
      have av := stp.available c1
      rw [e1] at h
      cases o with
      | none =>
        refine ih _ hb' st1 d (new ++ new1) st' m1 c1 ?_ h
        rw [wanted_one, ed1, av]; simp
      | some j =>
        simp only at h
        split at h
        · cases h
        · rename_i hn
          have le2 : Le st1.entries (a ++ ⟨s, some { d with deps := d.deps ++ [(v, j)] }⟩ :: (new ++ new1)) := by
            have := Le.replace a (new ++ new1) s (x := some d)
              (y := some { d with deps := d.deps ++ [(v, j)] }) (Open.of m.opened)
            rwa [← m1.ent] at this
          refine ih _ hb' _ _ _ st' (m1.link v stp.ready hn)
            (c1.replaceOpen m1.good m1.ent m.opened ?_ isT) ?_ h
          · exact m.opened
          · have : ∀ p ∈ d.deps ++ [(v, j)], Ready st1.entries p.2 := by
              intro p hp
              rcases List.mem_append.mp hp with hp | hp
              · exact m1.deps p hp
              · simp at hp; subst hp; exact stp.ready
            simp only [edgesOf_mono le2 this]
            obtain ⟨dj, hj, -⟩ := stp.found j rfl
            rw [wanted_one, av, ← ed1]
            simp [edgesOf, srcAt, hj]

/-- Extern functions that ask for nothing. -/
theorem runExtern_plain (rec : Nat → St → Res (St × Option Nat)) : ∀ (acts : List Act), asked acts = [] →
    ∀ st d, runExtern rec acts st d = .ok (st, { d with data := edited acts d.data }) := by
  intro acts
  induction acts with
  | nil => intro _ st d; rfl
  | cons x acts ih =>
    intro h st d
    cases x with
    | dep v t => simp [asked] at h
    | edit f => exact ih h st _

/-- Adding an entry to the accounts. -/
theorem Acct.add {P : Project} {st : St} (c : Acct P st) (g : Good P st) {s : Nat} (hs : ¬ Has st.entries s)
    {x : Option Dep} (hav : x.isSome = Spec.available P s)
    (hed : ∀ d, x = some d → d.init = true → d.deps = [] ∧ wanted P (requests P s) = [])
    (hex : ∀ d, x = some d → (P.source s).body = .extern →
      ∃ p, chosen P s = some p ∧ d.data = edited (P.provider p).acts {})
    (sh : Option Nat) {u v : List Nat}
    (hu : ∀ t, t ∈ u ↔ t ∈ st.unselected ∨ (t = s ∧ (P.source s).body = .extern ∧ chosen P s = none))
    (hv : ∀ p, p ∈ v ↔ p ∈ st.uninstalled ∨ ((P.source s).body = .extern ∧
      chosen P s = some p ∧ (P.provider p).installed = false))
    (hun : u.Nodup) (hvn : v.Nodup) :
    Acct P ⟨st.entries ++ [⟨s, x⟩], sh, u, v⟩ := by
  have le : Le st.entries (st.entries ++ [⟨s, x⟩]) := Le.append _ _
  have has : ∀ t, Has (st.entries ++ [⟨s, x⟩]) t ↔ Has st.entries t ∨ t = s := by
    intro t; rw [has_append]; simp [Has]
  refine ⟨?_, ?_, ?_, ?_, hun, ?_, hvn⟩
  · intro e h
    rcases List.mem_append.mp h with h | h
    · exact c.avail e h
    · simp at h; subst h; exact hav
  · intro i e d h hd hi
    by_cases hlt : i < st.entries.length
    · simp only [List.getElem?_append_left hlt] at h
      simp only [edgesOf_mono le (fun p hp => (g.final i e d h hd hi).deps p hp)]
      exact c.edges i e d h hd hi
    · simp only [List.getElem?_append_right (Nat.le_of_not_lt hlt)] at h
      have : i - st.entries.length = 0 := by
        have := (List.getElem?_eq_some_iff.mp h).1; simp at this; omega
      rw [this] at h
      simp at h; subst h
      obtain ⟨h1, h2⟩ := hed d hd hi
      simp [h1, h2, edgesOf]
  · intro e h d hd hb
    rcases List.mem_append.mp h with h | h
    · exact c.exts e h d hd hb
    · simp at h; subst h; exact hex d hd hb
  · intro t
    simp only [has]
    rw [hu, c.unsel]
    constructor
    · rintro (⟨h1, h2⟩ | ⟨rfl, h2⟩)
      · exact ⟨.inl h1, h2⟩
      · exact ⟨.inr rfl, h2⟩
    · rintro ⟨h1 | rfl, h2⟩
      · exact .inl ⟨h1, h2⟩
      · exact .inr ⟨rfl, h2⟩
  · intro p
    simp only [has]
    rw [hv, c.uninst]
    constructor
    · rintro (⟨t, h1, h2⟩ | h2)
      · exact ⟨t, .inl h1, h2⟩
      · exact ⟨s, .inr rfl, h2⟩
    · rintro ⟨t, h1 | rfl, h2⟩
      · exact .inl ⟨t, h1, h2⟩
      · exact .inr h2

theorem plain_requests {P : Project} (hP : Plain P) {s : Nat} (hb : (P.source s).body = .extern) :
    requests P s = [] := by
  unfold requests
  rw [hb]
  cases chosen P s with
  | none => rfl
  | some p => exact hP p

theorem instantiate_plain {P : Project} (hP : Plain P) :
    ∀ (fuel s : Nat) (root : Bool) (st st' : St) (o : Option Nat),
    Good P st → Acct P st → instantiate P fuel s root st = .ok (st', o) → Acct P st' := by
  intro fuel
  induction fuel with
  | zero =>
    intro s root st st' o g c h
    by_cases hs : Has st.entries s
    · obtain ⟨rfl, -⟩ := instantiate_found hs h
      exact c
    · rw [instantiate_eq, find_none.mpr hs] at h
      cases h
  | succ fuel ih =>
    intro s root st st' o g c h
    by_cases hs : Has st.entries s
    · obtain ⟨rfl, -⟩ := instantiate_found hs h
      exact c
    have hw := works_rec P fuel
    have hp : WorksP P (fun t st => instantiate P fuel t false st) := fun t st st' o g c h =>
      ih t false st st' o g c h
    rw [instantiate_eq, find_none.mpr hs] at h
    simp only at h
    cases hb : (P.source s).body with
    | target acts =>
      rw [hb] at h
      simp only at h
      obtain ⟨st2, h1, h2⟩ := Res.bind_ok.mp h
      have isT : IsTarget P s := ⟨_, hb⟩
      have c1 := c.add g hs (x := some (newTarget (P.source s).name
          (if root then some st.entries.length else st.shared))) (by simp [target_available isT])
        (by intro d hd hi; cases hd; simp [newTarget] at hi)
        (by intro d _ hx; rw [hb] at hx; cases hx)
        (if root then some st.entries.length else st.shared)
        (u := st.unselected) (v := st.uninstalled) (by intro t; simp [hb]) (by intro p; simp [hb])
        c.unselOnce c.uninstOnce
      obtain ⟨d, new, m, c2, e2⟩ := runTarget_plain hw hp st.entries s acts [] (by rw [hb]; rfl) _ _ _ st2
        (Mid.start g hs root) c1 (by simp [newTarget, edgesOf, wanted, asked]) h1
      rw [List.nil_append] at m e2
      simp only [Res.ok.injEq, Prod.mk.injEq] at h2
      rw [modDep_mid _ m.ent] at h2
      obtain ⟨rfl, rfl⟩ := h2
      have le : Le st2.entries (st.entries ++ ⟨s, some { d with
          data := finish root st2.shared.isSome d.data, init := true }⟩ :: new) := by
        have := Le.replace st.entries new s (x := some d) (y := some { d with
          data := finish root st2.shared.isSome d.data, init := true }) (Open.of m.opened)
        rwa [← m.ent] at this
      have hreq : requests P s = asked acts := by unfold requests; rw [hb]
      -- first as an entry that is still open, then complete
      have cOpen := c2.replaceOpen m.good m.ent m.opened (d' := { d with
          data := finish root st2.shared.isSome d.data }) m.opened isT
      have old : ∀ (i : Nat) (e : Entry), i ≠ st.entries.length → (st.entries ++ ⟨s, some { d with
          data := finish root st2.shared.isSome d.data, init := true }⟩ :: new)[i]? = some e →
          st2.entries[i]? = some e := by
        intro i e hi h
        rw [m.ent]
        rcases Nat.lt_or_ge i st.entries.length with h1 | h1
        · rw [List.getElem?_append_left h1] at h ⊢; exact h
        · rw [List.getElem?_append_right h1] at h ⊢
          obtain ⟨k, hk⟩ : ∃ k, i - st.entries.length = k + 1 := ⟨i - st.entries.length - 1, by omega⟩
          rw [hk] at h ⊢
          simpa using h
      refine ⟨?_, ?_, ?_, ?_, cOpen.unselOnce, ?_, cOpen.uninstOnce⟩
      · intro e he
        rcases List.mem_append.mp he with he | he
        · exact cOpen.avail e (List.mem_append_left _ he)
        · rcases List.mem_cons.mp he with rfl | he
          · simp [target_available isT]
          · exact cOpen.avail e (List.mem_append_right _ (List.mem_cons_of_mem _ he))
      · intro i e d1 h hd hi
        by_cases hia : i = st.entries.length
        · subst hia
          simp only [get_mid] at h; cases h; cases hd
          simp only [edgesOf_mono le m.deps]
          rw [e2, hreq]
        · have h' := old i e hia h
          simp only [edgesOf_mono le (fun p hp => (m.good.final i e d1 h' hd hi).deps p hp)]
          exact c2.edges i e d1 h' hd hi
      · intro e he d1 hd hb'
        rcases List.mem_append.mp he with he | he
        · exact cOpen.exts e (List.mem_append_left _ he) d1 hd hb'
        · rcases List.mem_cons.mp he with rfl | he
          · simp only [hb] at hb'; cases hb'
          · exact cOpen.exts e (List.mem_append_right _ (List.mem_cons_of_mem _ he)) d1 hd hb'
      · intro t
        have := cOpen.unsel t
        simpa [Has] using this
      · intro p
        have := cOpen.uninst p
        simpa [Has] using this
    | extern =>
      rw [hb] at h
      simp only at h
      have hreq := plain_requests hP hb
      cases hc : chosen P s with
      | none =>
        rw [hc] at h
        simp only [Res.ok.injEq, Prod.mk.injEq] at h
        obtain ⟨rfl, rfl⟩ := h
        refine c.add g hs (x := none) (by simp [available, hb, hc]) (by simp) (by simp) _ ?_ ?_
          (addNew_nodup c.unselOnce s) c.uninstOnce
        · intro t; rw [addNew_mem]; simp [hb, hc]
        · intro p; simp [hc]
      | some p =>
        rw [hc] at h
        simp only at h
        rw [runExtern_plain _ _ (hP p)] at h
        simp only [Res.bind] at h
        split at h
        · rename_i hin
          simp only [Res.ok.injEq, Prod.mk.injEq] at h
          rw [modify_mid] at h
          obtain ⟨rfl, rfl⟩ := h
          refine c.add g hs (by simp [available, hb, hc, hin]) ?_ ?_ _ ?_ ?_ c.unselOnce c.uninstOnce
          · intro d hd _
            cases hd
            exact ⟨rfl, by rw [hreq]; rfl⟩
          · intro d hd _
            cases hd
            exact ⟨p, hc, rfl⟩
          · intro t; simp [hc]
          · intro q
            simp only [hc, Option.some.injEq]
            constructor
            · exact .inl
            · rintro (h | ⟨-, rfl, h⟩)
              · exact h
              · rw [hin] at h; cases h
        · rename_i hin
          simp only [Res.ok.injEq, Prod.mk.injEq] at h
          obtain ⟨rfl, rfl⟩ := h
          refine c.add g hs (x := none) (by simp [available, hb, hc, hin]) (by simp) (by simp) _ ?_ ?_
            c.unselOnce (addNew_nodup c.uninstOnce p)
          · intro t; simp [hc]
          · intro q
            rw [addNew_mem]
            simp only [hc, Option.some.injEq, hb, true_and]
            constructor
            · rintro (h | rfl)
              · exact .inl h
              · exact .inr ⟨rfl, by simpa using hin⟩
            · rintro (h | ⟨rfl, -⟩)
              · exact .inl h
              · exact .inr rfl

end Verif.Inst
