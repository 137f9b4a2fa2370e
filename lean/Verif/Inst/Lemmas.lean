import Verif.Inst.Spec
/-!
# Instantiating a project — helper lemmas
-/
namespace Verif.Inst

open Verif.Build (Vis TType)
open Spec

/-- The recursion of `instantiate`. -/
theorem instantiate_eq (P : Project) (fuel s : Nat) (root : Bool) (st : St) :
    instantiate P fuel s root st =
    match st.find s with
    | some i =>
      match st.depAt i with
      | some d => if d.init then .ok (st, some i) else .loop s
      | none => .ok (st, none)
    | none =>
      match fuel with
      | 0 => .deep
      | fuel + 1 =>
        match (P.source s).body with
        | .target acts =>
          (runTarget (fun t st => instantiate P fuel t false st) st.entries.length acts
            { st with
              entries := st.entries ++ [⟨s, some (newTarget (P.source s).name
                (if root then some st.entries.length else st.shared))⟩],
              shared := if root then some st.entries.length else st.shared }).bind fun st2 =>
            .ok (st2.modDep st.entries.length (fun d => { d with
              data := finish root st2.shared.isSome d.data, init := true }), some st.entries.length)
        | .extern =>
          match chosen P s with
          | none => .ok ({ st with entries := st.entries ++ [⟨s, none⟩],
                                   unselected := addNew st.unselected s }, none)
          | some p =>
            (runExtern (fun t st => instantiate P fuel t false st) (P.provider p).acts
              { st with entries := st.entries ++ [⟨s, none⟩] } newExtern).bind
              fun r =>
                if (P.provider p).installed then
                  .ok ({ r.1 with entries := (r.1.entries.modify st.entries.length
                      (fun e => { e with dep := some { r.2 with init := true } })) },
                    some st.entries.length)
                else .ok ({ r.1 with uninstalled := addNew r.1.uninstalled p }, none) := by
  conv => lhs; unfold instantiate
  rfl

theorem Res.bind_ok {α β : Type} {r : Res α} {f : α → Res β} {b : β} :
    r.bind f = .ok b ↔ ∃ a, r = .ok a ∧ f a = .ok b := by
  cases r <;> simp [Res.bind]

/-! ## Entries -/

theorem modify_mid (a b : List Entry) (x : Entry) (f : Entry → Entry) :
    (a ++ x :: b).modify a.length f = a ++ f x :: b := by
  induction a with
  | nil => rfl
  | cons y a ih => simp [ih]

theorem get_mid (a b : List Entry) (x : Entry) : (a ++ x :: b)[a.length]? = some x := by simp

/-- What changes in the entries: settled ones stay, and no source is exchanged. -/
def Le (a b : List Entry) : Prop :=
  ∀ (j : Nat) (e : Entry), a[j]? = some e → ∃ e' : Entry, b[j]? = some e' ∧ e'.src = e.src ∧
    ∀ d, e.dep = some d → d.init = true → e' = e

theorem Le.refl (a : List Entry) : Le a a := fun _ e h => ⟨e, h, rfl, fun _ _ _ => rfl⟩

theorem Le.trans {a b c : List Entry} (h1 : Le a b) (h2 : Le b c) : Le a c := by
  intro j e h
  obtain ⟨e1, g1, s1, k1⟩ := h1 j e h
  obtain ⟨e2, g2, s2, k2⟩ := h2 j e1 g1
  refine ⟨e2, g2, s2.trans s1, fun d hd hi => ?_⟩
  have := k1 d hd hi; subst this
  exact k2 d hd hi

theorem Le.append (a b : List Entry) : Le a (a ++ b) := by
  intro j e h
  obtain ⟨hlt, -⟩ := List.getElem?_eq_some_iff.mp h
  exact ⟨e, by rw [List.getElem?_append_left hlt]; exact h, rfl, fun _ _ _ => rfl⟩

/-- The dependency of the entry is not complete yet. -/
def Open (x : Option Dep) : Prop := ∀ d, x = some d → d.init = false

theorem Le.replace (a b : List Entry) (s : Nat) {x y : Option Dep} (hx : Open x) :
    Le (a ++ ⟨s, x⟩ :: b) (a ++ ⟨s, y⟩ :: b) := by
  intro j e h
  by_cases hj : j = a.length
  · subst hj
    rw [get_mid] at h; cases h
    refine ⟨⟨s, y⟩, get_mid .., rfl, fun d hd hi => ?_⟩
    rw [hx d hd] at hi; cases hi
  · refine ⟨e, ?_, rfl, fun _ _ _ => rfl⟩
    rcases Nat.lt_or_ge j a.length with h1 | h1
    · rw [List.getElem?_append_left h1] at h ⊢; exact h
    · rw [List.getElem?_append_right h1] at h ⊢
      obtain ⟨k, hk⟩ : ∃ k, j - a.length = k + 1 := ⟨j - a.length - 1, by omega⟩
      rw [hk] at h ⊢
      simpa using h

/-- The dependency with this index is complete. -/
def Ready (a : List Entry) (j : Nat) : Prop := ∃ (e : Entry) (d : Dep), a[j]? = some e ∧ e.dep = some d ∧ d.init = true

theorem Ready.mono {a b : List Entry} (h : Le a b) {j : Nat} (hr : Ready a j) : Ready b j := by
  obtain ⟨e, d, g, hd, hi⟩ := hr
  obtain ⟨e', g', -, k⟩ := h j e g
  have := k d hd hi; subst this
  exact ⟨e', d, g', hd, hi⟩

/-- The source has an entry. -/
def Has (a : List Entry) (s : Nat) : Prop := s ∈ a.map (·.src)

theorem Has.mono {a b : List Entry} (h : Le a b) {s : Nat} (hr : Has a s) : Has b s := by
  obtain ⟨e, he, rfl⟩ := List.mem_map.mp hr
  obtain ⟨j, hj⟩ := List.getElem?_of_mem he
  obtain ⟨e', g', hs, -⟩ := h j e hj
  exact List.mem_map.mpr ⟨e', List.mem_of_getElem? g', hs⟩

theorem has_iff {a : List Entry} {s : Nat} : Has a s ↔ ∃ (j : Nat) (e : Entry), a[j]? = some e ∧ e.src = s := by
  constructor
  · intro h
    obtain ⟨e, he, rfl⟩ := List.mem_map.mp h
    obtain ⟨j, hj⟩ := List.getElem?_of_mem he
    exact ⟨j, e, hj, rfl⟩
  · rintro ⟨j, e, h, rfl⟩
    exact List.mem_map.mpr ⟨e, List.mem_of_getElem? h, rfl⟩

theorem find_none {st : St} {s : Nat} : st.find s = none ↔ ¬ Has st.entries s := by
  unfold St.find Has
  rw [List.findIdx?_eq_none_iff]
  simp only [beq_eq_false_iff_ne, ne_eq, List.mem_map, not_exists, not_and]

theorem find_some {st : St} {s i : Nat} (h : st.find s = some i) :
    ∃ e, st.entries[i]? = some e ∧ e.src = s := by
  unfold St.find at h
  obtain ⟨hlt, hp, -⟩ := List.findIdx?_eq_some_iff_getElem.mp h
  exact ⟨_, List.getElem?_eq_getElem hlt, by simpa using hp⟩

theorem depAt_of {st : St} {i : Nat} {e : Entry} (h : st.entries[i]? = some e) : st.depAt i = e.dep := by
  simp [St.depAt, h]

/-! ## What holds of the entries -/

/-- What holds of a complete entry. -/
structure Final (P : Project) (a : List Entry) (i : Nat) (e : Entry) (d : Dep) : Prop where
  kind : d.isTarget = true ↔ IsTarget P e.src
  deps : ∀ p ∈ d.deps, Ready a p.2
  once : (d.deps.map (·.2)).Nodup
  closed : ∀ t, Asks P e.src t → Has a t
  ends : IsTarget P e.src → EndsFrom (TargetAsks P) e.src
  target : ∀ acts, (P.source e.src).body = .target acts →
    d.name = (P.source e.src).name ∧
    d.data = finish (decide (d.shared = some i)) d.shared.isSome (edited acts {})

theorem Final.mono {P : Project} {a b : List Entry} (h : Le a b) {i : Nat} {e : Entry} {d : Dep}
    (f : Final P a i e d) : Final P b i e d :=
  ⟨f.kind, fun p hp => (f.deps p hp).mono h, f.once, fun t ht => (f.closed t ht).mono h, f.ends, f.target⟩

/-- What holds of the state at every moment. -/
structure Good (P : Project) (st : St) : Prop where
  nodup : (st.entries.map (·.src)).Nodup
  kind : ∀ e ∈ st.entries, e.dep = none → (P.source e.src).body = .extern
  final : ∀ i e d, st.entries[i]? = some e → e.dep = some d → d.init = true → Final P st.entries i e d
  rank : ∃ r : Nat → Nat, ∀ i e d, st.entries[i]? = some e → e.dep = some d → d.init = true →
    ∀ p ∈ d.deps, r p.2 < r i
  sharedLt : ∀ k, st.shared = some k → k < st.entries.length

theorem Good.start (P : Project) : Good P St.start := by
  refine ⟨?_, ?_, ?_, ⟨fun _ => 0, ?_⟩, ?_⟩ <;> simp [St.start]

/-- Adding an entry that is not complete. -/
theorem Good.add {P : Project} {st : St} (g : Good P st) {s : Nat} (hs : ¬ Has st.entries s)
    {x : Option Dep} (hx : Open x) (hk : x = none → (P.source s).body = .extern)
    {sh : Option Nat} (hsh : ∀ k, sh = some k → k ≤ st.entries.length) (u v : List Nat) :
    Good P ⟨st.entries ++ [⟨s, x⟩], sh, u, v⟩ := by
  have old : ∀ (i : Nat) (e : Entry) (d : Dep), (st.entries ++ [⟨s, x⟩])[i]? = some e → e.dep = some d → d.init = true →
      st.entries[i]? = some e := by
    intro i e d h hd hi
    by_cases hlt : i < st.entries.length
    · rwa [List.getElem?_append_left hlt] at h
    · rw [List.getElem?_append_right (by omega)] at h
      have : i - st.entries.length = 0 := by
        have := (List.getElem?_eq_some_iff.mp h).1; simp at this; omega
      rw [this] at h
      simp at h; subst h
      rw [hx d hd] at hi; cases hi
  refine ⟨?_, ?_, ?_, ?_, ?_⟩
  · simp only [List.map_append, List.map_cons, List.map_nil]
    refine List.nodup_append.mpr ⟨g.nodup, by simp, ?_⟩
    intro a ha b hb
    simp at hb; subst hb
    intro h; subst h; exact hs ha
  · intro e he hd
    rcases List.mem_append.mp he with h | h
    · exact g.kind e h hd
    · simp at h; subst h; exact hk hd
  · intro i e d h hd hi
    exact (g.final i e d (old i e d h hd hi) hd hi).mono (Le.append _ _)
  · obtain ⟨r, hr⟩ := g.rank
    exact ⟨r, fun i e d h hd hi => hr i e d (old i e d h hd hi) hd hi⟩
  · intro k hk
    have := hsh k hk
    simp; omega

/-- Changing an entry that is not complete. -/
theorem Good.replace {P : Project} {st : St} (g : Good P st) {a b : List Entry} {s : Nat}
    {x y : Option Dep} (he : st.entries = a ++ ⟨s, x⟩ :: b) (hx : Open x)
    (hk : y = none → x = none)
    (hf : ∀ d, y = some d → d.init = true → Final P (a ++ ⟨s, y⟩ :: b) a.length ⟨s, y⟩ d)
    (hd0 : ∀ d, y = some d → d.init = true → ∀ p ∈ d.deps, Ready st.entries p.2)
    (u v : List Nat) : Good P ⟨a ++ ⟨s, y⟩ :: b, st.shared, u, v⟩ := by
  have le : Le st.entries (a ++ ⟨s, y⟩ :: b) := he ▸ Le.replace a b s hx
  have old : ∀ (i : Nat) (e : Entry), i ≠ a.length → (a ++ ⟨s, y⟩ :: b)[i]? = some e → st.entries[i]? = some e := by
    intro i e hi h
    rw [he]
    rcases Nat.lt_or_ge i a.length with h1 | h1
    · rw [List.getElem?_append_left h1] at h ⊢; exact h
    · rw [List.getElem?_append_right h1] at h ⊢
      obtain ⟨k, hk⟩ : ∃ k, i - a.length = k + 1 := ⟨i - a.length - 1, by omega⟩
      rw [hk] at h ⊢
      simpa using h
  have notReady : ¬ Ready st.entries a.length := by
    rintro ⟨e, d, h, hd, hi⟩
    rw [he, get_mid] at h; cases h
    rw [hx d hd] at hi; cases hi
  have srcs : (a ++ ⟨s, y⟩ :: b).map (·.src) = st.entries.map (·.src) := by rw [he]; simp
  refine ⟨by rw [srcs]; exact g.nodup, ?_, ?_, ?_, ?_⟩
  · intro e h hd
    rcases List.mem_append.mp h with h | h
    · exact g.kind e (by rw [he]; simp [h]) hd
    · rcases List.mem_cons.mp h with h | h
      · subst h
        have := g.kind ⟨s, x⟩ (by rw [he]; simp) (hk hd)
        exact this
      · exact g.kind e (by rw [he]; simp [h]) hd
  · intro i e d h hd hi
    by_cases hia : i = a.length
    · subst hia
      rw [get_mid] at h; cases h
      exact hf d hd hi
    · exact (g.final i e d (old i e hia h) hd hi).mono le
  · obtain ⟨r, hr⟩ := g.rank
    cases hy : y with
    | none =>
      subst hy
      refine ⟨r, fun i e d h hd hi => ?_⟩
      by_cases hia : i = a.length
      · subst hia; rw [get_mid] at h; cases h; cases hd
      · exact hr i e d (old i e hia h) hd hi
    | some d' =>
      subst hy
      refine ⟨fun k => if k = a.length then ((d'.deps.map (fun p => r p.2)).foldr max 0) + 1 else r k,
        fun i e d h hd hi p hp => ?_⟩
      have bound : ∀ (l : List Nat) (x : Nat), x ∈ l → x ≤ l.foldr max 0 := by
        intro l
        induction l with
        | nil => simp
        | cons y l ih =>
          intro x hx
          rcases List.mem_cons.mp hx with rfl | hx
          · simp only [List.foldr_cons]; omega
          · have := ih x hx; simp only [List.foldr_cons]; omega
      by_cases hia : i = a.length
      · subst hia; rw [get_mid] at h; cases h; cases hd
        have hrd := hd0 d' rfl hi p hp
        have : p.2 ≠ a.length := fun h => notReady (h ▸ hrd)
        simp only [this, if_false, if_true]
        have := bound _ _ (List.mem_map.mpr ⟨p, hp, rfl⟩ : r p.2 ∈ d'.deps.map (fun p => r p.2))
        omega
      · have hh := old i e hia h
        have hrd := (g.final i e d hh hd hi).deps p hp
        have : p.2 ≠ a.length := fun h => notReady (h ▸ hrd)
        simp only [this, if_false, hia]
        exact hr i e d hh hd hi p hp
  · intro k hk
    have := g.sharedLt k hk
    rw [he] at this; simpa using this

/-- What a call that succeeds does to the state. -/
structure Step (P : Project) (s : Nat) (st st' : St) (o : Option Nat) (new : List Entry) : Prop where
  ent : st'.entries = st.entries ++ new
  reach : ∀ e ∈ new, Reach P s e.src
  settled : ∀ e ∈ new, ∀ d, e.dep = some d → d.init = true
  contained : ∀ e ∈ new, ∀ d, e.dep = some d → d.isTarget = true → d.shared = st'.shared
  found : ∀ j, o = some j → ∃ d, st'.entries[j]? = some ⟨s, some d⟩ ∧ d.init = true
  missing : o = none → ⟨s, none⟩ ∈ st'.entries

theorem Step.has {P : Project} {s : Nat} {st st' : St} {o : Option Nat} {new : List Entry}
    (h : Step P s st st' o new) : Has st'.entries s := by
  cases o with
  | none => exact List.mem_map.mpr ⟨_, h.missing rfl, rfl⟩
  | some j =>
    obtain ⟨d, hd, -⟩ := h.found j rfl
    exact List.mem_map.mpr ⟨_, List.mem_of_getElem? hd, rfl⟩

/-- What `instantiate` with some fuel is known to do. -/
def Works (P : Project) (rec : Nat → St → Res (St × Option Nat)) : Prop :=
  ∀ s st st' o, Good P st → rec s st = .ok (st', o) →
    Good P st' ∧ st'.shared = st.shared ∧ ∃ new, Step P s st st' o new

/-- The state while the function of a target runs: `pre` are the calls made. -/
structure Mid (P : Project) (a : List Entry) (s : Nat) (pre : List Act) (st : St) (d : Dep)
    (new : List Entry) : Prop where
  good : Good P st
  ent : st.entries = a ++ ⟨s, some d⟩ :: new
  opened : d.init = false
  isT : d.isTarget = true
  name : d.name = (P.source s).name
  shared : d.shared = st.shared
  data : d.data = edited pre {}
  deps : ∀ p ∈ d.deps, Ready st.entries p.2
  once : (d.deps.map (·.2)).Nodup
  closed : ∀ v t, (v, t) ∈ asked pre → Has st.entries t ∧ (IsTarget P t → EndsFrom (TargetAsks P) t)
  reach : ∀ e ∈ new, Reach P s e.src
  settled : ∀ e ∈ new, ∀ d, e.dep = some d → d.init = true
  contained : ∀ e ∈ new, ∀ d, e.dep = some d → d.isTarget = true → d.shared = st.shared

theorem asked_append (a b : List Act) : asked (a ++ b) = asked a ++ asked b := by
  induction a with
  | nil => rfl
  | cons x a ih => cases x <;> simp [asked, ih]

theorem edited_append (a b : List Act) (d : Data) : edited (a ++ b) d = edited b (edited a d) := by
  induction a generalizing d with
  | nil => rfl
  | cons x a ih => cases x <;> simp [edited, ih]

theorem mem_asked {v : Vis} {t : Nat} {acts : List Act} : (v, t) ∈ asked acts ↔ Act.dep v t ∈ acts := by
  induction acts with
  | nil => simp [asked]
  | cons x a ih => cases x <;> simp [asked, ih]

theorem Open.of {d : Dep} (h : d.init = false) : Open (some d) := by
  intro d' h'; cases h'; exact h

theorem modDep_mid {st : St} {a new : List Entry} {s : Nat} {d : Dep} (f : Dep → Dep)
    (h : st.entries = a ++ ⟨s, some d⟩ :: new) :
    st.modDep a.length f = { st with entries := a ++ ⟨s, some (f d)⟩ :: new } := by
  unfold St.modDep
  rw [h, modify_mid]
  rfl

/-- The target found or made by a call ends. -/
theorem Good.ends_of {P : Project} {st st' : St} {s : Nat} {o : Option Nat} {new : List Entry}
    (g : Good P st') (h : Step P s st st' o new) (ht : IsTarget P s) : EndsFrom (TargetAsks P) s := by
  cases o with
  | none =>
    have := g.kind _ (h.missing rfl) rfl
    obtain ⟨acts, ha⟩ := ht
    simp only [this] at ha; cases ha
  | some j =>
    obtain ⟨d, hd, hi⟩ := h.found j rfl
    exact (g.final j _ d hd rfl hi).ends ht

/-- The state after a call that changes the target's own data. -/
theorem Mid.edit {P : Project} {a : List Entry} {s : Nat} {pre : List Act} {st : St} {d : Dep}
    {new : List Entry} (m : Mid P a s pre st d new) (f : Data → Data) :
    Mid P a s (pre ++ [Act.edit f])
      { st with entries := a ++ ⟨s, some { d with data := f d.data }⟩ :: new }
      { d with data := f d.data } new := by
  have le : Le st.entries (a ++ ⟨s, some { d with data := f d.data }⟩ :: new) :=
    m.ent ▸ Le.replace a new s (Open.of m.opened)
  refine ⟨?_, rfl, m.opened, m.isT, m.name, m.shared, ?_, fun p hp => (m.deps p hp).mono le, m.once, ?_,
    m.reach, m.settled, m.contained⟩
  · exact m.good.replace m.ent (Open.of m.opened) (by simp)
      (fun d' h hi => by cases h; simp [m.opened] at hi)
      (fun d' h hi => by cases h; simp [m.opened] at hi) ..
  · rw [edited_append, ← m.data]; rfl
  · intro v t ht
    rw [asked_append] at ht
    simp only [asked, List.append_nil] at ht
    exact ⟨(m.closed v t ht).1.mono le, (m.closed v t ht).2⟩

/-- The state after the dependency asked for has been instantiated. -/
theorem Mid.call {P : Project} {a : List Entry} {s : Nat} {pre : List Act} {st st1 : St} {d : Dep}
    {new new1 : List Entry} {t : Nat} {o : Option Nat} (m : Mid P a s pre st d new) (v : Vis)
    (hreq : Asks P s t) (g1 : Good P st1) (sh1 : st1.shared = st.shared) (stp : Step P t st st1 o new1) :
    Mid P a s (pre ++ [Act.dep v t]) st1 d (new ++ new1) := by
  have le1 : Le st.entries st1.entries := by rw [stp.ent]; exact Le.append _ _
  have ent1 : st1.entries = a ++ ⟨s, some d⟩ :: (new ++ new1) := by rw [stp.ent, m.ent]; simp
  refine ⟨g1, ent1, m.opened, m.isT, m.name, by rw [sh1]; exact m.shared, ?_,
    fun p hp => (m.deps p hp).mono le1, m.once, ?_, ?_, ?_, ?_⟩
  · rw [edited_append, ← m.data]; rfl
  · intro v' t' h'
    rw [asked_append] at h'
    rcases List.mem_append.mp h' with h' | h'
    · exact ⟨(m.closed v' t' h').1.mono le1, (m.closed v' t' h').2⟩
    · simp only [asked, List.mem_singleton, Prod.mk.injEq] at h'
      obtain ⟨-, rfl⟩ := h'
      exact ⟨stp.has, g1.ends_of stp⟩
  · intro e he
    rcases List.mem_append.mp he with he | he
    · exact m.reach e he
    · exact .step hreq (stp.reach e he)
  · intro e he
    rcases List.mem_append.mp he with he | he
    · exact m.settled e he
    · exact stp.settled e he
  · intro e he
    rcases List.mem_append.mp he with he | he
    · rw [sh1]; exact m.contained e he
    · exact stp.contained e he

/-- The state after a dependency has been noted. -/
theorem Mid.link {P : Project} {a : List Entry} {s : Nat} {pre : List Act} {st : St} {d : Dep}
    {new : List Entry} (m : Mid P a s pre st d new) (v : Vis) {j : Nat} (hj : Ready st.entries j)
    (hn : j ∉ d.deps.map (·.2)) :
    Mid P a s pre
      { st with entries := a ++ ⟨s, some { d with deps := d.deps ++ [(v, j)] }⟩ :: new }
      { d with deps := d.deps ++ [(v, j)] } new := by
  have le2 : Le st.entries (a ++ ⟨s, some { d with deps := d.deps ++ [(v, j)] }⟩ :: new) := by
    have := Le.replace a new s (x := some d)
      (y := some { d with deps := d.deps ++ [(v, j)] }) (Open.of m.opened)
    rwa [← m.ent] at this
  refine ⟨?_, rfl, m.opened, m.isT, m.name, m.shared, m.data, ?_, ?_, ?_, m.reach, m.settled, m.contained⟩
  · exact m.good.replace m.ent (Open.of m.opened) (by simp)
      (fun d' h hi => by cases h; simp [m.opened] at hi)
      (fun d' h hi => by cases h; simp [m.opened] at hi) ..
  · intro p hp
    rcases List.mem_append.mp hp with hp | hp
    · exact (m.deps p hp).mono le2
    · simp at hp; subst hp
      exact hj.mono le2
  · simp only [List.map_append, List.map_cons, List.map_nil]
    refine List.nodup_append.mpr ⟨m.once, by simp, ?_⟩
    intro x hx y hy
    simp at hy; subst hy
    intro h; subst h; exact hn hx
  · intro v' t' h'
    exact ⟨(m.closed v' t' h').1.mono le2, (m.closed v' t' h').2⟩

theorem Mid.depAt {P : Project} {a : List Entry} {s : Nat} {pre : List Act} {st : St} {d : Dep}
    {new : List Entry} (m : Mid P a s pre st d new) : st.depAt a.length = some d := by
  rw [depAt_of (e := ⟨s, some d⟩) (by rw [m.ent]; exact get_mid ..)]

theorem any_iff {l : List (Vis × Nat)} {j : Nat} :
    l.any (fun p => p.2 == j) = true ↔ j ∈ l.map (·.2) := by
  simp [List.any_eq_true, List.mem_map]

/-- The next call of a module function: either it changes data, or the dependency is instantiated and
then noted, or there is nothing to note. -/
theorem runTarget_cons {rec : Nat → St → Res (St × Option Nat)} {P : Project} {a : List Entry} {s : Nat}
    {pre : List Act} {st : St} {d : Dep} {new : List Entry} (m : Mid P a s pre st d new)
    (hw : Works P rec) (v : Vis) {t : Nat} (hreq : Asks P s t) (post : List Act) {st1 : St}
    {o : Option Nat} (h : rec t st = .ok (st1, o)) :
    st1.shared = st.shared ∧ ∃ new1, Step P t st st1 o new1 ∧
      Mid P a s (pre ++ [Act.dep v t]) st1 d (new ++ new1) ∧
      runTarget rec a.length (Act.dep v t :: post) st =
        match o with
        | none => runTarget rec a.length post st1
        | some j => if j ∈ d.deps.map (·.2) then .twice t
            else runTarget rec a.length post
              { st1 with entries := a ++ ⟨s, some { d with deps := d.deps ++ [(v, j)] }⟩ :: (new ++ new1) } := by
  obtain ⟨g1, sh1, new1, stp⟩ := hw t st st1 o m.good h
  have m1 := m.call v hreq g1 sh1 stp
  refine ⟨sh1, new1, stp, m1, ?_⟩
  simp only [runTarget, h, Res.bind]
  cases o with
  | none => rfl
  | some j =>
    simp only [m1.depAt, Option.map_some, Option.getD_some]
    rw [modDep_mid _ m1.ent]
    by_cases hj : j ∈ d.deps.map (·.2)
    · rw [if_pos hj, if_pos (any_iff.mpr hj)]
    · rw [if_neg hj, if_neg (fun h => hj (any_iff.mp h))]

theorem runTarget_edit {rec : Nat → St → Res (St × Option Nat)} {P : Project} {a : List Entry} {s : Nat}
    {pre : List Act} {st : St} {d : Dep} {new : List Entry} (m : Mid P a s pre st d new)
    (f : Data → Data) (post : List Act) :
    runTarget rec a.length (Act.edit f :: post) st =
      runTarget rec a.length post
        { st with entries := a ++ ⟨s, some { d with data := f d.data }⟩ :: new } := by
  simp only [runTarget]
  rw [modDep_mid _ m.ent]

theorem Step.ready {P : Project} {t : Nat} {st st1 : St} {j : Nat} {new1 : List Entry}
    (stp : Step P t st st1 (some j) new1) : Ready st1.entries j := by
  obtain ⟨dj, hj, hji⟩ := stp.found j rfl
  exact ⟨_, dj, hj, rfl, hji⟩

theorem asks_of {P : Project} {s : Nat} {acts : List Act} (hb : (P.source s).body = .target acts)
    {v : Vis} {t : Nat} (h : Act.dep v t ∈ acts) : Asks P s t :=
  ⟨v, by unfold requests; rw [hb]; exact mem_asked.mpr h⟩

theorem runTarget_works {P : Project} {rec : Nat → St → Res (St × Option Nat)} (hw : Works P rec)
    (a : List Entry) (s : Nat) : ∀ (post pre : List Act), (P.source s).body = .target (pre ++ post) →
    ∀ st d new st', Mid P a s pre st d new → runTarget rec a.length post st = .ok st' →
    st'.shared = st.shared ∧ ∃ d' new', Mid P a s (pre ++ post) st' d' new' := by
  intro post
  induction post with
  | nil =>
    intro pre _ st d new st' m h
    simp only [runTarget, Res.ok.injEq] at h
    subst h
    exact ⟨rfl, d, new, by simpa using m⟩
  | cons x post ih =>
    intro pre hb st d new st' m h
    have hb' : (P.source s).body = .target ((pre ++ [x]) ++ post) := by rw [hb]; simp
    have eq : pre ++ x :: post = (pre ++ [x]) ++ post := by simp
    rw [eq]
    cases x with
    | edit f =>
      rw [runTarget_edit m] at h
      have := ih _ hb' _ _ new st' (m.edit f) h
      exact this
    | dep v t =>
      have hreq : Asks P s t := asks_of hb (v := v) (by simp)
      obtain ⟨⟨st1, o⟩, h1, -⟩ := Res.bind_ok.mp h
      obtain ⟨sh1, new1, stp, m1, e1⟩ := runTarget_cons m hw v hreq post h1
      rw [e1] at h
      cases o with
      | none =>
        obtain ⟨e1, e2⟩ := ih _ hb' st1 d (new ++ new1) st' m1 h
        exact ⟨by rw [e1, sh1], e2⟩
      | some j =>
        simp only at h
        split at h
        · cases h
        · rename_i hn
          obtain ⟨e1, e2⟩ := ih _ hb' _ _ _ st' (m1.link v stp.ready hn) h
          exact ⟨by rw [e1]; exact sh1, e2⟩

/-- The state while the function of an extern runs. -/
structure MidE (P : Project) (a : List Entry) (s : Nat) (pre : List Act) (st : St) (d : Dep)
    (new : List Entry) : Prop where
  good : Good P st
  ent : st.entries = a ++ ⟨s, none⟩ :: new
  isT : d.isTarget = false
  deps : ∀ p ∈ d.deps, Ready st.entries p.2
  once : (d.deps.map (·.2)).Nodup
  closed : ∀ v t, (v, t) ∈ asked pre → Has st.entries t
  reach : ∀ e ∈ new, Reach P s e.src
  settled : ∀ e ∈ new, ∀ d, e.dep = some d → d.init = true
  contained : ∀ e ∈ new, ∀ d, e.dep = some d → d.isTarget = true → d.shared = st.shared

theorem addDependency_snd (l : List (Vis × Nat)) (v : Vis) (j : Nat) :
    ((Build.addDependency l v j).1.map (·.2) = l.map (·.2) ∧ j ∈ l.map (·.2)) ∨
    ((Build.addDependency l v j).1.map (·.2) = l.map (·.2) ++ [j] ∧ j ∉ l.map (·.2)) := by
  unfold Build.addDependency
  split
  · rename_i i hi
    obtain ⟨hlt, hp, -⟩ := List.findIdx?_eq_some_iff_getElem.mp hi
    refine .inl ⟨?_, List.mem_map.mpr ⟨l[i], List.getElem_mem _, by simpa using hp⟩⟩
    split
    · apply List.ext_getElem?
      intro k
      simp only [List.getElem?_map, List.getElem?_modify]
      split <;> cases l[k]? <;> simp
    · rfl
  · rename_i hi
    rw [List.findIdx?_eq_none_iff] at hi
    refine .inr ⟨by simp, fun h => ?_⟩
    obtain ⟨p, hp, rfl⟩ := List.mem_map.mp h
    simpa using hi p hp

theorem runExtern_works {P : Project} {rec : Nat → St → Res (St × Option Nat)} (hw : Works P rec)
    (a : List Entry) (s : Nat) : ∀ (post pre : List Act),
    (∀ t, (∃ v, Act.dep v t ∈ pre ++ post) → Asks P s t) →
    ∀ st d new st' d', MidE P a s pre st d new → runExtern rec post st d = .ok (st', d') →
    st'.shared = st.shared ∧ ∃ new', MidE P a s (pre ++ post) st' d' new' := by
  intro post
  induction post with
  | nil =>
    intro pre _ st d new st' d' m h
    simp only [runExtern, Res.ok.injEq, Prod.mk.injEq] at h
    obtain ⟨rfl, rfl⟩ := h
    exact ⟨rfl, new, by simpa using m⟩
  | cons x post ih =>
    intro pre hb st d new st' d' m h
    have eq : pre ++ x :: post = (pre ++ [x]) ++ post := by simp
    rw [eq] at hb ⊢
    cases x with
    | edit f =>
      simp only [runExtern] at h
      refine ih _ hb st _ new st' d' ?_ h
      refine ⟨m.good, m.ent, m.isT, m.deps, m.once, ?_, m.reach, m.settled, m.contained⟩
      intro v t ht
      rw [asked_append] at ht
      simp only [asked, List.append_nil] at ht
      exact m.closed v t ht
    | dep v t =>
      simp only [runExtern] at h
      obtain ⟨⟨st1, o⟩, h1, h2⟩ := Res.bind_ok.mp h
      obtain ⟨g1, sh1, new1, stp⟩ := hw t st st1 o m.good h1
      have hreq : Asks P s t := hb t ⟨v, by simp⟩
      have le1 : Le st.entries st1.entries := by rw [stp.ent]; exact Le.append _ _
      have ent1 : st1.entries = a ++ ⟨s, none⟩ :: (new ++ new1) := by rw [stp.ent, m.ent]; simp
      have key : ∀ d1 : Dep, d1.isTarget = false → (∀ p ∈ d1.deps, Ready st1.entries p.2) →
          (d1.deps.map (·.2)).Nodup →
          MidE P a s (pre ++ [Act.dep v t]) st1 d1 (new ++ new1) := by
        intro d1 k1 k2 k3
        refine ⟨g1, ent1, k1, k2, k3, ?_, ?_, ?_, ?_⟩
        · intro v' t' h'
          rw [asked_append] at h'
          rcases List.mem_append.mp h' with h' | h'
          · exact (m.closed v' t' h').mono le1
          · simp only [asked, List.mem_singleton, Prod.mk.injEq] at h'
            obtain ⟨-, rfl⟩ := h'
            exact stp.has
        · intro e he
          rcases List.mem_append.mp he with he | he
          · exact m.reach e he
          · exact .step hreq (stp.reach e he)
        · intro e he
          rcases List.mem_append.mp he with he | he
          · exact m.settled e he
          · exact stp.settled e he
        · intro e he
          rcases List.mem_append.mp he with he | he
          · rw [sh1]; exact m.contained e he
          · exact stp.contained e he
      cases o with
      | none =>
        obtain ⟨e1, e2⟩ := ih _ hb st1 d _ st' d'
          (key d m.isT (fun p hp => (m.deps p hp).mono le1) m.once) h2
        exact ⟨by rw [e1, sh1], e2⟩
      | some j =>
        simp only at h2
        obtain ⟨dj, hj, hji⟩ := stp.found j rfl
        have m1 : MidE P a s (pre ++ [Act.dep v t]) st1
            { d with deps := (Build.addDependency d.deps v j).1 } (new ++ new1) := by
         refine key _ m.isT ?_ ?_
         · intro p hp
           have hp2 : p.2 ∈ (Build.addDependency d.deps v j).1.map (·.2) := List.mem_map.mpr ⟨p, hp, rfl⟩
           have old : p.2 ∈ d.deps.map (·.2) → Ready st1.entries p.2 := by
             intro h
             obtain ⟨q, hq, hqe⟩ := List.mem_map.mp h
             rw [← hqe]
             exact (m.deps q hq).mono le1
           rcases addDependency_snd d.deps v j with ⟨h3, -⟩ | ⟨h3, -⟩
           · rw [h3] at hp2; exact old hp2
           · rw [h3] at hp2
             rcases List.mem_append.mp hp2 with h | h
             · exact old h
             · simp at h; rw [h]
               exact ⟨_, dj, hj, rfl, hji⟩
         · rcases addDependency_snd d.deps v j with ⟨h3, -⟩ | ⟨h3, h4⟩
           · simp only [h3]; exact m.once
           · simp only [h3]
             refine List.nodup_append.mpr ⟨m.once, by simp, ?_⟩
             intro x hx y hy
             simp at hy; subst hy
             intro h; subst h; exact h4 hx
        obtain ⟨e1, e2⟩ := ih _ hb st1 _ _ st' d' m1 h2
        exact ⟨by rw [e1, sh1], e2⟩

theorem Mid.start {P : Project} {st : St} (g : Good P st) {s : Nat} (hs : ¬ Has st.entries s)
    (root : Bool) :
    Mid P st.entries s []
      { st with
        entries := st.entries ++ [⟨s, some (newTarget (P.source s).name
          (if root then some st.entries.length else st.shared))⟩],
        shared := if root then some st.entries.length else st.shared }
      (newTarget (P.source s).name (if root then some st.entries.length else st.shared)) [] := by
  refine ⟨?_, rfl, rfl, rfl, rfl, rfl, rfl, ?_, ?_, ?_, ?_, ?_, ?_⟩
  · refine g.add hs (Open.of rfl) (by simp) ?_ _ _
    intro k hk
    split at hk
    · cases hk; exact Nat.le_refl _
    · exact Nat.le_of_lt (g.sharedLt k hk)
  all_goals simp [newTarget, asked]

theorem MidE.start {P : Project} {st : St} (g : Good P st) {s : Nat} (hs : ¬ Has st.entries s)
    (he : (P.source s).body = .extern) :
    MidE P st.entries s [] { st with entries := st.entries ++ [⟨s, none⟩] } newExtern [] := by
  refine ⟨?_, rfl, rfl, ?_, ?_, ?_, ?_, ?_, ?_⟩
  · exact g.add hs (fun d h => by cases h) (fun _ => he) (fun k hk => Nat.le_of_lt (g.sharedLt k hk)) _ _
  all_goals simp [newExtern, asked]

/-- What is already there is returned. -/
theorem instantiate_found {P : Project} {fuel s : Nat} {root : Bool} {st st' : St} {o : Option Nat}
    (hs : Has st.entries s) (h : instantiate P fuel s root st = .ok (st', o)) :
    st' = st ∧ Step P s st st' o [] := by
  rw [instantiate_eq] at h
  cases hf : st.find s with
  | none => exact absurd hs (find_none.mp hf)
  | some i =>
    obtain ⟨e, he, hes⟩ := find_some hf
    rw [hf] at h
    simp only [depAt_of he] at h
    cases hd : e.dep with
    | none =>
      rw [hd] at h
      simp only [Res.ok.injEq, Prod.mk.injEq] at h
      obtain ⟨rfl, rfl⟩ := h
      refine ⟨rfl, by simp, by simp, by simp, by simp, by simp, fun _ => ?_⟩
      have : e = ⟨s, none⟩ := by cases e; simp_all
      exact this ▸ List.mem_of_getElem? he
    | some d =>
      rw [hd] at h
      simp only at h
      split at h
      · rename_i hi
        simp only [Res.ok.injEq, Prod.mk.injEq] at h
        obtain ⟨rfl, rfl⟩ := h
        refine ⟨rfl, by simp, by simp, by simp, by simp, fun j hj => ?_, by simp⟩
        cases hj
        refine ⟨d, ?_, hi⟩
        rw [he]
        cases e; simp_all
      · cases h

/-- The shared container after a call. -/
def sharedAfter (P : Project) (st : St) (s : Nat) (root : Bool) : Option Nat :=
  match (P.source s).body with
  | .target _ => if root = true ∧ st.find s = none then some st.entries.length else st.shared
  | .extern => st.shared

theorem instantiate_works (P : Project) : ∀ (fuel s : Nat) (root : Bool) (st st' : St) (o : Option Nat),
    Good P st → instantiate P fuel s root st = .ok (st', o) →
    Good P st' ∧ st'.shared = sharedAfter P st s root ∧ ∃ new, Step P s st st' o new := by
  intro fuel
  induction fuel with
  | zero =>
    intro s root st st' o g h
    by_cases hs : Has st.entries s
    · obtain ⟨rfl, stp⟩ := instantiate_found hs h
      refine ⟨g, ?_, [], stp⟩
      have : st'.find s ≠ none := fun h => find_none.mp h hs
      unfold sharedAfter
      split <;> simp [this]
    · rw [instantiate_eq, find_none.mpr hs] at h
      cases h
  | succ fuel ih =>
    intro s root st st' o g h
    by_cases hs : Has st.entries s
    · obtain ⟨rfl, stp⟩ := instantiate_found hs h
      refine ⟨g, ?_, [], stp⟩
      have : st'.find s ≠ none := fun h => find_none.mp h hs
      unfold sharedAfter
      split <;> simp [this]
    have hw : Works P (fun t st => instantiate P fuel t false st) := by
      intro t st st' o g h
      obtain ⟨g', h1, h2⟩ := ih t false st st' o g h
      refine ⟨g', ?_, h2⟩
      rw [h1]; unfold sharedAfter; split <;> simp
    rw [instantiate_eq, find_none.mpr hs] at h
    simp only at h
    cases hb : (P.source s).body with
    | target acts =>
      rw [hb] at h
      simp only at h
      obtain ⟨st2, h1, h2⟩ := Res.bind_ok.mp h
      obtain ⟨sh2, d, new, m⟩ := runTarget_works hw st.entries s acts [] (by rw [hb]; rfl) _ _ _ st2
        (Mid.start g hs root) h1
      rw [List.nil_append] at m
      simp only [Res.ok.injEq, Prod.mk.injEq] at h2
      rw [modDep_mid _ m.ent] at h2
      obtain ⟨rfl, rfl⟩ := h2
      have sh3 : st2.shared = if root then some st.entries.length else st.shared := sh2
      have rootEq : decide (d.shared = some st.entries.length) = root := by
        rw [m.shared, sh3]
        cases root with
        | true => simp
        | false =>
          simp only [Bool.false_eq_true, if_false, decide_eq_false_iff_not]
          intro h
          exact Nat.lt_irrefl _ (g.sharedLt _ h)
      have le : Le st2.entries (st.entries ++ ⟨s, some { d with
          data := finish root st2.shared.isSome d.data, init := true }⟩ :: new) := by
        have := Le.replace st.entries new s (x := some d) (y := some { d with
          data := finish root st2.shared.isSome d.data, init := true }) (Open.of m.opened)
        rwa [← m.ent] at this
      have asks : ∀ t, Asks P s t → ∃ v, (v, t) ∈ asked acts := by
        rintro t ⟨v, hv⟩
        unfold requests at hv; rw [hb] at hv
        exact ⟨v, hv⟩
      refine ⟨?_, ?_, _, rfl, ?_, ?_, ?_, ?_, ?_⟩
      · refine m.good.replace m.ent (Open.of m.opened) (by simp) ?_ ?_ ..
        · intro d' hd' _
          cases hd'
          refine ⟨?_, ?_, m.once, ?_, ?_, ?_⟩
          · simp only [m.isT, true_iff]; exact ⟨acts, hb⟩
          · intro p hp; exact (m.deps p hp).mono le
          · intro t ht
            obtain ⟨v, hv⟩ := asks t ht
            exact (m.closed v t hv).1.mono le
          · intro _
            refine Acc.intro _ fun t ht => ?_
            obtain ⟨-, k2, k3⟩ := ht
            obtain ⟨v, hv⟩ := asks t k3
            exact (m.closed v t hv).2 k2
          · intro acts' h'
            simp only [hb, Body.target.injEq] at h'
            subst h'
            refine ⟨m.name, ?_⟩
            show finish root st2.shared.isSome d.data = finish (decide (d.shared = some st.entries.length))
              d.shared.isSome (edited acts {})
            rw [rootEq, m.data, m.shared]
        · intro d' hd' _ p hp
          cases hd'
          exact m.deps p hp
      · simp only [sh3, sharedAfter, hb, find_none.mpr hs]
        simp
      · intro e he
        rcases List.mem_cons.mp he with rfl | he
        · exact .refl _
        · exact m.reach e he
      · intro e he d' hd'
        rcases List.mem_cons.mp he with rfl | he
        · cases hd'; rfl
        · exact m.settled e he d' hd'
      · intro e he d' hd' ht
        rcases List.mem_cons.mp he with rfl | he
        · cases hd'; exact m.shared
        · exact m.contained e he d' hd' ht
      · intro j hj
        cases hj
        exact ⟨_, get_mid .., rfl⟩
      · simp
    | extern =>
      rw [hb] at h
      simp only at h
      cases hc : chosen P s with
      | none =>
        rw [hc] at h
        simp only [Res.ok.injEq, Prod.mk.injEq] at h
        obtain ⟨rfl, rfl⟩ := h
        refine ⟨?_, ?_, [⟨s, none⟩], rfl, ?_, ?_, ?_, ?_, ?_⟩
        · exact g.add hs (fun d h => by cases h) (fun _ => hb) (fun k hk => Nat.le_of_lt (g.sharedLt k hk)) _ _
        · simp only [sharedAfter, hb]
        · intro e he; simp at he; subst he; exact .refl _
        · intro e he d hd; simp at he; subst he; cases hd
        · intro e he d hd; simp at he; subst he; cases hd
        · simp
        · simp
      | some p =>
        rw [hc] at h
        simp only at h
        obtain ⟨⟨st2, d⟩, h1, h2⟩ := Res.bind_ok.mp h
        have asks : ∀ t, Asks P s t ↔ ∃ v, (v, t) ∈ asked (P.provider p).acts := by
          intro t; unfold Asks requests; rw [hb, hc]
        obtain ⟨sh2, new, m⟩ := runExtern_works hw st.entries s (P.provider p).acts []
          (by rintro t ⟨v, hv⟩; exact (asks t).mpr ⟨v, mem_asked.mpr (by simpa using hv)⟩) _ _ _ st2 d
          (MidE.start g hs hb) h1
        rw [List.nil_append] at m
        have notT : ¬ IsTarget P s := by
          rintro ⟨acts, ha⟩; rw [hb] at ha; cases ha
        simp only at h2
        split at h2
        · simp only [Res.ok.injEq, Prod.mk.injEq] at h2
          rw [m.ent, modify_mid] at h2
          obtain ⟨rfl, rfl⟩ := h2
          have hopen : Open none := fun d h => by cases h
          have le : Le st2.entries (st.entries ++ ⟨s, some { d with init := true }⟩ :: new) := by
            have := Le.replace st.entries new s (x := none) (y := some { d with init := true }) hopen
            rwa [← m.ent] at this
          refine ⟨?_, ?_, ⟨s, some { d with init := true }⟩ :: new, rfl, ?_, ?_, ?_, ?_, ?_⟩
          · refine m.good.replace m.ent hopen (by simp) ?_ ?_ ..
            · intro d' hd' _
              cases hd'
              refine ⟨?_, ?_, m.once, ?_, fun h => absurd h notT, ?_⟩
              · simp only [m.isT, Bool.false_eq_true, false_iff]; exact notT
              · intro p hp; exact (m.deps p hp).mono le
              · intro t ht
                obtain ⟨v, hv⟩ := (asks t).mp ht
                exact (m.closed v t hv).mono le
              · intro acts ha; exact absurd ⟨acts, ha⟩ notT
            · intro d' hd' _ p hp
              cases hd'
              exact m.deps p hp
          · simp only [sharedAfter, hb]; exact sh2
          · intro e he
            rcases List.mem_cons.mp he with rfl | he
            · exact .refl _
            · exact m.reach e he
          · intro e he d' hd'
            rcases List.mem_cons.mp he with rfl | he
            · cases hd'; rfl
            · exact m.settled e he d' hd'
          · intro e he d' hd' ht
            rcases List.mem_cons.mp he with rfl | he
            · cases hd'; simp [m.isT] at ht
            · exact m.contained e he d' hd' ht
          · intro j hj
            cases hj
            exact ⟨_, get_mid .., rfl⟩
          · simp
        · simp only [Res.ok.injEq, Prod.mk.injEq] at h2
          obtain ⟨rfl, rfl⟩ := h2
          refine ⟨⟨m.good.nodup, m.good.kind, m.good.final, m.good.rank, m.good.sharedLt⟩, ?_,
            ⟨s, none⟩ :: new, m.ent, ?_, ?_, ?_, ?_, ?_⟩
          · simp only [sharedAfter, hb]; exact sh2
          · intro e he
            rcases List.mem_cons.mp he with rfl | he
            · exact .refl _
            · exact m.reach e he
          · intro e he d' hd'
            rcases List.mem_cons.mp he with rfl | he
            · cases hd'
            · exact m.settled e he d' hd'
          · intro e he d' hd' ht
            rcases List.mem_cons.mp he with rfl | he
            · cases hd'
            · exact m.contained e he d' hd' ht
          · simp
          · intro _
            simp only [m.ent]
            simp

theorem works_rec (P : Project) (fuel : Nat) : Works P (fun t st => instantiate P fuel t false st) := by
  intro t st st' o g h
  obtain ⟨g', h1, h2⟩ := instantiate_works P fuel t false st st' o g h
  refine ⟨g', ?_, h2⟩
  rw [h1]; unfold sharedAfter; split <;> simp

end Verif.Inst
