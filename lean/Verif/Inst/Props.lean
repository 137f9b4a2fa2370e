import Verif.Inst.Lemmas3
import Verif.Build.Props
/-!
# C82 — instantiating a project: property theorems

`instantiateRoots P fuel roots St.start` is what `BuildFolder::instantiateAllTargets` does with the root
targets `roots` (each with whether it is to be made shared).
-/
namespace Verif.Inst

open Verif.Build (Vis TType)
open Spec

/-! ## A project to look at

`0` asks publicly for `1` and privately for the extern `3`; `2` asks for `1` and `0`; `1` has a dynamic
link prefix.  The extern `3` has the installed provider `0`, the extern `4` has none. -/

/-- Has source files. -/
def src : Act := .edit fun d => { d with anySource := true }

/-- Is an executable. -/
def exe : Act := .edit fun d => { d with ttype := .exe }

/-- Has the dynamic link prefix `P`. -/
def pfx : Act := .edit fun d => { d with dynPrefix := [80] }

/-- The project. -/
def demo : Project where
  source s := match s with
    | 0 => ⟨[97], .target [src, .dep .pub 1, .dep .priv 3]⟩
    | 1 => ⟨[98], .target [src, pfx]⟩
    | 2 => ⟨[99], .target [exe, src, .dep .priv 1, .dep .priv 4, .dep .priv 0]⟩
    | _ => ⟨[101], .extern⟩
  provider _ := ⟨3, [.edit fun d => { d with libs := [[122]] }], true⟩
  selectors := [0]

theorem demo_plain : Plain demo := fun _ => rfl

theorem demo_below : Below demo 5 := by
  rintro s t hs ⟨v, hv⟩
  match s, hs with
  | 0, _ => simp [requests, demo, asked, src] at hv; omega
  | 1, _ => simp [requests, demo, asked, src, pfx] at hv
  | 2, _ => simp [requests, demo, asked, src, exe] at hv; omega
  | 3, _ => simp [requests, demo, chosen, asked] at hv
  | 4, _ => simp [requests, demo, chosen] at hv

/-- What comes out for the root target `2`. -/
def demoResult : St :=
  { entries := [
      ⟨2, some ⟨[(.priv, 1), (.priv, 3)], true, true, [99], none,
        { ttype := .exe, anySource := true }⟩⟩,
      ⟨1, some ⟨[], true, true, [98], none, { ttype := .lib, dynPrefix := [80], anySource := true }⟩⟩,
      ⟨4, none⟩,
      ⟨0, some ⟨[(.pub, 1), (.priv, 4)], true, true, [97], none, { ttype := .lib, anySource := true }⟩⟩,
      ⟨3, some ⟨[], true, false, [], none, { libs := [[122]] }⟩⟩]
    shared := none, unselected := [4], uninstalled := [] }

theorem demo_runs : instantiateRoots demo 5 [(2, false)] St.start = .ok demoResult := by decide +kernel

/-! ## Every function runs once, for what is needed and nothing else -/

/-- **C82**: instantiation always comes to an end, by succeeding or by reporting a loop or a repeated
dependency, whatever the functions ask for. -/
theorem C82_ends {P : Project} {n : Nat} (hn : Below P n) {fuel : Nat} (hf : n ≤ fuel)
    (roots : List (Nat × Bool)) (hr : ∀ r ∈ roots, r.1 < n) :
    instantiateRoots P fuel roots St.start ≠ .deep :=
  roots_ends hn hf roots St.start (Good.start P) (by simp [AllBelow, St.start]) hr

example : instantiateRoots demo 5 [(2, true), (0, false)] St.start ≠ .deep :=
  C82_ends demo_below (Nat.le_refl 5) _ (by decide)

/-- **C82**: no source is instantiated twice. -/
theorem C82_once {P : Project} {fuel : Nat} {roots : List (Nat × Bool)} {st : St}
    (h : instantiateRoots P fuel roots St.start = .ok st) : (st.entries.map (·.src)).Nodup :=
  (roots_start h).1.nodup

example : (demoResult.entries.map (·.src)).Nodup := C82_once demo_runs

/-- **C82**: what is instantiated is the root targets and whatever they ask for, directly or not. -/
theorem C82_complete {P : Project} (hP : Plain P) {fuel : Nat} {roots : List (Nat × Bool)} {st : St}
    (h : instantiateRoots P fuel roots St.start = .ok st) (s : Nat) :
    s ∈ st.entries.map (·.src) ↔ ∃ r ∈ roots, Reach P r.1 s := by
  obtain ⟨g, sd, -, hr, hh⟩ := roots_start h
  constructor
  · intro hs
    obtain ⟨e, he, rfl⟩ := List.mem_map.mp hs
    exact hr e he
  · rintro ⟨r, hr, hs⟩
    exact has_reach hP g sd (hh r hr) hs

example : ∃ r ∈ [(2, false)], Reach demo r.1 3 :=
  (C82_complete demo_plain demo_runs 3).mp (by decide)

/-! ## Each target gets what its function asked for -/

/-- **C82**: the dependencies of a target are those its function asked for, in that order and with that
visibility, except for the externs that are not available; no dependency is there twice. -/
theorem C82_edges {P : Project} (hP : Plain P) {fuel : Nat} {roots : List (Nat × Bool)} {st : St}
    (h : instantiateRoots P fuel roots St.start = .ok st) {i : Nat} {e : Entry}
    (he : st.entries[i]? = some e) (ht : IsTarget P e.src) :
    ∃ d, e.dep = some d ∧ d.isTarget = true ∧ d.name = (P.source e.src).name ∧
      (d.deps.map fun p => (p.1, (st.entries[p.2]?).map (·.src))) =
        ((requests P e.src).filter (fun q => available P q.2)).map (fun q => (q.1, some q.2)) ∧
      (d.deps.map (·.2)).Nodup := by
  obtain ⟨g, sd, c, -, -⟩ := roots_start h
  cases hd : e.dep with
  | none =>
    have hb := g.kind e (List.mem_of_getElem? he) hd
    obtain ⟨acts, ha⟩ := ht
    rw [hb] at ha; cases ha
  | some d =>
    have hi := sd e (List.mem_of_getElem? he) d hd
    have f := g.final i e d he hd hi
    obtain ⟨acts, ha⟩ := ht
    exact ⟨d, rfl, f.kind.mpr ⟨acts, ha⟩, (f.target acts ha).1, (c hP).edges i e d he hd hi, f.once⟩

example : ∃ d, some d = demoResult.depAt 0 ∧
    (d.deps.map fun p => (p.1, (demoResult.entries[p.2]?).map (·.src))) =
      [(.priv, some 1), (.priv, some 0)] := by
  obtain ⟨d, h1, -, -, h2, -⟩ := C82_edges demo_plain demo_runs (i := 0) rfl ⟨_, rfl⟩
  exact ⟨d, h1.symm, h2⟩

/-- **C82**: an extern has an entry with a dependency exactly if a provider is selected and installed; the
dependency is what the provider made of it. -/
theorem C82_externs {P : Project} (hP : Plain P) {fuel : Nat} {roots : List (Nat × Bool)} {st : St}
    (h : instantiateRoots P fuel roots St.start = .ok st) {e : Entry} (he : e ∈ st.entries)
    (ht : (P.source e.src).body = .extern) :
    (e.dep.isSome = true ↔ ∃ p, chosen P e.src = some p ∧ (P.provider p).installed = true) ∧
    ∀ d, e.dep = some d → d.isTarget = false ∧ d.deps = [] ∧
      ∃ p, chosen P e.src = some p ∧ d.data = edited (P.provider p).acts {} := by
  obtain ⟨g, sd, c, -, -⟩ := roots_start h
  constructor
  · rw [(c hP).avail e he]
    unfold available
    rw [ht]
    cases chosen P e.src <;> simp
  · intro d hd
    obtain ⟨i, hi⟩ := List.getElem?_of_mem he
    have hin := sd e he d hd
    have f := g.final i e d hi hd hin
    refine ⟨?_, ?_, (c hP).exts e he d hd ht⟩
    · cases hT : d.isTarget with
      | false => rfl
      | true =>
        obtain ⟨acts, ha⟩ := f.kind.mp hT
        rw [ht] at ha; cases ha
    · have := (c hP).edges i e d hi hd hin
      rw [plain_requests hP ht] at this
      simpa [edgesOf, wanted] using this

example : ∀ d, demoResult.depAt 4 = some d → d.deps = [] := by
  intro d hd
  exact ((C82_externs demo_plain demo_runs (e := ⟨3, some ⟨[], true, false, [], none, { libs := [[122]] }⟩⟩)
    (by decide) rfl).2 d (by simpa [demoResult, St.depAt] using hd)).2.1

/-- **C82**: the data of a target is what its function made of it; only the type may be adjusted, and an
empty source file added. -/
theorem C82_data {P : Project} {fuel : Nat} {roots : List (Nat × Bool)} {st : St}
    (h : instantiateRoots P fuel roots St.start = .ok st) {i : Nat} {e : Entry} {d : Dep} {acts : List Act}
    (he : st.entries[i]? = some e) (hd : e.dep = some d) (ha : (P.source e.src).body = .target acts) :
    d.data = { edited acts {} with
      ttype := finalType (decide (d.shared = some i)) d.shared.isSome (!(edited acts {}).dynPrefix.isEmpty)
        (edited acts {}).anySource (edited acts {}).ttype
      nullFile := (edited acts {}).nullFile || (!(edited acts {}).anySource &&
        (d.data.ttype = .dll || d.data.ttype = .exe)) } := by
  obtain ⟨g, sd, -, -, -⟩ := roots_start h
  have hi := sd e (List.mem_of_getElem? he) d hd
  have f := ((g.final i e d he hd hi).target acts ha).2
  generalize edited acts {} = x at f ⊢
  rw [f]
  generalize decide (d.shared = some i) = r
  generalize d.shared.isSome = s
  obtain ⟨t, p, _, _, _, _, _, _, _, _, _, a, nf⟩ := x
  cases a <;> cases t <;> cases r <;> cases s <;> cases p <;> cases nf <;> rfl

example : demoResult.entries[1]? = some ⟨1, some ⟨[], true, true, [98], none,
    { ttype := .lib, dynPrefix := [80], anySource := true }⟩⟩ ∧
    finalType false false true true .lib = .lib := ⟨rfl, rfl⟩

/-! ## Loops -/

/-- **C82**: after success no chain of requests from target to target goes on for ever. -/
theorem C82_no_loop {P : Project} {fuel : Nat} {roots : List (Nat × Bool)} {st : St}
    (h : instantiateRoots P fuel roots St.start = .ok st) {s : Nat} (hs : s ∈ st.entries.map (·.src))
    (ht : IsTarget P s) : EndsFrom (TargetAsks P) s := by
  obtain ⟨g, sd, -, -, -⟩ := roots_start h
  obtain ⟨i, e, he, rfl⟩ := has_iff.mp hs
  cases hd : e.dep with
  | none =>
    have hb := g.kind e (List.mem_of_getElem? he) hd
    obtain ⟨acts, ha⟩ := ht
    rw [hb] at ha; cases ha
  | some d => exact (g.final i e d he hd (sd e (List.mem_of_getElem? he) d hd)).ends ht

example : EndsFrom (TargetAsks demo) 2 := C82_no_loop demo_runs (by decide) ⟨_, rfl⟩

/-- **C82**: instantiation succeeds exactly when, from the root targets, no chain of requests goes on for
ever and no function asks twice for the same thing (that is available). -/
theorem C82_succeeds {P : Project} (hP : Plain P) {n : Nat} (hn : Below P n) {fuel : Nat} (hf : n ≤ fuel)
    (roots : List (Nat × Bool)) (hr : ∀ r ∈ roots, r.1 < n ∧ IsTarget P r.1) :
    (∃ st, instantiateRoots P fuel roots St.start = .ok st) ↔
      ∀ r ∈ roots, EndsFrom (Asks P) r.1 ∧ ∀ s, Reach P r.1 s → NoRepeat P s := by
  constructor
  · rintro ⟨st, h⟩ r hr1
    obtain ⟨g, sd, c, -, hh⟩ := roots_start h
    refine ⟨ends_plain hP (C82_no_loop h (hh r hr1) (hr r hr1).2) (hr r hr1).2, fun s hs => ?_⟩
    exact noRepeat_of g sd (c hP) (has_reach hP g sd (hh r hr1) hs)
  · intro h
    exact roots_ok hP hn hf roots St.start (Good.start P) (Acct.start P) (by simp [Settled, St.start])
      (by simp [AllBelow, St.start]) (fun r h1 => ⟨(hr r h1).1, h r h1⟩)

example : EndsFrom (Asks demo) 2 ∧ ∀ s, Reach demo 2 s → NoRepeat demo s :=
  (C82_succeeds demo_plain demo_below (Nat.le_refl 5) [(2, false)]
    (by intro r hr; simp at hr; subst hr; exact ⟨by decide, _, rfl⟩)).mp ⟨_, demo_runs⟩ (2, false) (by simp)

/-- A target that asks for another, which asks for the first. -/
def loopy : Project where
  source s := match s with
    | 0 => ⟨[97], .target [.dep .pub 1]⟩
    | _ => ⟨[98], .target [.dep .pub 0]⟩
  provider _ := ⟨9, [], false⟩
  selectors := []

/-- **C82**: the loop is reported for the target that is reached again. -/
theorem C82_loop_reported : instantiateRoots loopy 2 [(1, false)] St.start = .loop 1 ∧
    ¬ EndsFrom (Asks loopy) 1 := by
  refine ⟨by decide, fun h => ?_⟩
  exact no_way_back h 0 ⟨.pub, by simp [requests, loopy, asked]⟩
    (.step ⟨.pub, by simp [requests, loopy, asked]⟩ (.refl 1))

/-- **C82**: asking twice for the same target is reported, even with another visibility. -/
theorem C82_twice_reported :
    instantiateRoots
      { source := fun s => if s = 0 then ⟨[97], .target [.dep .priv 1, .dep .pub 1]⟩ else ⟨[98], .target []⟩
        provider := fun _ => ⟨9, [], false⟩, selectors := [] } 2 [(0, false)] St.start = .twice 1 := by
  decide

/-- The extern `1`, whose provider asks for the target `2`, which asks for the extern `1`; the root `0` asks
for the extern and then for the target, the root `3` the other way round. -/
def externLoop : Project where
  source s := match s with
    | 0 => ⟨[97], .target [.dep .pub 1, .dep .pub 2]⟩
    | 1 => ⟨[101], .extern⟩
    | 2 => ⟨[98], .target [.dep .pub 1]⟩
    | _ => ⟨[99], .target [.dep .pub 2, .dep .pub 1]⟩
  provider _ := ⟨1, [.dep .pub 2], true⟩
  selectors := [0]

/-- **C82**, what is missing where extern functions ask for dependencies: a loop through an extern is
reported if it is entered at the target.  If it is entered at the extern it is not: instantiation
succeeds, and the target is without the dependency on the extern, although that is available. -/
theorem C82_extern_loop :
    instantiateRoots externLoop 4 [(3, false)] St.start = .loop 2 ∧
    (∃ st, instantiateRoots externLoop 4 [(0, false)] St.start = .ok st ∧
      st.unselected = [] ∧ st.uninstalled = [] ∧
      ∃ d, st.entries[2]? = some ⟨2, some d⟩ ∧ d.deps = []) ∧
    requests externLoop 2 = [(.pub, 1)] ∧ available externLoop 1 = true := by
  refine ⟨by decide, ⟨_, by rfl, rfl, rfl, _, rfl, rfl⟩, by decide, by decide⟩

/-! ## What is reported -/

/-- **C82**: the externs reported as unselected are those needed for which nothing is selected; the
providers reported as not installed are those selected and needed that are not; each once. -/
theorem C82_reports {P : Project} (hP : Plain P) {fuel : Nat} {roots : List (Nat × Bool)} {st : St}
    (h : instantiateRoots P fuel roots St.start = .ok st) :
    (∀ s, s ∈ st.unselected ↔ (∃ r ∈ roots, Reach P r.1 s) ∧ (P.source s).body = .extern ∧
      chosen P s = none) ∧ st.unselected.Nodup ∧
    (∀ p, p ∈ st.uninstalled ↔ ∃ s, (∃ r ∈ roots, Reach P r.1 s) ∧ (P.source s).body = .extern ∧
      chosen P s = some p ∧ (P.provider p).installed = false) ∧ st.uninstalled.Nodup := by
  obtain ⟨-, -, c, -, -⟩ := roots_start h
  refine ⟨fun s => ?_, (c hP).unselOnce, fun p => ?_, (c hP).uninstOnce⟩
  · rw [(c hP).unsel s, ← C82_complete hP h s]; rfl
  · rw [(c hP).uninst p]
    constructor
    · rintro ⟨s, h1, h2⟩; exact ⟨s, (C82_complete hP h s).mp h1, h2⟩
    · rintro ⟨s, h1, h2⟩; exact ⟨s, (C82_complete hP h s).mpr h1, h2⟩

example : (4 ∈ demoResult.unselected) ∧ chosen demo 4 = none :=
  ⟨by decide, (((C82_reports demo_plain demo_runs).1 4).mp (by decide)).2.2⟩

theorem cmakeTargets_some : ∀ (l : List Entry), (cmakeTargets l).isSome = true ↔ ∀ e ∈ l, e.dep ≠ none := by
  intro l
  induction l with
  | nil => simp [cmakeTargets]
  | cons e l ih =>
    unfold cmakeTargets
    cases hd : e.dep with
    | none => simp [hd]
    | some d => simp [hd, ih]

/-- **C82**: writing the build system does not go through a null pointer exactly when nothing was reported
(which is when `generateLoop` gets to it). -/
theorem C82_writable {P : Project} (hP : Plain P) {fuel : Nat} {roots : List (Nat × Bool)} {st : St}
    (h : instantiateRoots P fuel roots St.start = .ok st) :
    (cmakeTargets st.entries).isSome = true ↔ st.unselected = [] ∧ st.uninstalled = [] := by
  obtain ⟨g, -, c, -, -⟩ := roots_start h
  have c := c hP
  rw [cmakeTargets_some]
  constructor
  · intro hs
    constructor
    · refine List.eq_nil_iff_forall_not_mem.mpr fun s hm => ?_
      obtain ⟨h1, h2, h3⟩ := (c.unsel s).mp hm
      obtain ⟨e, he, rfl⟩ := List.mem_map.mp h1
      have := c.avail e he
      unfold available at this
      rw [h2, h3] at this
      exact hs e he (by simpa using this)
    · refine List.eq_nil_iff_forall_not_mem.mpr fun p hm => ?_
      obtain ⟨s, h1, h2, h3, h4⟩ := (c.uninst p).mp hm
      obtain ⟨e, he, rfl⟩ := List.mem_map.mp h1
      have := c.avail e he
      unfold available at this
      rw [h2, h3] at this
      simp only [h4] at this
      exact hs e he (by simpa using this)
  · rintro ⟨h1, h2⟩ e he hd
    have hb := g.kind e he hd
    have hh : Has st.entries e.src := List.mem_map.mpr ⟨e, he, rfl⟩
    cases hc : chosen P e.src with
    | none =>
      have := (c.unsel e.src).mpr ⟨hh, hb, hc⟩
      rw [h1] at this; cases this
    | some p =>
      have := c.avail e he
      unfold available at this
      rw [hb, hc, hd] at this
      have := (c.uninst p).mpr ⟨e.src, hh, hb, hc, by simpa using this.symm⟩
      rw [h2] at this; cases this

example : cmakeTargets demoResult.entries = none ∧
    ¬ (demoResult.unselected = [] ∧ demoResult.uninstalled = []) :=
  ⟨rfl, fun h => by have := (C82_writable demo_plain demo_runs).mpr h; simp [cmakeTargets, demoResult] at this⟩

/-! ## Shared libraries -/

/-- **C82**: the targets instantiated along with a target go into the shared library that is this target
if it is to be shared, and otherwise into the one that the instantiator was last at, if any. -/
theorem C82_container {P : Project} {fuel s : Nat} {root : Bool} {st st' : St} {o : Option Nat}
    (g : Good P st) (hs : s ∉ st.entries.map (·.src)) (ht : IsTarget P s)
    (h : instantiate P fuel s root st = .ok (st', o)) :
    ∃ new, st'.entries = st.entries ++ new ∧
      st'.shared = (if root then some st.entries.length else st.shared) ∧
      ∀ e ∈ new, ∀ d, e.dep = some d → d.isTarget = true → d.shared = st'.shared := by
  obtain ⟨-, h1, new, stp⟩ := instantiate_works P fuel s root st st' o g h
  refine ⟨new, stp.ent, ?_, stp.contained⟩
  rw [h1]
  obtain ⟨acts, ha⟩ := ht
  simp [sharedAfter, ha, find_none.mpr hs]

example : ∃ st' o, instantiate demo 5 2 true St.start = .ok (st', o) ∧ st'.shared = some 0 :=
  ⟨_, _, rfl, rfl⟩

/-- Every target is in the same shared library, or in none. -/
def Uniform (st : St) (c : Option Nat) : Prop :=
  ∀ i d, st.depAt i = some d → d.isTarget = true → d.shared = c

theorem uniform_step {P : Project} {fuel s : Nat} {root : Bool} {st st' : St} {o : Option Nat} {c : Option Nat}
    (g : Good P st) (hu : Uniform st c) (h : instantiate P fuel s root st = .ok (st', o))
    (hc : st'.shared = c) : Uniform st' c := by
  obtain ⟨-, -, new, stp⟩ := instantiate_works P fuel s root st st' o g h
  intro i d hd ht
  unfold St.depAt at hd
  rw [stp.ent] at hd
  by_cases hlt : i < st.entries.length
  · rw [List.getElem?_append_left hlt] at hd
    exact hu i d hd ht
  · rw [List.getElem?_append_right (by omega)] at hd
    obtain ⟨e, he, hd⟩ := Option.bind_eq_some_iff.mp hd
    rw [← hc]
    exact stp.contained e (List.mem_of_getElem? he) d hd ht

theorem uniform_rest {P : Project} {fuel : Nat} {c : Option Nat} : ∀ (roots : List (Nat × Bool)) (st st' : St),
    Good P st → Uniform st c → st.shared = c → (∀ r ∈ roots, r.2 = false) →
    instantiateRoots P fuel roots st = .ok st' → Uniform st' c := by
  intro roots
  induction roots with
  | nil =>
    intro st st' _ hu _ _ h
    simp only [instantiateRoots, Res.ok.injEq] at h
    subst h; exact hu
  | cons r roots ih =>
    intro st st' g hu hc hr h
    simp only [instantiateRoots] at h
    obtain ⟨⟨st1, o⟩, h1, h2⟩ := Res.bind_ok.mp h
    obtain ⟨g1, h3, -⟩ := instantiate_works P fuel r.1 r.2 st st1 o g h1
    have : st1.shared = c := by
      rw [h3, sharedAfter, hr r (by simp)]
      split <;> simp [hc]
    exact ih st1 st' g1 (uniform_step g hu h1 this) this (fun q hq => hr q (List.mem_cons_of_mem _ hq)) h2

/-- **C82**: if no root target is to be shared, no target is in a shared library; if only the first is, all
are in that one. -/
theorem C82_one_container {P : Project} {fuel : Nat} {s : Nat} {b : Bool} {rest : List (Nat × Bool)} {st : St}
    (ht : IsTarget P s) (hr : ∀ r ∈ rest, r.2 = false)
    (h : instantiateRoots P fuel ((s, b) :: rest) St.start = .ok st) :
    Uniform st (if b then some 0 else none) := by
  simp only [instantiateRoots] at h
  obtain ⟨⟨st1, o⟩, h1, h2⟩ := Res.bind_ok.mp h
  obtain ⟨g1, h3, -⟩ := instantiate_works P fuel s b St.start st1 o (Good.start P) h1
  have : st1.shared = if b then some 0 else none := by
    rw [h3, sharedAfter]
    obtain ⟨acts, ha⟩ := ht
    rw [ha]
    cases b <;> simp [St.start, St.find]
  refine uniform_rest rest st1 st g1 (uniform_step (Good.start P) ?_ h1 this) this hr h2
  intro i d hd
  simp [St.start, St.depAt] at hd

example : (∃ st, instantiateRoots demo 5 [(0, true), (2, false)] St.start = .ok st) ∧
    ∀ st, instantiateRoots demo 5 [(0, true), (2, false)] St.start = .ok st → Uniform st (some 0) :=
  ⟨⟨_, rfl⟩, fun _ h => C82_one_container (b := true) ⟨_, rfl⟩ (by simp) h⟩

/-! ## Together with propagation (C42) -/

theorem toWorld_deps (st : St) (i : Nat) :
    ((toWorld st).node i).deps = match st.depAt i with | some d => d.deps | none => [] := by
  unfold toWorld
  simp only
  split <;> simp_all [toNode, newExtern]

/-- **C82**: the graph of dependencies that is handed to propagation has no cycles. -/
theorem C82_acyclic {P : Project} {fuel : Nat} {roots : List (Nat × Bool)} {st : St}
    (h : instantiateRoots P fuel roots St.start = .ok st) :
    ∃ r, Build.Spec.Acyclic (toWorld st) r ∧ Build.Spec.Fresh (toWorld st) := by
  obtain ⟨g, sd, -, -, -⟩ := roots_start h
  obtain ⟨r, hr⟩ := g.rank
  refine ⟨r, ?_, ?_⟩
  · rintro i c ⟨v, hv⟩
    rw [toWorld_deps] at hv
    unfold St.depAt at hv
    cases he : st.entries[i]? with
    | none => rw [he] at hv; simp at hv
    | some e =>
      rw [he] at hv
      simp only [Option.bind_some] at hv
      cases hd : e.dep with
      | none => rw [hd] at hv; simp at hv
      | some d =>
        rw [hd] at hv
        exact hr i e d he hd (sd e (List.mem_of_getElem? he) d hd) (v, c) hv
  · intro i
    unfold toWorld
    simp only
    split <;> exact ⟨rfl, rfl⟩

example : ∃ r, Build.Spec.Acyclic (toWorld demoResult) r ∧ Build.Spec.Fresh (toWorld demoResult) :=
  C82_acyclic demo_runs

theorem uniform_safe {st : St} {c : Option Nat} (hu : Uniform st c) (i : Nat) :
    Build.Spec.AllSafe (toWorld st) i := by
  have key : ∀ j t, ((toWorld st).node j).target = some t →
      t.shared = c.map (fun i => ⟨i, st.nameOf i⟩) := by
    intro j t hj
    unfold toWorld at hj
    simp only at hj
    cases hd : st.depAt j with
    | none => rw [hd] at hj; simp [toNode, newExtern] at hj
    | some d =>
      rw [hd] at hj
      simp only [toNode] at hj
      split at hj
      · rename_i hT
        cases hj
        simp only [hu j d hd hT]
      · cases hj
  intro e _
  constructor
  · intro k _ hn
    exact absurd (fun t u ht hu => (key _ t ht).trans (key _ u hu).symm) hn
  · intro t ht hne f u _ hu'
    rw [key _ u hu', ← key _ t ht]; exact hne

/-- **C82**: if at most the first root target is to be shared, propagation fails no assertion and gives
each target exactly what the graph of dependencies says (`Build.Spec.Done`, see C42). -/
theorem C82_propagates {P : Project} {fuel : Nat} {s : Nat} {b : Bool} {rest : List (Nat × Bool)} {st : St}
    (ht : IsTarget P s) (hr : ∀ r ∈ rest, r.2 = false)
    (h : instantiateRoots P fuel ((s, b) :: rest) St.start = .ok st) :
    ∃ k, ∀ fuel', k ≤ fuel' → ∃ w, Build.propagateAll fuel' (toWorld st) (present st) = .ok w ∧
      ∀ i ∈ present st, Build.Spec.Done (toWorld st) i (w.node i) := by
  obtain ⟨r, hr1, hf⟩ := C82_acyclic h
  have hu := C82_one_container ht hr h
  refine ⟨(present st).foldr (fun i m => max (r i + 1) m) 0, fun fuel' hk => ?_⟩
  have bound : ∀ (l : List Nat), ∀ d ∈ l, r d < l.foldr (fun i m => max (r i + 1) m) 0 := by
    intro l
    induction l with
    | nil => simp
    | cons x l ih =>
      intro d hd
      rcases List.mem_cons.mp hd with rfl | hd
      · simp only [List.foldr_cons]; omega
      · have := ih d hd; simp only [List.foldr_cons]; omega
  obtain ⟨w, h1, h2⟩ := Build.C42_exact hr1 hf (present st) fuel'
    (fun d hd => Nat.lt_of_lt_of_le (bound _ d hd) hk) (fun d _ => uniform_safe hu d)
  exact ⟨w, h1, fun i hi => (h2 i).1 ⟨i, hi, .refl _⟩⟩

/-- The libraries of an entry after propagation. -/
def libsAfter (st : St) (i : Nat) : Option (List Build.Str) :=
  match Build.propagateAll 9 (toWorld st) (present st) with
  | .ok w => some (w.node i).libs
  | _ => none

example : libsAfter demoResult 0 = some [[98], [122], [97]] := by decide +kernel

/-- A library `0` with a prefix; `1` and `2` ask for it. -/
def pair : Project where
  source s := match s with
    | 0 => ⟨[97], .target [src, pfx]⟩
    | 1 => ⟨[98], .target [src, .dep .priv 0]⟩
    | _ => ⟨[99], .target [exe, src, .dep .priv 0]⟩
  provider _ := ⟨9, [], false⟩
  selectors := []

/-- **C82** is false without "at most the first": where a root target that is to be shared comes before one
that is not, the second is put into the shared library of the first: it is linked with the object files of
the library they share, not with the shared library that contains it. -/
theorem C82_shared_leaks :
    ∃ st, instantiateRoots pair 3 [(1, true), (2, false)] St.start = .ok st ∧
      (st.depAt 2).map (·.shared) = some (some 0) ∧ (st.depAt 2).map (·.data.ttype) = some .exe ∧
      libsAfter st 2 = some [Build.objectsName [97]] := by
  refine ⟨_, by rfl, by decide, by decide, by decide +kernel⟩

/-- The two root targets instantiated the other way round. -/
def lateResult : St :=
  { entries := [
      ⟨2, some ⟨[(.priv, 1)], true, true, [99], none, { ttype := .exe, anySource := true }⟩⟩,
      ⟨0, some ⟨[], true, true, [97], none, { ttype := .lib, dynPrefix := [80], anySource := true }⟩⟩,
      ⟨1, some ⟨[(.priv, 1)], true, true, [98], some 2, { ttype := .dll, anySource := true }⟩⟩]
    shared := some 2, unselected := [], uninstalled := [] }

/-- **C82** is false without "the first": where it comes after one that is not to be shared and they have a
library in common, propagation fails an assertion. -/
theorem C82_shared_late :
    instantiateRoots pair 3 [(2, false), (1, true)] St.start = .ok lateResult ∧
      Build.propagateAll 9 (toWorld lateResult) (present lateResult) = .assert := by
  refine ⟨by decide +kernel, ?_⟩
  have h : (match Build.propagateAll 9 (toWorld lateResult) (present lateResult) with
    | .assert => true | _ => false) = true := by decide +kernel
  revert h
  generalize Build.propagateAll 9 (toWorld lateResult) (present lateResult) = r
  cases r <;> simp

/-- **C82**: a root target that is to be shared but has already been asked for by another root target is not
made a shared library. -/
theorem C82_shared_ignored :
    ∃ st, instantiateRoots demo 5 [(2, false), (0, true)] St.start = .ok st ∧ st = demoResult ∧
      (st.depAt 3).map (·.data.ttype) = some .lib := by
  refine ⟨_, by rfl, by decide +kernel, by decide⟩

end Verif.Inst
