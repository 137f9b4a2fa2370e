import Verif.Own.LemmasEx
import Verif.Own.LemmasFunctor

namespace Verif.Own

open Spec

/-! ## Properties -/

/-- `clear` destroys everything that the pointer owns, directly or not, each object once and what is owned before its
owner; nothing else changes, and the pointer is null. -/
theorem C85_clear {s : State} (g : Good s) (a : Account s) {dst : Loc} (v : s.valid dst = true) (ap : Apart s dst) :
    ∃ s' m, clear s dst = some s' ∧ EverythingOf s (s.slot dst) m ∧ After s s' m (put s.slot dst none) ∧ Good s' :=
  clear_ok g a.live_once v ap

example : ∃ s' m, clear chained (.var 0) = some s' ∧ EverythingOf chained (chained.slot (.var 0)) m ∧
    After chained s' m (put chained.slot (.var 0) none) ∧ Good s' :=
  C85_clear chained_good chained_account rfl (chained_apart _)

example : (clear chained (.var 0)).map (·.gone) = some [1, 0] := rfl

/-- Assigning a raw pointer that nobody else owns. -/
theorem C85_assign {s : State} (g : Good s) (a : Account s) {dst : Loc} {p : Option Id} (v : s.valid dst = true)
    (ap : Apart s dst) (hp : ∀ q, p = some q → q ∈ s.live ∧ ∀ k, s.valid k = true → s.slot k ≠ some q) :
    ∃ s' m, assignRaw s dst p = some s' ∧ EverythingOf s (s.slot dst) m ∧ After s s' m (put s.slot dst p) ∧ Good s' :=
  assignRaw_ok g a.live_once v ap hp

example : ∃ s' m, assignRaw chained (.member 0 0) none = some s' ∧ EverythingOf chained (chained.slot (.member 0 0)) m ∧
    After chained s' m (put chained.slot (.member 0 0) none) ∧ Good s' :=
  C85_assign chained_good chained_account rfl (chained_apart _) (by simp)

/-- `release` hands over the pointer and destroys nothing. -/
theorem C85_release {s : State} (g : Good s) {src : Loc} (v : s.valid src = true) :
    ∃ s', release s src = some (s.slot src, s') ∧ After s s' [] (put s.slot src none) ∧ Good s' ∧
      ∀ q, s.slot src = some q → ∀ k, s'.valid k = true → s'.slot k ≠ some q := by
  obtain ⟨s', h1, h2, h3⟩ := release_ok g v
  refine ⟨s', h1, h2, h3, ?_⟩
  intro q e k vk ek
  rw [h2.slot] at ek
  unfold put at ek
  split at ek
  · cases ek
  · next ne => exact ne (g.unique k src q ((after_valid h2).1 vk).1 v ek e)

example : ∃ s', release chained (.member 0 0) = some (chained.slot (.member 0 0), s') ∧
    After chained s' [] (put chained.slot (.member 0 0) none) ∧ Good s' ∧
      ∀ q, chained.slot (.member 0 0) = some q → ∀ k, s'.valid k = true → s'.slot k ≠ some q :=
  C85_release chained_good rfl

/-- Assigning a new object: what the pointer owned is destroyed, and it owns the new object, whose own pointers are
null. -/
theorem C85_create {s : State} (g : Good s) (a : Account s) {dst : Loc} (n : Nat) (v : s.valid dst = true) (ap : Apart s dst) :
    ∃ s' m, create s dst n = some s' ∧ EverythingOf s (s.slot dst) m ∧ s'.gone = s.gone ++ m ∧
      (∀ o, o ∈ s'.live ↔ o = s.next ∨ (o ∈ s.live ∧ o ∉ m)) ∧ s'.slot dst = some s.next ∧
      (∀ k, s.valid k = true → k ≠ dst → s'.slot k = s.slot k) ∧
      (∀ i, i < n → s'.valid (.member s.next i) = true ∧ s'.slot (.member s.next i) = none) ∧ Good s' := by
  obtain ⟨s', m, h1, h2, h3, h4⟩ := create_ok g a n v ap
  have nm : s.next ∉ m := by
    intro h
    cases e : s.slot dst with
    | none =>
      rw [e] at h2
      cases (show m = [] from h2)
      cases h
    | some p =>
      rw [e] at h2
      exact next_fresh a (good_reach g (g.exist dst p v e) ((h2.exact _).1 h))
  have live : ∀ o, o ∈ s'.live ↔ o = s.next ∨ (o ∈ s.live ∧ o ∉ m) := by
    intro o
    rw [h3.live, show (new s n).2.live = s.next :: s.live from rfl, List.mem_cons]
    constructor
    · rintro ⟨rfl | h, k⟩
      · exact .inl rfl
      · exact .inr ⟨h, k⟩
    · rintro (rfl | ⟨h, k⟩)
      · exact ⟨.inl rfl, nm⟩
      · exact ⟨.inr h, k⟩
  refine ⟨s', m, h1, h2, h3.gone, live, by rw [h3.slot, put_same], ?_, ?_, h4⟩
  · intro k vk ne
    rw [h3.slot, put_ne ne, slot_new (valid_ne_next a vk)]
  · intro i hi
    refine ⟨live_valid ((live _).2 (.inl rfl)) ?_, ?_⟩
    · rw [h3.size]
      simpa [new] using hi
    · rw [h3.slot, put_ne (Ne.symm (valid_ne_next a v i)), slot_new_next]

example : ∃ s' m, create chained (.member 0 0) 2 = some s' ∧ EverythingOf chained (chained.slot (.member 0 0)) m ∧
    s'.gone = chained.gone ++ m ∧ (∀ o, o ∈ s'.live ↔ o = chained.next ∨ (o ∈ chained.live ∧ o ∉ m)) ∧
      s'.slot (.member 0 0) = some chained.next ∧
      (∀ k, chained.valid k = true → k ≠ .member 0 0 → s'.slot k = chained.slot k) ∧
      (∀ i, i < 2 → s'.valid (.member chained.next i) = true ∧ s'.slot (.member chained.next i) = none) ∧ Good s' :=
  C85_create chained_good chained_account 2 rfl (chained_apart _)

/-- Moving one owning pointer to another destroys exactly what the destination owned; the source is null afterwards and
the destination owns what the source did.  Partial: not if the source belongs to what is destroyed. -/
theorem C85_move_partial {s : State} (g : Good s) (a : Account s) {dst src : Loc} (v : s.valid dst = true)
    (vs : s.valid src = true) (ap : Apart s dst) (h : ∀ p, s.slot dst = some p → dst ≠ src ∧ ¬ Inside s p src) :
    ∃ s' m, moveAssign s dst src = some s' ∧ EverythingOf s (s.slot dst) m ∧
      After s s' m (put (put s.slot src none) dst (s.slot src)) ∧ Good s' :=
  moveAssign_ok g a.live_once v vs ap h

example : ∃ s' m, moveAssign chained (.member 0 0) (.var 1) = some s' ∧
    EverythingOf chained (chained.slot (.member 0 0)) m ∧
      After chained s' m (put (put chained.slot (.var 1) none) (.member 0 0) (chained.slot (.var 1))) ∧ Good s' :=
  C85_move_partial chained_good chained_account rfl rfl (chained_apart _) (by simp [Inside])

/-- Exactly when a move goes wrong: the same non-null pointer on both sides, or a source that belongs to what the
destination owns, which is gone when the source is read. -/
theorem C85_move_iff {s : State} (g : Good s) (a : Account s) {dst src : Loc} (v : s.valid dst = true)
    (vs : s.valid src = true) (ap : Apart s dst) :
    moveAssign s dst src = none ↔ ∃ p, s.slot dst = some p ∧ (dst = src ∨ Inside s p src) := by
  constructor
  · intro e
    refine Classical.byContradiction fun h => ?_
    obtain ⟨s', m, h1, _⟩ := moveAssign_ok g a.live_once v vs ap (by
      intro p ep
      refine ⟨fun k => h ⟨p, ep, .inl k⟩, fun k => h ⟨p, ep, .inr k⟩⟩)
    rw [e] at h1
    cases h1
  · rintro ⟨p, ep, h⟩
    have r1 : s.read dst = some (s.slot dst) := by simp [State.read, v]
    have r2 : s.read src = some (s.slot src) := by simp [State.read, vs]
    simp only [moveAssign, r1, r2, Option.bind_eq_bind, Option.bind_some]
    split
    · next as =>
      rcases h with rfl | h
      · rw [ep] at as
        simp at as
      · obtain ⟨m, em, hm⟩ := destroyPtr_ok g a.live_once v ap
        have nv : (lessen s m).valid src = false := by
          rw [← Bool.not_eq_true, valid_after hm]
          exact fun k => k.2 p ep h
        rw [em]
        simp [release, State.read, nv]
    · rfl

example : moveAssign chained (.var 0) (.member 1 0) = none :=
  (C85_move_iff chained_good chained_account rfl rfl (chained_apart _)).2
    ⟨0, rfl, .inr (Reach.step .refl ⟨0, by decide, rfl⟩)⟩

/-- `p = std::move(p->next)` is an access to an object that was just destroyed, for any chain. -/
theorem C85_move_next {s : State} (g : Good s) (a : Account s) {v : Nat} {p : Id} {i : Nat} (e : s.slot (.var v) = some p)
    (h : i < s.size p) : moveAssign s (.var v) (.member p i) = none :=
  (C85_move_iff g a rfl (live_valid (g.exist _ _ rfl e) h) (fun _ _ h => by cases h)).2 ⟨p, e, .inr .refl⟩

example : moveAssign chained (.var 0) (.member 0 0) = none := C85_move_next chained_good chained_account rfl (by decide)

/-- Whatever a program does, proper or not: as long as nothing went wrong, each object that was made exists or was
destroyed, none was destroyed twice, and none that exists was destroyed. -/
theorem C85_once {ops : List Op} {s : State} (h : run start ops = some s) : Account s := account_run h account_start

example : ∃ s, run start (chain ++ [.clear (.var 0)]) = some s ∧ Account s ∧ s.gone = [1, 0] ∧ s.next = 2 :=
  ⟨_, rfl, C85_once (ops := chain ++ [.clear (.var 0)]) rfl, rfl, rfl⟩

/-- A program that keeps to the rules never touches what was destroyed, and what its pointers point to always exists and
has one owner. -/
theorem C85_proper {ops : List Op} (h : Throughout Proper start ops) :
    ∃ s, run start ops = some s ∧ Good s ∧ Account s :=
  proper_run (fun s => Good s ∧ Account s)
    (fun s op i p => by
      obtain ⟨s', e, g⟩ := proper_step i.1 i.2 p
      exact ⟨s', e, g, account_step e i.2⟩) ops start ⟨good_start, account_start⟩ h

example : ∃ s, run start chain = some s ∧ Good s ∧ Account s :=
  C85_proper (throughout_mono (fun _ _ h => h.1) _ _ chain_tidy)

/-- Destructing variables leaves exactly what could not be reached from them. -/
theorem C85_clear_vars {s : State} (g : Good s) (a : Account s) (vs : List Nat) :
    ∃ s', run s (vs.map fun v => .clear (.var v)) = some s' ∧ Good s' ∧
      ∀ o, o ∈ s'.live ↔ o ∈ s.live ∧ ¬ ∃ v ∈ vs, ∃ p, s.slot (.var v) = some p ∧ Reach s p o :=
  clear_vars vs s g a

example : ∃ s', run chained ([1, 0].map fun v => .clear (.var v)) = some s' ∧ Good s' ∧
    ∀ o, o ∈ s'.live ↔ o ∈ chained.live ∧ ¬ ∃ v ∈ [1, 0], ∃ p, chained.slot (.var v) = some p ∧ Reach chained p o :=
  C85_clear_vars chained_good chained_account [1, 0]

/-- A program that uses no raw pointers and moves nothing into itself leaks nothing: everything that exists is reached
from a variable, and is gone when the variables are. -/
theorem C85_no_leak_partial {ops : List Op} (h : Throughout (fun s op => Proper s op ∧ Tidy s op) start ops) :
    ∃ s, run start ops = some s ∧ (∀ o ∈ s.live, ∃ v p, s.slot (.var v) = some p ∧ Reach s p o) ∧
      ∀ vs : List Nat, (∀ v p, s.slot (.var v) = some p → v ∈ vs) →
        ∃ s', run s (vs.map fun v => .clear (.var v)) = some s' ∧ s'.live = [] ∧ ∀ o, o < s.next → o ∈ s'.gone := by
  obtain ⟨s, e, g, a, F, H⟩ := proper_run (fun s => Good s ∧ Account s ∧ Forest s ∧ Held s)
    (fun s op i p => tidy_step i.1 i.2.1 i.2.2.1 i.2.2.2 p.1 p.2) ops start
    ⟨good_start, account_start, (fun _ _ _ e => by cases e), (fun _ h => by cases h)⟩ h
  have root : ∀ o ∈ s.live, ∃ v p, s.slot (.var v) = some p ∧ Reach s p o := fun o ho =>
    held_root F H s.live.length [] o ho (by simp) (by simp) (by simp)
  refine ⟨s, e, root, ?_⟩
  intro vs hv
  obtain ⟨s', e', _, l'⟩ := clear_vars vs s g a
  have none_left : s'.live = [] := by
    rw [List.eq_nil_iff_forall_not_mem]
    intro o ho
    obtain ⟨ho, n⟩ := (l' o).1 ho
    obtain ⟨v, p, h1, h2⟩ := root o ho
    exact n ⟨v, hv v p h1, p, h1, h2⟩
  refine ⟨s', e', none_left, ?_⟩
  intro o ho
  have a' := account_run e' a
  have nx : s.next ≤ s'.next := by
    have : ∀ (vs : List Nat) (s s' : State), run s (vs.map fun v => .clear (.var v)) = some s' → Account s → Good s →
        s'.next = s.next := by
      intro vs
      induction vs with
      | nil =>
        intro s s' e _ _
        cases e
        rfl
      | cons v vs ih =>
        intro s s' e a g
        obtain ⟨t, h1, h2⟩ := Option.bind_eq_some_iff.1
          (show (step s (.clear (.var v))).bind (run · (vs.map fun v => .clear (.var v))) = some s' from e)
        obtain ⟨t', m, k1, _, k3, k4⟩ := clear_ok g a.live_once (dst := .var v) rfl (fun p _ h => h)
        have : t' = t := by
          have := k1.symm.trans h1
          simpa using this
        subst this
        rw [ih _ _ h2 (account_step h1 a) k4, k3.next]
    exact Nat.le_of_eq (this vs s s' e' a g).symm
  have := (a'.all o).1 (Nat.lt_of_lt_of_le ho nx)
  rw [none_left] at this
  simpa using this

example : ∃ s, run start chain = some s ∧ (∀ o ∈ s.live, ∃ v p, s.slot (.var v) = some p ∧ Reach s p o) ∧
    ∀ vs : List Nat, (∀ v p, s.slot (.var v) = some p → v ∈ vs) →
      ∃ s', run s (vs.map fun v => .clear (.var v)) = some s' ∧ s'.live = [] ∧ ∀ o, o < s.next → o ∈ s'.gone :=
  C85_no_leak_partial chain_tidy

/-- What the last theorem leaves out does happen: `a->next = std::move(a)` is a proper program after which no variable
is left that holds anything, and the object is never destroyed by any destruction of variables. -/
theorem C85_cycle_leaks : ∃ s, run start cycle = some s ∧ Throughout Proper start cycle ∧
    (∀ v, s.slot (.var v) = none) ∧ s.live = [0] ∧
      ∀ vs : List Nat, ∃ s', run s (vs.map fun v => .clear (.var v)) = some s' ∧ 0 ∈ s'.live := by
  obtain ⟨s, e, g, a⟩ := C85_proper cycle_proper
  cases (cycled_eq.symm.trans e)
  refine ⟨_, e, cycle_proper, cycled_var, rfl, ?_⟩
  intro vs
  obtain ⟨s', h1, _, h3⟩ := clear_vars vs _ g a
  refine ⟨s', h1, (h3 0).2 ⟨by decide, ?_⟩⟩
  rintro ⟨v, _, p, ev, _⟩
  rw [cycled_var] at ev
  cases ev

/-! ## Functors -/

/-- Functors never share what they hold and never hold what was deleted, so none is deleted twice. -/
theorem C85_functor_safe {ops : List FunctorOp} (h : FunctorThroughout FunctorProper functorStart ops) :
    FunctorGood (functorRun functorStart ops) :=
  functor_run_ind FunctorGood (fun _ _ g p => functor_good_step g p) ops functorStart functor_good_start h

theorem functor_example : FunctorThroughout FunctorProper functorStart [.make 0, .make 1, .move 0 1, .drop 0, .drop 1] := by
  refine ⟨rfl, rfl, trivial, trivial, trivial, trivial⟩

example : FunctorGood (functorRun functorStart [.make 0, .make 1, .move 0 1, .drop 0, .drop 1]) :=
  C85_functor_safe functor_example

/-- If no functor is assigned to that holds something, nothing leaks. -/
theorem C85_functor_no_leak_partial {ops : List FunctorOp}
    (h : FunctorThroughout (fun s op => FunctorProper s op ∧ FunctorTidy s op) functorStart ops) (fs : List Nat)
    (all : ∀ f w, (functorRun functorStart ops).wrapper f = some w → f ∈ fs) :
    (functorRun (functorRun functorStart ops) (fs.map .drop)).live = [] := by
  have st : ∀ s op, (FunctorGood s ∧ FunctorHeld s) → (FunctorProper s op ∧ FunctorTidy s op) →
      FunctorGood (functorStep s op) ∧ FunctorHeld (functorStep s op) :=
    fun s op i p => ⟨functor_good_step i.1 p.1, functor_held_step i.1 i.2 p.1 p.2⟩
  have i1 := functor_run_ind (fun s => FunctorGood s ∧ FunctorHeld s) st ops functorStart
    ⟨functor_good_start, fun _ h => by cases h⟩ h
  have i2 := functor_run_ind (fun s => FunctorGood s ∧ FunctorHeld s) st (fs.map .drop) _ i1 (functor_throughout_drop fs _)
  rw [List.eq_nil_iff_forall_not_mem]
  intro w hw
  obtain ⟨k, e⟩ := i2.2 w hw
  rw [functor_drops] at e
  split at e
  · cases e
  · next nk => exact nk (all k w e)

example : (functorRun (functorRun functorStart [.make 1, .move 0 1, .make 1]) ([0, 1].map .drop)).live = [] :=
  C85_functor_no_leak_partial (ops := [.make 1, .move 0 1, .make 1]) ⟨⟨rfl, trivial⟩, ⟨trivial, rfl⟩, ⟨rfl, trivial⟩, trivial⟩
    [0, 1] (by
      intro f w e
      by_cases a : f = 0
      · simp [a]
      · by_cases b : f = 1
        · simp [b]
        · simp [functorRun, functorStep, functorStart, a, b] at e)

/-- Assigning to a functor that holds something loses it: whatever the program does afterwards, it is never deleted.  With
the same functor on both sides it ends up empty as well. -/
theorem C85_functor_leaks {s : Functors} (g : FunctorGood s) {f k : Nat} {w : Id} (e : s.wrapper f = some w)
    (ops : List FunctorOp) :
    w ∈ (functorRun (functorStep s (.move f k)) ops).live ∧
      ∀ j, (functorRun (functorStep s (.move f k)) ops).wrapper j ≠ some w := by
  have h0 : w ∈ (functorStep s (.move f k)).live ∧ w < (functorStep s (.move f k)).next ∧
      ∀ j, (functorStep s (.move f k)).wrapper j ≠ some w := by
    refine ⟨g.exist f w e, g.fresh w (g.exist f w e), ?_⟩
    intro j ej
    simp only [functorStep] at ej
    split at ej
    · cases ej
    · next jk =>
      split at ej
      · next jf => exact jk (jf.trans (g.unique f k w e ej))
      · next jf => exact jf (g.unique j f w ej e)
  have : ∀ (ops : List FunctorOp) (s : Functors), (w ∈ s.live ∧ w < s.next ∧ ∀ j, s.wrapper j ≠ some w) →
      (w ∈ (functorRun s ops).live ∧ w < (functorRun s ops).next ∧ ∀ j, (functorRun s ops).wrapper j ≠ some w) := by
    intro ops
    induction ops with
    | nil => exact fun _ h => h
    | cons op ops ih => exact fun s h => ih _ (functor_lost h op)
  exact ⟨(this ops _ h0).1, (this ops _ h0).2.2⟩

example : (0 : Id) ∈ (functorRun (functorStep (functorRun functorStart [.make 0, .make 1]) (.move 0 1)) [.drop 0, .drop 1]).live :=
  (C85_functor_leaks (s := functorRun functorStart [.make 0, .make 1])
    (C85_functor_safe ⟨rfl, rfl, trivial⟩) (f := 0) (k := 1) (w := 0) rfl [.drop 0, .drop 1]).1

/-- A functor moved to another is empty, and the other holds what it held. -/
theorem C85_functor_move (s : Functors) (f k : Nat) :
    (functorStep s (.move f k)).wrapper k = none ∧ (f ≠ k → (functorStep s (.move f k)).wrapper f = s.wrapper k) ∧
      (∀ j, j ≠ f → j ≠ k → (functorStep s (.move f k)).wrapper j = s.wrapper j) ∧
      (functorStep s (.move f k)).live = s.live := by
  refine ⟨by simp [functorStep], fun h => by simp [functorStep, h], fun j a b => by simp [functorStep, a, b], rfl⟩

example : (functorStep (functorRun functorStart [.make 1]) (.move 0 1)).wrapper 0 = some 0 :=
  (C85_functor_move (functorRun functorStart [.make 1]) 0 1).2.1 (by decide)

end Verif.Own
