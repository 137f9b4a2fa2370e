import Verif.Conc.ModelMisc
/-!
# `RaceDetector` (C55) and `Trace_Counters::addGroup` (C56)
-/
namespace Verif.Conc.Race

/-- The activities never overlap: each one ends before the next begins, on the same thread. -/
def Serial : List (Tid × Op) → Prop
  | [] => True
  | [(_, op)] => op = .enter
  | (t, a) :: (u, b) :: rest => a = .enter ∧ b = .exit ∧ t = u ∧ Serial rest

/-- Each thread on its own enters and leaves alternately, starting with enter (that is how
`RaceDetectGuard` is used). -/
def Alternates (t : Tid) (ops : List (Tid × Op)) : Prop :=
  ∀ k, ((ops.filter (·.1 = t)).map (·.2))[k]? = none ∨
    ((ops.filter (·.1 = t)).map (·.2))[k]? = some (if k % 2 = 0 then .enter else .exit)

theorem alternates_nil (t : Tid) : Alternates t [] := by intro k; simp

/-- Dropping a thread's first enter and exit. -/
theorem alternates_drop {t u : Tid} {rest : List (Tid × Op)}
    (h : Alternates t ((u, .enter) :: (u, .exit) :: rest)) : Alternates t rest := by
  intro k
  by_cases hu : u = t
  · subst hu
    have := h (k + 2)
    simpa using this
  · have := h k
    simpa [hu] using this

theorem alternates_first {t : Tid} {op : Op} {rest : List (Tid × Op)}
    (h : Alternates t ((t, op) :: rest)) : op = .enter := by
  have := h 0
  simpa using this

/-- **C55**: the detector lets a sequence of calls pass exactly if the activities it guards did not
overlap; as soon as two of them overlap, one of the calls crashes. -/
theorem C55_exact (ops : List (Tid × Op)) (h : ∀ t, Alternates t ops) :
    (run 0 ops).isSome ↔ Serial ops := by
  induction ops using Serial.induct with
  | case1 => simp [run, Serial]
  | case2 t op =>
    have := alternates_first (h t)
    subst this
    simp [run, run1, Serial]
  | case3 t a u b rest ih =>
    have ha := alternates_first (h t)
    subst ha
    cases b with
    | enter => simp [run, run1, Serial]
    | exit =>
      have hut : t = u := by
        refine Classical.byContradiction fun hne => ?_
        have := h u 0
        simp [hne] at this
      subst hut
      have := ih fun v => alternates_drop (h v)
      simp [run, run1, Serial, this]

/-- The calls, by whichever threads, are enter, exit, enter, exit, and so on. -/
def InTurn (ops : List (Tid × Op)) : Prop :=
  ∀ k op, (ops.map (·.2))[k]? = some op → op = if k % 2 = 0 then .enter else .exit

/-- **C55**: the detector lets any sequence of calls pass, whether or not threads use it as they should,
exactly if it is alternately an enter and an exit; in particular an exit that nothing entered before
crashes. -/
theorem C55_any : ∀ ops : List (Tid × Op), (run 0 ops).isSome ↔ InTurn ops
  | [] => by simp [run, InTurn]
  | [(t, op)] => by
    cases op
    · simp only [run, run1, InTurn]
      simp
      intro k; cases k <;> simp
    · simp only [run, run1, InTurn]
      simp
      exact ⟨0, by simp⟩
  | (t, a) :: (u, b) :: rest => by
    have ih := C55_any rest
    have hturn : InTurn ((t, a) :: (u, b) :: rest) ↔ a = .enter ∧ b = .exit ∧ InTurn rest := by
      constructor
      · intro h
        refine ⟨by simpa using h 0 a rfl, by simpa using h 1 b rfl, fun k op hk => ?_⟩
        have := h (k + 2) op (by simpa using hk)
        simpa using this
      · rintro ⟨rfl, rfl, h⟩ k op hk
        match k with
        | 0 => simpa [eq_comm] using hk
        | 1 => simpa [eq_comm] using hk
        | k + 2 =>
          have := h k op (by simpa using hk)
          simpa using this
    rw [hturn]
    cases a with
    | exit => simp [run, run1]
    | enter =>
      cases b with
      | enter => simp [run, run1]
      | exit => simpa [run, run1] using ih

/-- An exit without an enter. -/
example : ¬ InTurn [(1, .enter), (1, .exit), (2, .exit)] := fun h => by
  simpa using h 2 .exit rfl

example : (∀ t, Alternates t [(1, .enter), (1, .exit), (2, .enter), (2, .exit)]) ∧
    Serial [(1, .enter), (1, .exit), (2, .enter), (2, .exit)] := by
  refine ⟨?_, by simp [Serial]⟩
  intro t k
  by_cases h1 : 1 = t
  · subst h1
    match k with
    | 0 => right; rfl
    | 1 => right; rfl
    | k + 2 => left; simp
  · by_cases h2 : 2 = t
    · subst h2
      match k with
      | 0 => right; rfl
      | 1 => right; rfl
      | k + 2 => left; simp
    · left; simp [h1, h2]

/-- Two threads inside at once. -/
example : ¬ Serial [(1, .enter), (2, .enter), (1, .exit), (2, .exit)] := by simp [Serial]

end Verif.Conc.Race

namespace Verif.Conc.Groups

/-- The `next` fields link exactly the groups of the list, in order. -/
def Linked (next : Group → Option Group) : Option Group → List Group → Prop
  | o, [] => o = none
  | o, g :: rest => o = some g ∧ Linked next (next g) rest

theorem Linked.upd {next : Group → Option Group} {g : Group} {v : Option Group} :
    ∀ {l : List Group} {o : Option Group}, Linked next o l → g ∉ l → Linked (upd next g v) o l
  | [], _, h, _ => h
  | a :: l, o, ⟨h1, h2⟩, hn => by
    refine ⟨h1, ?_⟩
    rw [upd_other _ _ (fun e => hn (by rw [e]; exact List.mem_cons_self))]
    exact h2.upd fun hm => hn (List.mem_cons_of_mem _ hm)

structure Inv (s : St) : Prop where
  linked : Linked s.next s.first s.order
  nodup : s.order.Nodup
  iff : ∀ g, g ∈ s.order ↔ s.pc g = .done
  next : ∀ g o, s.pc g = .cas o → s.next g = o

theorem inv_init : Inv init := by
  constructor <;> simp [init, Linked]

theorem inv_step (s s' : St) (hi : Inv s) (h : step s s') : Inv s' := by
  obtain ⟨g, h⟩ := h
  obtain ⟨i1, i2, i3, i4⟩ := hi
  cases h with
  | call h1 => exact ⟨i1, i2, fun u => by simp only [upd]; grind, fun u o => by simp only [upd]; grind⟩
  | load h1 => exact ⟨i1, i2, fun u => by simp only [upd]; grind, fun u o => by simp only [upd]; grind⟩
  | @link o h1 =>
    refine ⟨i1.upd ?_, i2, fun u => by simp only [upd]; grind, fun u o => by simp only [upd]; grind⟩
    intro hm
    rw [(i3 g).mp hm] at h1; cases h1
  | @swap o h1 h2 =>
    have hg : g ∉ s.order := fun hm => by rw [(i3 g).mp hm] at h1; cases h1
    refine ⟨⟨rfl, ?_⟩, List.nodup_cons.mpr ⟨hg, i2⟩, fun u => by simp only [upd]; grind,
      fun u o => by simp only [upd]; grind⟩
    rw [i4 g o h1, ← h2]
    exact i1
  | @retry o h1 =>
    exact ⟨i1, i2, fun u => by simp only [upd]; grind, fun u o => by simp only [upd]; grind⟩

theorem walk_linked (s : St) : ∀ (l : List Group) (o : Option Group) (n : Nat),
    Linked s.next o l → l.length < n → walk s n o = l
  | [], o, n + 1, h, _ => by rw [show o = none from h]; rfl
  | g :: l, o, n + 1, ⟨h1, h2⟩, hn => by
    subst h1
    rw [walk, walk_linked s l _ n h2 (by simpa using hn)]

/-- **C56**: however the registrations interleave, walking the list at any time ends and visits exactly
the groups whose registration has taken effect, each once; no registration that has returned is
lost. -/
theorem C56_all_registered (s : St) (h : Reachable init step s) :
    ∃ l : List Group, l.Nodup ∧ (∀ g, g ∈ l ↔ s.pc g = .done) ∧
      ∀ n, l.length < n → walk s n s.first = l := by
  have hi : Inv s := h.invariant inv_init inv_step
  exact ⟨s.order, hi.nodup, hi.iff, fun n hn => walk_linked s _ _ n hi.linked hn⟩

/-- Two registrations race for the empty list; one has to retry. -/
example : ∃ s, Reachable init step s ∧ s.pc 1 = .done ∧ s.pc 2 = .done ∧ walk s 10 s.first = [1, 2] := by
  refine ⟨_, .step (.step (.step (.step (.step (.step (.step (.step (.step (.step .init
    ⟨1, .call rfl⟩) ⟨2, .call rfl⟩) ⟨1, .load rfl⟩) ⟨2, .load rfl⟩) ⟨1, .link rfl⟩) ⟨2, .link rfl⟩)
    ⟨2, .swap rfl rfl⟩) ⟨1, .retry rfl⟩) ⟨1, .link rfl⟩) ⟨1, .swap rfl rfl⟩, rfl, rfl, ?_⟩
  decide

/-- **C56**: registrations do not starve each other for ever: a failed exchange that is not spurious
means that another registration has taken effect since the head was read. -/
theorem C56_lock_free (s : St) (h : Reachable init step s) (g : Group) (o : Option Group)
    (hpc : s.pc g = .cas o) :
    (∃ s', Step g s s' ∧ s'.pc g = .done) ∨
    (∃ g', s.first = some g' ∧ s.pc g' = .done ∧ s.first ≠ o) := by
  have hi : Inv s := h.invariant inv_init inv_step
  by_cases ho : s.first = o
  · exact .inl ⟨_, .swap hpc ho, upd_same _ _ _⟩
  · right
    have hl := hi.linked
    cases hord : s.order with
    | nil =>
      rw [hord] at hl
      -- the head never goes back to null
      exfalso
      have key : ∀ s, Reachable init step s →
          (∀ g o, s.pc g = .cas o ∨ s.pc g = .link o → o ≠ none → s.first ≠ none) := by
        intro s h
        refine h.invariant (I := fun s => ∀ g o, s.pc g = .cas o ∨ s.pc g = .link o → o ≠ none →
          s.first ≠ none) (by simp [init]) ?_
        rintro s s' ih ⟨g, hs⟩
        have ih1 : ∀ g o, s.pc g = .cas o → o ≠ none → s.first ≠ none := fun g o h => ih g o (.inl h)
        have ih2 : ∀ g o, s.pc g = .link o → o ≠ none → s.first ≠ none := fun g o h => ih g o (.inr h)
        cases hs <;> simp only [upd] <;> grind
      have h1 : s.first = none := hl
      have := key s h g o (.inl hpc) (fun e => ho (h1.trans e.symm))
      exact this h1
    | cons g' rest =>
      rw [hord] at hl
      exact ⟨g', hl.1, (hi.iff g').mp (by rw [hord]; exact List.mem_cons_self), ho⟩

end Verif.Conc.Groups
