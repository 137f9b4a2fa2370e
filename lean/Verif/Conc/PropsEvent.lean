import Verif.Conc.ModelEvent
/-!
# `ManualResetEvent_CondVar` — properties C39
-/
namespace Verif.Conc.Event

/-- The thread owns the mutex. -/
def Owns : PC → Prop
  | .sigSet | .sigWake | .sigUnlock | .rstSet | .rstUnlock | .wCheck | .wWait | .wUnlock => True
  | _ => False

/-- What holds between any two steps. -/
structure Inv (s : St) : Prop where
  owns : ∀ t, Owns (s.pc t) ↔ s.owner = some t
  returning : ∀ t, s.pc t = .wUnlock → s.state = true
  waiting : ∀ t, s.pc t = .wWait → s.state = false
  waking : ∀ t, s.pc t = .sigWake → s.state = true
  asleep : ∀ t, s.pc t = .asleep → s.state = true → ∃ u, s.pc u = .sigWake

theorem inv_init (b : Bool) : Inv (init b) := by
  constructor <;> simp [init, Owns]

theorem inv_step (s s' : St) (hi : Inv s) (h : step s s') : Inv s' := by
  obtain ⟨t, h⟩ := h
  obtain ⟨i1, i2, i3, i4, i5⟩ := hi
  rcases h with h | h
  · cases h <;> constructor <;> simp only [upd] <;> grind [Owns]
  · cases h <;> constructor <;> simp only [upd] <;> grind [Owns]

theorem inv_reachable {b : Bool} {s : St} (h : Reachable (init b) step s) : Inv s :=
  h.invariant (inv_init b) inv_step

/-- The thread is inside `wait`. -/
def InWait (p : PC) : Prop :=
  p = .wLock ∨ p = .wCheck ∨ p = .wWait ∨ p = .asleep ∨ p = .woken ∨ p = .wUnlock

/-- **C39**: a thread inside `wait` comes out of it only at a moment when the event is signalled. -/
theorem C39_returns_signalled (b : Bool) (s s' : St) (h : Reachable (init b) step s) (t : Tid)
    (ht : InWait (s.pc t)) (hs : step s s') (hr : ¬ InWait (s'.pc t)) : s.state = true := by
  have hi := inv_reachable h
  have hp : s.pc t = .wUnlock := by
    obtain ⟨u, hs⟩ := hs
    rcases hs with hs | hs <;> cases hs <;> simp only [upd] at hr <;> grind [InWait]
  exact hi.returning t hp

/-- Wait, signal, and the waiting thread returns. -/
example : ∃ s s', Reachable (init false) step s ∧ InWait (s.pc 1) ∧ step s s' ∧
    ¬ InWait (s'.pc 1) := by
  refine ⟨_, _, .step (.step (.step (.step (.step (.step (.step (.step (.step (.step (.step (.step
    .init
    ⟨1, .inl (.wait rfl)⟩) ⟨1, .inr (.wLock rfl rfl)⟩) ⟨1, .inr (.wCheck rfl)⟩)
    ⟨1, .inr (.wWait rfl)⟩) ⟨2, .inl (.signal rfl)⟩) ⟨2, .inr (.sigLock rfl rfl)⟩)
    ⟨2, .inr (.sigSet rfl)⟩) ⟨2, .inr (.sigWake rfl)⟩) ⟨2, .inr (.sigUnlock rfl)⟩)
    ⟨1, .inr (.woken rfl rfl)⟩) ⟨1, .inr (.wCheck rfl)⟩) ⟨3, .inl (.wait rfl)⟩, ?_,
    ⟨1, .inr (.wReturn rfl)⟩, ?_⟩
  · right; right; right; right; right; rfl
  · simp [InWait, upd]

/-- **C39**, no lost wake-up: a thread is asleep only while the event is not signalled, or while some
thread is in the middle of `signal` and about to wake everyone. -/
theorem C39_no_lost_wakeup (b : Bool) (s : St) (h : Reachable (init b) step s) (t : Tid)
    (ht : s.pc t = .asleep) : s.state = false ∨ ∃ u, s.pc u = .sigWake := by
  cases hs : s.state with
  | false => exact .inl rfl
  | true => exact .inr ((inv_reachable h).asleep t ht hs)

/-- **C39**: once `signal` has returned, and until a `reset`, nobody is asleep in `wait`. -/
theorem C39_signal_wakes (b : Bool) (s s' : St) (h : Reachable (init b) step s) (u : Tid)
    (hu : s.pc u = .sigUnlock) (hs : Work u s s') (hst : s.state = true) (t : Tid) :
    s'.pc t ≠ .asleep := by
  have hi := inv_reachable h
  obtain ⟨i1, i2, i3, i4, i5⟩ := hi
  have hnone : ∀ v, s.pc v ≠ .sigWake := by
    intro v hv
    have h1 := (i1 u).mp (by rw [hu]; trivial)
    have h2 := (i1 v).mp (by rw [hv]; trivial)
    have : u = v := by rw [h1] at h2; exact Option.some.inj h2
    subst this
    rw [hu] at hv; cases hv
  cases hs <;> simp_all [upd] <;> grind

/-- Between setting the state and returning, `signal` leaves the event signalled. -/
theorem C39_signalled_on_return (b : Bool) (s : St) (h : Reachable (init b) step s) (u : Tid)
    (hu : s.pc u = .sigWake ∨ s.pc u = .sigUnlock) : s.state = true := by
  have : Inv s ∧ ∀ u, s.pc u = .sigUnlock → s.state = true := by
    refine h.invariant (I := fun s => Inv s ∧ ∀ u, s.pc u = .sigUnlock → s.state = true)
      ⟨inv_init b, by simp [init]⟩ ?_
    rintro s s' ⟨hi, hj⟩ hs
    refine ⟨inv_step s s' hi hs, ?_⟩
    obtain ⟨i1, i2, i3, i4, i5⟩ := hi
    obtain ⟨t, hs⟩ := hs
    rcases hs with hs | hs <;> cases hs <;> simp only [upd] <;> grind [Owns]
  rcases hu with hu | hu
  · exact this.1.waking u hu
  · exact this.2 u hu

/-- How many steps a thread may still take, the event being and staying signalled. -/
def rank : PC → Nat
  | .outside => 0
  | .sigUnlock | .rstUnlock | .wUnlock => 1
  | .sigWake | .wCheck => 2
  | .sigSet | .wLock | .woken => 3
  | .sigLock | .asleep => 4
  | .rstSet | .rstLock | .wWait => 5

/-- Sum over the first `n` threads. -/
def total (f : Tid → Nat) : Nat → Nat
  | 0 => 0
  | n + 1 => total f n + f n

theorem total_le {f g : Tid → Nat} (h : ∀ t, f t ≤ g t) : ∀ n, total f n ≤ total g n
  | 0 => Nat.le_refl _
  | n + 1 => Nat.add_le_add (total_le h n) (h n)

theorem total_lt {f g : Tid → Nat} (h : ∀ t, f t ≤ g t) {t : Tid} (ht : f t < g t) :
    ∀ n, t < n → total f n < total g n
  | 0, hn => absurd hn (Nat.not_lt_zero _)
  | n + 1, hn => by
    by_cases htn : t = n
    · subst htn
      exact Nat.add_lt_add_of_le_of_lt (total_le h _) ht
    · exact Nat.add_lt_add_of_lt_of_le (total_lt h ht n (Nat.lt_of_le_of_ne (Nat.le_of_lt_succ hn) htn)) (h n)

/-- Signalled, no reset under way, at most the first `n` threads busy. -/
structure Settling (n : Nat) (s : St) : Prop where
  inv : Inv s
  state : s.state = true
  noReset : ∀ t, s.pc t ≠ .rstLock ∧ s.pc t ≠ .rstSet
  few : ∀ t, n ≤ t → s.pc t = .outside

theorem settling_work {n : Nat} {s s' : St} (h : Settling n s) (hw : work s s') :
    Settling n s' ∧ total (fun t => rank (s'.pc t)) n < total (fun t => rank (s.pc t)) n := by
  have hinv : Inv s' := inv_step s s' h.inv (by obtain ⟨t, hw⟩ := hw; exact ⟨t, .inr hw⟩)
  obtain ⟨i0, hst, hr, hf⟩ := h
  obtain ⟨i1, i2, i3, i4, i5⟩ := i0
  obtain ⟨t, hw⟩ := hw
  have hb : t < n := by
    rcases Nat.lt_or_ge t n with h | h
    · exact h
    · have := hf t h
      cases hw <;> simp_all
  have h1 : ∀ u, rank (s'.pc u) ≤ rank (s.pc u) := by
    intro u
    cases hw <;> simp only [upd] <;> grind [rank]
  have h2 : rank (s'.pc t) < rank (s.pc t) := by
    cases hw <;> simp only [upd] <;> grind [rank]
  refine ⟨⟨hinv, ?_, ?_, ?_⟩, total_lt h1 h2 n hb⟩
  · cases hw <;> grind
  · intro u
    cases hw <;> simp only [upd] <;> grind
  · intro u hu
    cases hw <;> simp only [upd] <;> grind

/-- **C39**, everyone is released: once the event is signalled, and as long as nobody calls `reset`,
the threads already inside `signal` and `wait` can take only a bounded number of steps, however they
are scheduled and however often they wake up for no reason … -/
theorem C39_bounded (b : Bool) (s : St) (h : Reachable (init b) step s) (hst : s.state = true)
    (hr : ∀ t, s.pc t ≠ .rstLock ∧ s.pc t ≠ .rstSet) (n : Nat) (hn : ∀ t, n ≤ t → s.pc t = .outside)
    (k : Nat) (s' : St) (hc : Chain work k s s') :
    k ≤ total (fun t => rank (s.pc t)) n := by
  have hS : Settling n s := ⟨inv_reachable h, hst, hr, hn⟩
  clear h hst hr hn
  induction hc with
  | nil => omega
  | cons h1 _ ih =>
    obtain ⟨hS', hlt⟩ := settling_work hS h1
    have := ih hS'
    omega

/-- … and they cannot stop before all of them have returned. -/
theorem C39_all_return (b : Bool) (s : St) (h : Reachable (init b) step s) (hst : s.state = true)
    (hr : ∀ t, s.pc t ≠ .rstLock ∧ s.pc t ≠ .rstSet) (n : Nat) (hn : ∀ t, n ≤ t → s.pc t = .outside)
    (k : Nat) (s' : St) (hc : Chain work k s s') (hend : ¬ ∃ s'', work s' s'') :
    ∀ t, s'.pc t = .outside := by
  have hS : Settling n s := ⟨inv_reachable h, hst, hr, hn⟩
  have hS' : Settling n s' := hc.invariant (I := Settling n)
    (fun a b ha hab => (settling_work ha hab).1) hS
  clear hc hS h hst hr hn
  obtain ⟨⟨i1, i2, i3, i4, i5⟩, hst, hr, hf⟩ := hS'
  intro t
  refine Classical.byContradiction fun hne => ?_
  have hown : s'.owner = none := by
    cases ho : s'.owner with
    | none => rfl
    | some u =>
      exfalso
      have hu := (i1 u).mpr ho
      apply hend
      cases hpc : s'.pc u <;> rw [hpc] at hu <;> simp only [Owns] at hu
      · exact ⟨_, u, .sigSet hpc⟩
      · exact ⟨_, u, .sigWake hpc⟩
      · exact ⟨_, u, .sigUnlock hpc⟩
      · exact ⟨_, u, .rstSet hpc⟩
      · exact ⟨_, u, .rstUnlock hpc⟩
      · exact ⟨_, u, .wCheck hpc⟩
      · exact ⟨_, u, .wWait hpc⟩
      · exact ⟨_, u, .wReturn hpc⟩
  apply hend
  cases hpc : s'.pc t with
  | outside => exact absurd hpc hne
  | sigLock => exact ⟨_, t, .sigLock hpc hown⟩
  | sigSet => exact ⟨_, t, .sigSet hpc⟩
  | sigWake => exact ⟨_, t, .sigWake hpc⟩
  | sigUnlock => exact ⟨_, t, .sigUnlock hpc⟩
  | rstLock => exact ⟨_, t, .rstLock hpc hown⟩
  | rstSet => exact ⟨_, t, .rstSet hpc⟩
  | rstUnlock => exact ⟨_, t, .rstUnlock hpc⟩
  | wLock => exact ⟨_, t, .wLock hpc hown⟩
  | wCheck => exact ⟨_, t, .wCheck hpc⟩
  | wWait => exact ⟨_, t, .wWait hpc⟩
  | asleep =>
    obtain ⟨u, hu⟩ := i5 t hpc hst
    exact ⟨_, u, .sigWake hu⟩
  | woken => exact ⟨_, t, .woken hpc hown⟩
  | wUnlock => exact ⟨_, t, .wReturn hpc⟩

/-- A state the two theorems apply to: one thread asleep, another in the middle of `signal`. -/
example : ∃ s, Reachable (init false) step s ∧ s.state = true ∧ s.pc 1 = .asleep ∧
    (∀ t, s.pc t ≠ .rstLock ∧ s.pc t ≠ .rstSet) ∧ ∀ t, 3 ≤ t → s.pc t = .outside := by
  refine ⟨_, .step (.step (.step (.step (.step (.step (.step
    .init
    ⟨1, .inl (.wait rfl)⟩) ⟨1, .inr (.wLock rfl rfl)⟩) ⟨1, .inr (.wCheck rfl)⟩)
    ⟨1, .inr (.wWait rfl)⟩) ⟨2, .inl (.signal rfl)⟩) ⟨2, .inr (.sigLock rfl rfl)⟩)
    ⟨2, .inr (.sigSet rfl)⟩, rfl, rfl, ?_, ?_⟩
  · intro t
    simp only [upd, init]
    grind
  · intro t ht
    simp only [upd, init]
    grind

end Verif.Conc.Event
