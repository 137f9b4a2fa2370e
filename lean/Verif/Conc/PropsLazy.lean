import Verif.Conc.ModelLazy
/-!
# `Mutex_LazyInit` — properties C38
-/
namespace Verif.Conc.Lazy

/-- The thread is between taking and releasing the spin lock. -/
def Inside : PC → Prop
  | .recheck | .construct | .constructing | .storeFlag | .release => True
  | _ => False

/-- What holds between any two steps. -/
structure Inv (s : St) : Prop where
  fine : s.misused = false
  one : ∀ t u, Inside (s.pc t) → Inside (s.pc u) → t = u
  spinFree : s.spin = false → ∀ t, ¬ Inside (s.pc t)
  spinHeld : s.spin = true → ∃ t, Inside (s.pc t)
  flagReady : s.flag = true → s.mem = .ready
  construct : ∀ t, s.pc t = .construct → s.mem = .raw ∧ s.flag = false
  constructing : ∀ t, s.pc t = .constructing → s.mem = .half ∧ s.flag = false
  storeFlag : ∀ t, s.pc t = .storeFlag → s.mem = .ready
  passed : ∀ t, s.pc t = .release ∨ s.pc t = .lockMutex ∨ s.pc t = .unlockMutex → s.flag = true
  untouched : s.flag = false → (∀ t, s.pc t ≠ .constructing ∧ s.pc t ≠ .storeFlag) → s.mem = .raw
  rawCount : s.mem = .raw → s.constructed = 0
  count : s.mem ≠ .raw → s.constructed = 1
  ownerFlag : s.owner ≠ none → s.flag = true
  ownerDepth : s.owner ≠ none → 1 ≤ s.depth
  freeDepth : s.owner = none → s.depth = 0
  holds : ∀ t, s.held t + (if s.pc t = .unlockMutex then 1 else 0) =
    if s.owner = some t then s.depth else 0

theorem inv_init : Inv init := by
  constructor <;> simp [init, Inside]

theorem inv_step (s s' : St) (hi : Inv s) (h : step s s') : Inv s' := by
  obtain ⟨t, h⟩ := h
  obtain ⟨i1, i2, i3, i4, i5, i6, i7, i8, i9, i10, i11, i12, i13, i14, i15, i16⟩ := hi
  cases h <;> constructor <;> simp only [upd] <;> grind [Inside]

theorem inv_reachable {s : St} (h : Reachable init step s) : Inv s :=
  h.invariant inv_init inv_step

/-- **C38**: however many threads race to be first, the mutex is constructed at most once, it has been
constructed exactly once by the time any thread holds it, and it is never locked, unlocked or
constructed over while not completely constructed. -/
theorem C38_constructed_once (s : St) (h : Reachable init step s) :
    s.constructed ≤ 1 ∧ (∀ t, 0 < s.held t → s.constructed = 1 ∧ s.mem = .ready) ∧
    s.misused = false := by
  have hi := inv_reachable h
  obtain ⟨i1, i2, i3, i4, i5, i6, i7, i8, i9, i10, i11, i12, i13, i14, i15, i16⟩ := hi
  refine ⟨?_, ?_, i1⟩
  · by_cases hm : s.mem = .raw
    · rw [i11 hm]; omega
    · rw [i12 hm]; omega
  · intro t ht
    have := i16 t
    grind

/-- **C38**: two threads never hold the mutex at once. -/
theorem C38_mutual_exclusion (s : St) (h : Reachable init step s) (t u : Tid)
    (ht : 0 < s.held t) (hu : 0 < s.held u) : t = u := by
  have hi := (inv_reachable h).holds
  have h1 := hi t
  have h2 := hi u
  grind

/-- Two threads race: both see the mutex unconstructed, one constructs it, and both get to hold it in
turn. -/
example : ∃ s, Reachable init step s ∧ s.pc 1 = .spin ∧ s.pc 2 = .constructing ∧
    s.constructed = 1 := by
  refine ⟨_, .step (.step (.step (.step (.step (.step (.step .init ⟨1, .call rfl⟩) ⟨2, .call rfl⟩)
    ⟨1, .readFlag rfl⟩) ⟨2, .readFlag rfl⟩) ⟨2, .spin rfl⟩) ⟨2, .recheck rfl⟩) ⟨2, .construct rfl⟩,
    rfl, rfl, rfl⟩

example : ∃ s, Reachable init step s ∧ 0 < s.held 7 := by
  refine ⟨_, .step (.step (.step (.step (.step (.step (.step (.step (.step .init ⟨7, .call rfl⟩)
    ⟨7, .readFlag rfl⟩) ⟨7, .spin rfl⟩) ⟨7, .recheck rfl⟩) ⟨7, .construct rfl⟩)
    ⟨7, .constructed rfl⟩) ⟨7, .storeFlag rfl⟩) ⟨7, .release rfl⟩) ⟨7, .lock rfl (.inl rfl)⟩, ?_⟩
  decide

/-- Steps left until the spin lock is released. -/
def left : PC → Nat
  | .recheck => 5 | .construct => 4 | .constructing => 3 | .storeFlag => 2 | .release => 1
  | _ => 0

/-- The thread inside the spin lock can always run until it releases it. -/
theorem finish (u : Tid) : ∀ (k : Nat) (s : St), Inv s → Inside (s.pc u) → left (s.pc u) = k →
    ∃ n s', Chain step n s s' ∧ s'.spin = false ∧ s'.pc u = .lockMutex ∧
      (∀ t, t ≠ u → s'.pc t = s.pc t) ∧ s'.held = s.held ∧ (s'.owner = s.owner ∨ s'.owner = none) := by
  intro k
  induction k using Nat.strongRecOn with
  | ind k ih =>
    intro s hi hin hk
    have key : ∀ s1, Step u s s1 → Inside (s1.pc u) → left (s1.pc u) < k →
        (∀ t, t ≠ u → s1.pc t = s.pc t) → s1.held = s.held →
        (s1.owner = s.owner ∨ s1.owner = none) →
        ∃ n s', Chain step n s s' ∧ s'.spin = false ∧ s'.pc u = .lockMutex ∧
          (∀ t, t ≠ u → s'.pc t = s.pc t) ∧ s'.held = s.held ∧
          (s'.owner = s.owner ∨ s'.owner = none) := by
      intro s1 h1 hin1 hlt hpc hheld howner
      obtain ⟨n, s', hc, hs, hp, ho, hh, hw⟩ :=
        ih _ hlt s1 (inv_step _ _ hi ⟨u, h1⟩) hin1 rfl
      refine ⟨n + 1, s', .cons ⟨u, h1⟩ hc, hs, hp, fun t ht => (ho t ht).trans (hpc t ht),
        hh.trans hheld, ?_⟩
      grind
    cases hpc : s.pc u <;> rw [hpc] at hin hk <;> simp only [Inside] at hin <;>
      simp only [left] at hk
    · exact key _ (.recheck hpc) (by grind [Inside, upd]) (by grind [left, upd])
        (fun t ht => upd_other _ _ ht) rfl (.inl rfl)
    · exact key _ (.construct hpc) (by grind [Inside, upd]) (by grind [left, upd])
        (fun t ht => upd_other _ _ ht) rfl (.inl rfl)
    · exact key _ (.constructed hpc) (by grind [Inside, upd]) (by grind [left, upd])
        (fun t ht => upd_other _ _ ht) rfl (.inr rfl)
    · exact key _ (.storeFlag hpc) (by grind [Inside, upd]) (by grind [left, upd])
        (fun t ht => upd_other _ _ ht) rfl (.inl rfl)
    · exact ⟨1, _, .cons ⟨u, .release hpc⟩ .nil, rfl, upd_same _ _ _,
        fun t ht => upd_other _ _ ht, rfl, .inl rfl⟩

/-- The thread is inside `lock`. -/
def Locking (p : PC) : Prop := p ≠ .outside ∧ p ≠ .unlockMutex

/-- **C38**, no deadlock: a thread inside `lock` can always be brought to hold the mutex if no other
thread holds it or is in the middle of `unlock`, whatever the others are in the middle of. -/
theorem C38_can_enter (s : St) (h : Reachable init step s) (t : Tid) (ht : Locking (s.pc t))
    (hfree : ∀ u, u ≠ t → s.held u = 0 ∧ s.pc u ≠ .unlockMutex) :
    ∃ n s', Chain step n s s' ∧ s'.held t = s.held t + 1 := by
  have hi := inv_reachable h
  have hown : s.owner = none ∨ s.owner = some t := by
    cases ho : s.owner with
    | none => exact .inl rfl
    | some u =>
      right
      by_cases hu : u = t
      · rw [hu]
      · have h1 := hi.holds u
        have h2 := hi.ownerDepth (by rw [ho]; simp)
        grind
  clear hfree h
  -- from the mutex call
  have atLock : ∀ s, s.pc t = .lockMutex → (s.owner = none ∨ s.owner = some t) →
      ∃ n s', Chain step n s s' ∧ s'.held t = s.held t + 1 :=
    fun s hp ho => ⟨1, _, .cons ⟨t, .lock hp ho⟩ .nil, upd_same _ _ _⟩
  -- from inside the spin lock
  have inside : ∀ s, Inv s → Inside (s.pc t) → (s.owner = none ∨ s.owner = some t) →
      ∃ n s', Chain step n s s' ∧ s'.held t = s.held t + 1 := by
    intro s hi hin ho
    obtain ⟨n, s1, hc, -, hp, -, hh, hw⟩ := finish t _ s hi hin rfl
    obtain ⟨m, s2, hc2, h2⟩ := atLock s1 hp (by grind)
    exact ⟨n + m, s2, hc.trans hc2, by rw [h2, hh]⟩
  -- from the loop, the spin lock being free
  have free : ∀ s, Inv s → s.pc t = .spin → s.spin = false →
      (s.owner = none ∨ s.owner = some t) →
      ∃ n s', Chain step n s s' ∧ s'.held t = s.held t + 1 := by
    intro s hi hp hs ho
    have hstep : Step t s _ := .spin hp
    obtain ⟨m, s2, hc2, h2⟩ := inside _ (inv_step _ _ hi ⟨t, hstep⟩)
      (by simp [upd, hs, Inside]) ho
    exact ⟨m + 1, s2, .cons ⟨t, hstep⟩ hc2, h2⟩
  have spin : ∀ s, Inv s → s.pc t = .spin → (s.owner = none ∨ s.owner = some t) →
      ∃ n s', Chain step n s s' ∧ s'.held t = s.held t + 1 := by
    intro s hi hp ho
    cases hs : s.spin with
    | false => exact free s hi hp hs ho
    | true =>
      obtain ⟨u, hu⟩ := hi.spinHeld hs
      have hut : t ≠ u := by rintro rfl; rw [hp] at hu; exact hu
      obtain ⟨n, s1, hc, hs1, -, hpc, hh, hw⟩ := finish u _ s hi hu rfl
      have hi1 : Inv s1 := hc.invariant inv_step hi
      obtain ⟨m, s2, hc2, h2⟩ := free s1 hi1 ((hpc t hut).trans hp) hs1 (by grind)
      exact ⟨n + m, s2, hc.trans hc2, by rw [h2, hh]⟩
  cases hp : s.pc t with
  | outside => exact absurd hp ht.1
  | unlockMutex => exact absurd hp ht.2
  | lockMutex => exact atLock s hp hown
  | spin => exact spin s hi hp hown
  | readFlag =>
    have hstep := Step.readFlag hp
    cases hf : s.flag with
    | true =>
      obtain ⟨m, s2, hc2, h2⟩ := atLock
        { s with pc := upd s.pc t (if s.flag then .lockMutex else .spin) } (by simp [upd, hf]) hown
      exact ⟨m + 1, s2, .cons ⟨t, hstep⟩ hc2, h2⟩
    | false =>
      obtain ⟨m, s2, hc2, h2⟩ := spin _ (inv_step _ _ hi ⟨t, hstep⟩) (by simp [upd, hf]) hown
      exact ⟨m + 1, s2, .cons ⟨t, hstep⟩ hc2, h2⟩
  | recheck => exact inside s hi (by rw [hp]; trivial) hown
  | construct => exact inside s hi (by rw [hp]; trivial) hown
  | constructing => exact inside s hi (by rw [hp]; trivial) hown
  | storeFlag => exact inside s hi (by rw [hp]; trivial) hown
  | release => exact inside s hi (by rw [hp]; trivial) hown

end Verif.Conc.Lazy
