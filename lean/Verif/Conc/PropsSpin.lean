import Verif.Conc.ModelSpin
/-!
# `Mutex_SpinLock` — properties C37
-/
namespace Verif.Conc.Spin

/-- The word is 0 and nobody holds the lock, or it is 1 and exactly one thread does. -/
def Inv (s : St) : Prop :=
  (s.word = 0 ∧ ∀ t, s.pc t ≠ .holding) ∨
  (s.word = 1 ∧ ∃ t, s.pc t = .holding ∧ ∀ u, s.pc u = .holding → u = t)

theorem inv_step (s s' : St) (hi : Inv s) (h : step s s') : Inv s' := by
  obtain ⟨t, h⟩ := h
  cases h with
  | call hpc =>
    have keep : ∀ u, upd s.pc t PC.trying u = .holding ↔ s.pc u = .holding := by
      intro u
      by_cases hu : u = t
      · subst hu; rw [upd_same, hpc]; simp
      · rw [upd_other _ _ hu]
    rcases hi with ⟨h0, hn⟩ | ⟨h1, a, ha, hb⟩
    · left
      exact ⟨h0, fun u hu => hn u ((keep u).mp hu)⟩
    · right
      exact ⟨h1, a, (keep a).mpr ha, fun u hu => hb u ((keep u).mp hu)⟩
  | turn hpc =>
    rcases hi with ⟨h0, hn⟩ | ⟨h1, a, ha, hb⟩
    · right
      simp only [cas, h0, ↓reduceIte]
      refine ⟨trivial, t, upd_same _ _ _, ?_⟩
      intro u hu
      by_cases hut : u = t
      · exact hut
      · rw [upd_other _ _ hut] at hu; exact absurd hu (hn u)
    · right
      simp only [cas, h1]
      simp only [Nat.succ_ne_self, ↓reduceIte, Bool.false_eq_true]
      exact ⟨trivial, a, ha, hb⟩
  | unlock hpc =>
    left
    refine ⟨rfl, ?_⟩
    intro u hu
    dsimp only at hu
    by_cases hut : u = t
    · subst hut; rw [upd_same] at hu; cases hu
    · rw [upd_other _ _ hut] at hu
      rcases hi with ⟨h0, hn⟩ | ⟨h1, a, ha, hb⟩
      · exact hn u hu
      · exact hut ((hb u hu).trans (hb t hpc).symm)

theorem inv_reachable {s : St} (h : Reachable init step s) : Inv s :=
  h.invariant (.inl ⟨rfl, fun _ h => by cases h⟩) inv_step

/-- **C37**, mutual exclusion: however many threads there are and however their steps interleave, two
of them never hold the lock at once. -/
theorem C37_mutual_exclusion (s : St) (h : Reachable init step s) (t u : Tid)
    (ht : s.pc t = .holding) (hu : s.pc u = .holding) : t = u := by
  rcases inv_reachable h with ⟨-, hn⟩ | ⟨-, a, -, hb⟩
  · exact absurd ht (hn t)
  · rw [hb t ht, hb u hu]

example : ∃ s, Reachable init step s ∧ s.pc 1 = .holding ∧ s.pc 2 = .trying := by
  refine ⟨_, .step (.step (.step .init ⟨1, .call rfl⟩) ⟨2, .call rfl⟩) ⟨1, .turn rfl⟩, rfl, rfl⟩

/-- **C37**: a turn of the loop takes the lock exactly if no thread holds it; otherwise it changes
nothing at all. -/
theorem C37_try (s s' : St) (h : Reachable init step s) (t : Tid) (hs : Step t s s')
    (ht : s.pc t = .trying) :
    ((∀ u, s.pc u ≠ .holding) → s'.pc t = .holding) ∧ ((∃ u, s.pc u = .holding) → s' = s) := by
  cases hs with
  | call hpc => rw [ht] at hpc; cases hpc
  | unlock hpc => rw [ht] at hpc; cases hpc
  | turn hpc =>
    rcases inv_reachable h with ⟨h0, hn⟩ | ⟨h1, a, ha, -⟩
    · refine ⟨fun _ => ?_, fun ⟨u, hu⟩ => absurd hu (hn u)⟩
      simp [cas, h0, upd_same]
    · refine ⟨fun hno => absurd ha (hno a), fun _ => ?_⟩
      obtain ⟨w, pc⟩ := s
      simp only at h1
      simp [cas, h1]

/-- **C37**: unlocking makes the lock available: right after it, the next turn of any waiting thread
takes the lock. -/
theorem C37_unlock_releases (s s1 s2 : St) (h : Reachable init step s) (t u : Tid)
    (hs : Step t s s1) (ht : s.pc t = .holding) (hu : s1.pc u = .trying) (hs2 : Step u s1 s2) :
    s2.pc u = .holding := by
  refine (C37_try s1 s2 (h.step ⟨t, hs⟩) u hs2 hu).1 ?_
  intro v hv
  cases hs with
  | call hpc => rw [ht] at hpc; cases hpc
  | turn hpc => rw [ht] at hpc; cases hpc
  | unlock hpc =>
    dsimp only at hv
    by_cases hvt : v = t
    · subst hvt; rw [upd_same] at hv; cases hv
    · rw [upd_other _ _ hvt] at hv
      exact hvt (C37_mutual_exclusion s h v t hv ht)

/-- **C37**: there is no deadlock: as long as some thread is inside `lock`, either it or the holder
can take a step that changes hands. -/
theorem C37_progress (s : St) (h : Reachable init step s) (t : Tid) (ht : s.pc t = .trying) :
    (∃ s', Step t s s' ∧ s'.pc t = .holding) ∨
    (∃ u s' s'', s.pc u = .holding ∧ Step u s s' ∧ Step t s' s'' ∧ s''.pc t = .holding) := by
  rcases inv_reachable h with ⟨h0, hn⟩ | ⟨h1, a, ha, hb⟩
  · left
    exact ⟨_, .turn ht, (C37_try s _ h t (.turn ht) ht).1 hn⟩
  · right
    have hta : t ≠ a := by rintro rfl; rw [ht] at ha; cases ha
    have ht' : (⟨0, upd s.pc a .outside⟩ : St).pc t = .trying := by
      show upd s.pc a PC.outside t = _
      rw [upd_other _ _ hta]; exact ht
    exact ⟨a, _, _, ha, .unlock ha, .turn ht',
      C37_unlock_releases s _ _ h a t (.unlock ha) ha ht' (.turn ht')⟩

end Verif.Conc.Spin
