import Verif.Cmd.Lemmas
/-!
# The command line of plytool — what the options come to
-/
namespace Verif.Cmd
open Verif

theorem erase_perm {o : Word} {os l : List Word} (h : o ∈ os) (hp : (os.erase o).Perm l) : os.Perm (o :: l) :=
  (List.perm_cons_erase h).trans (hp.cons o)

/-- A flag that is taken out. -/
theorem flag_perm {f : Word} (hf : f ≠ []) {os l : List Word} (h : (checkFlag f os).2.Perm l) :
    os.Perm (given (checkFlag f os).1 f ++ l) := by
  rw [checkFlag_eq hf] at h ⊢
  unfold given
  dsimp only at h ⊢
  by_cases hm : f ∈ os
  · rw [if_pos (by simpa using hm)]
    exact erase_perm hm h
  · rw [if_neg (by simpa using hm)]
    rwa [List.erase_of_not_mem hm] at h

/-- The configuration that is taken out. -/
theorem config_perm {os l : List Word} (h : (takeConfig os).2.Perm l) :
    os.Perm (configOption (takeConfig os).1 ++ l) ∨ ((takeConfig os).1 = [] ∧ os.Perm (word "--config=" :: l)) := by
  by_cases hc : ∃ o ∈ os, isConfig o = true
  · obtain ⟨c, h1, h2⟩ := takeConfig_some hc
    rw [h2] at h ⊢
    dsimp only at h ⊢
    unfold configOption
    by_cases he : c = []
    · subst he
      rw [List.append_nil] at h1 h
      exact Or.inr ⟨rfl, erase_perm h1 h⟩
    · rw [if_neg he]
      exact Or.inl (erase_perm h1 h)
  · have hn : takeConfig os = ([], os) := takeConfig_none (by
      intro o ho
      cases hh : isConfig o with
      | true => exact absurd ⟨o, ho, hh⟩ hc
      | false => rfl)
    rw [hn] at h ⊢
    exact Or.inl h

theorem finalize_does {os : List Word} {c d : Command} {b e : Bool} (h : finalize os (.does d e) = .does c b) :
    os = [] ∧ d = c ∧ e = b := by
  unfold finalize at h
  split at h
  · cases h; exact ⟨rfl, rfl, rfl⟩
  · cases h

theorem finalize_usage {os : List Word} {w : Word} {c : Command} {b : Bool} : finalize os (.usage w) ≠ .does c b := by
  unfold finalize
  split
  · exact fun h => by cases h
  · exact fun h => by cases h

theorem fTerm_does {ws os : List Word} {next : List Word → Outcome} {c : Command} {b : Bool}
    (h : fTerm ws os next = .does c b) : ws = [] ∧ next os = .does c b := by
  unfold fTerm at h
  split at h
  · exact ⟨rfl, h⟩
  · cases h

theorem fDone_does {ws os : List Word} {c d : Command} {b e : Bool} (h : fDone ws os (.does d e) = .does c b) :
    ws = [] ∧ os = [] ∧ d = c ∧ e = b := by
  obtain ⟨h1, h2⟩ := fTerm_does h
  exact ⟨h1, finalize_does h2⟩

theorem fNamed_does {ws : List Word} {next : Word → List Word → Outcome} {c : Command} {b : Bool}
    (h : fNamed ws next = .does c b) : ∃ n ws', ws = n :: ws' ∧ next n ws' = .does c b := by
  unfold fNamed at h
  split at h
  · cases h
  · exact ⟨_, _, rfl, h⟩

theorem extract_perm {t : Word} {os l : List Word} (h : (extractOptions t os).2.Perm l) :
    (os.Perm ((extractOptions t os).1.options ++ l) ∨ ((extractOptions t os).1.configName = [] ∧
      os.Perm (word "--config=" :: ((extractOptions t os).1.options ++ l)))) ∧ (extractOptions t os).1.targetName = t ∧
    ((extractOptions t os).1.makeShared = true →
      (extractOptions t os).1.doAdd = true ∨ (extractOptions t os).1.doAuto = true) := by
  refine ⟨?_, rfl, ?_⟩
  · have hs : ((if (checkFlag (word "--add") (takeConfig os).2).1 = true ∨
          (checkFlag (word "--auto") (checkFlag (word "--add") (takeConfig os).2).2).1 = true
        then checkFlag (word "--shared") (checkFlag (word "--auto") (checkFlag (word "--add") (takeConfig os).2).2).2
        else (false, (checkFlag (word "--auto") (checkFlag (word "--add") (takeConfig os).2).2).2)).2.Perm l) := h
    have h1 : ((checkFlag (word "--auto") (checkFlag (word "--add") (takeConfig os).2).2).2).Perm
        (given (extractOptions t os).1.makeShared (word "--shared") ++ l) := by
      show List.Perm _ (given (if (checkFlag (word "--add") (takeConfig os).2).1 = true ∨
          (checkFlag (word "--auto") (checkFlag (word "--add") (takeConfig os).2).2).1 = true
        then checkFlag (word "--shared") (checkFlag (word "--auto") (checkFlag (word "--add") (takeConfig os).2).2).2
        else (false, (checkFlag (word "--auto") (checkFlag (word "--add") (takeConfig os).2).2).2)).1 _ ++ l)
      split at hs
      · rename_i hc
        rw [if_pos hc]
        exact flag_perm (by simp [word]) hs
      · rename_i hc
        rw [if_neg hc]
        exact hs
    have h2 := flag_perm (f := word "--auto") (by simp [word]) h1
    have h3 := flag_perm (f := word "--add") (by simp [word]) h2
    have h4 := config_perm h3
    unfold BuildParams.options
    simp only [List.append_assoc]
    rcases h4 with h4 | ⟨h5, h4⟩
    · exact Or.inl h4
    · refine Or.inr ⟨h5, ?_⟩
      have : configOption (extractOptions t os).1.configName = [] := by
        unfold configOption
        exact if_pos h5
      rw [this]
      exact h4
  · intro hm
    have hm' : (if (checkFlag (word "--add") (takeConfig os).2).1 = true ∨
          (checkFlag (word "--auto") (checkFlag (word "--add") (takeConfig os).2).2).1 = true
        then checkFlag (word "--shared") (checkFlag (word "--auto") (checkFlag (word "--add") (takeConfig os).2).2).2
        else (false, (checkFlag (word "--auto") (checkFlag (word "--add") (takeConfig os).2).2).2)).1 = true := hm
    split at hm'
    · assumption
    · cases hm'

/-! ## The other way round -/

theorem flag_rev {f : Word} (hf : f ≠ []) {os l : List Word} {b : Bool} (h : os.Perm (given b f ++ l)) (hl : f ∉ l) :
    (checkFlag f os).1 = b ∧ (checkFlag f os).2.Perm l := by
  rw [checkFlag_eq hf]
  dsimp only
  unfold given at h
  cases b with
  | true =>
    rw [if_pos rfl] at h
    refine ⟨by simp [h.mem_iff], ?_⟩
    have := h.erase f
    rwa [List.singleton_append, List.erase_cons_head] at this
  | false =>
    rw [if_neg (by simp), List.nil_append] at h
    have hn : f ∉ os := fun hm => hl (h.mem_iff.1 hm)
    rw [List.erase_of_not_mem hn]
    exact ⟨by simpa using hn, h⟩

theorem config_rev {os l : List Word} {c : Word} (h : os.Perm (configOption c ++ l) ∨
    (c = [] ∧ os.Perm (word "--config=" :: l))) (hl : ∀ o ∈ l, isConfig o = false) :
    (takeConfig os).1 = c ∧ (takeConfig os).2.Perm l := by
  have one : os.Perm ((word "--config=" ++ c) :: l) → (takeConfig os).1 = c ∧ (takeConfig os).2.Perm l := by
    intro h
    obtain ⟨d, h1, h2⟩ := takeConfig_some (os := os)
      ⟨_, h.mem_iff.2 List.mem_cons_self, (config_shape _).2 ⟨c, rfl⟩⟩
    have hd : d = c := by
      rcases List.mem_cons.1 (h.mem_iff.1 h1) with h3 | h3
      · exact List.append_cancel_left h3
      · have := hl _ h3
        rw [(config_shape _).2 ⟨d, rfl⟩] at this
        cases this
    subst hd
    rw [h2]
    refine ⟨rfl, ?_⟩
    have := h.erase (word "--config=" ++ d)
    rwa [List.erase_cons_head] at this
  rcases h with h | ⟨rfl, h⟩
  · unfold configOption at h
    split at h
    · rename_i hc
      subst hc
      rw [List.nil_append] at h
      rw [takeConfig_none fun o ho => hl o (h.mem_iff.1 ho)]
      exact ⟨rfl, h⟩
    · exact one h
  · exact one (by rwa [List.append_nil])

theorem given_mem {b : Bool} {f o : Word} (h : o ∈ given b f) : o = f := by
  unfold given at h
  split at h
  · simpa using h
  · cases h

theorem extract_rev {p : BuildParams} {os l : List Word} (hp : p.makeShared = true → p.doAdd = true ∨ p.doAuto = true)
    (h : os.Perm (p.options ++ l) ∨ (p.configName = [] ∧ os.Perm (word "--config=" :: (p.options ++ l))))
    (hl : ∀ o ∈ l, o = word "--nobuild") :
    (extractOptions p.targetName os).1 = p ∧ (extractOptions p.targetName os).2.Perm l := by
  obtain ⟨t, c, a, u, s⟩ := p
  dsimp only at hp h ⊢
  have h0 : os.Perm (configOption c ++ (given a (word "--add") ++ (given u (word "--auto") ++
      (given s (word "--shared") ++ l)))) ∨ (c = [] ∧ os.Perm (word "--config=" :: (given a (word "--add") ++
      (given u (word "--auto") ++ (given s (word "--shared") ++ l))))) := by
    rcases h with h | ⟨rfl, h⟩
    · left; simpa [BuildParams.options] using h
    · right; exact ⟨rfl, by simpa [BuildParams.options, configOption] using h⟩
  have hcase : ∀ {o : Word}, o ∈ given a (word "--add") ++ (given u (word "--auto") ++
      (given s (word "--shared") ++ l)) →
      o = word "--add" ∨ o = word "--auto" ∨ o = word "--shared" ∨ o = word "--nobuild" := by
    intro o ho
    rcases List.mem_append.1 ho with ho | ho
    · exact Or.inl (given_mem ho)
    rcases List.mem_append.1 ho with ho | ho
    · exact Or.inr (Or.inl (given_mem ho))
    rcases List.mem_append.1 ho with ho | ho
    · exact Or.inr (Or.inr (Or.inl (given_mem ho)))
    · exact Or.inr (Or.inr (Or.inr (hl _ ho)))
  obtain ⟨c1, c2⟩ := config_rev h0 (by
    intro o ho
    rcases hcase ho with rfl | rfl | rfl | rfl <;> decide)
  obtain ⟨a1, a2⟩ := flag_rev (f := word "--add") (by simp [word]) c2 (by
    intro ho
    rcases List.mem_append.1 ho with ho | ho
    · exact absurd (given_mem ho) (by decide)
    rcases List.mem_append.1 ho with ho | ho
    · exact absurd (given_mem ho) (by decide)
    · exact absurd (hl _ ho) (by decide))
  obtain ⟨u1, u2⟩ := flag_rev (f := word "--auto") (by simp [word]) a2 (by
    intro ho
    rcases List.mem_append.1 ho with ho | ho
    · exact absurd (given_mem ho) (by decide)
    · exact absurd (hl _ ho) (by decide))
  have hs : (if a = true ∨ u = true
        then checkFlag (word "--shared") (checkFlag (word "--auto") (checkFlag (word "--add") (takeConfig os).2).2).2
        else (false, (checkFlag (word "--auto") (checkFlag (word "--add") (takeConfig os).2).2).2)).1 = s ∧
      (if a = true ∨ u = true
        then checkFlag (word "--shared") (checkFlag (word "--auto") (checkFlag (word "--add") (takeConfig os).2).2).2
        else (false, (checkFlag (word "--auto") (checkFlag (word "--add") (takeConfig os).2).2).2)).2.Perm l := by
    split
    · exact flag_rev (by simp [word]) u2 (fun ho => absurd (hl _ ho) (by decide))
    · rename_i hn
      have : s = false := by
        cases s with
        | false => rfl
        | true => exact absurd (hp rfl) hn
      subst this
      exact ⟨rfl, by simpa [given] using u2⟩
  unfold extractOptions
  dsimp only
  rw [a1, u1, c1]
  exact ⟨by rw [hs.1], hs.2⟩

end Verif.Cmd
