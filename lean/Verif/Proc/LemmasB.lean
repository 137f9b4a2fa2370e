import Verif.Proc.Lemmas

/-!
# Lemmas about `exec`
-/

namespace Verif.Proc

/-- What was open stays, and pipes and the null device are not forgotten. -/
structure Ext (s s' : Sys) : Prop where
  stays : ∀ j, s.table.get j ≠ none → s'.table.get j = s.table.get j
  pipes : s.pipes ≤ s'.pipes
  limit : s'.limit = s.limit
  nullIn : ∀ j, s.nullIn = some j → s'.nullIn = some j
  nullOut : ∀ j, s.nullOut = some j → s'.nullOut = some j

theorem Ext.refl (s : Sys) : Ext s s := ⟨fun _ _ => rfl, Nat.le_refl _, rfl, fun _ h => h, fun _ h => h⟩

theorem Ext.trans {a b c : Sys} (h : Ext a b) (k : Ext b c) : Ext a c := by
  refine ⟨fun j hj => ?_, Nat.le_trans h.pipes k.pipes, k.limit.trans h.limit,
    fun j hj => k.nullIn j (h.nullIn j hj), fun j hj => k.nullOut j (h.nullOut j hj)⟩
  rw [k.stays j (by rw [h.stays j hj]; exact hj), h.stays j hj]

theorem Ext.free {a b : Sys} (h : Ext a b) {j : Nat} (hj : b.table.get j = none) : a.table.get j = none := by
  by_cases e : a.table.get j = none
  · exact e
  · rw [h.stays j e] at hj; exact hj

theorem Ext.openS {a b : Sys} (h : Ext a b) {j : Nat} {e : Entry} (hj : a.table.get j = some e) :
    b.table.get j = some e := by
  rw [h.stays j (by rw [hj]; simp), hj]

theorem Grown.refl (s : Sys) (j : Nat) : Grown s s j := Or.inl rfl

theorem Grown.trans {a b c : Sys} {j : Nat} (h : Grown a b j) (k : Grown b c j) (e1 : Ext a b) (e2 : Ext b c) :
    Grown a c j := by
  rcases k with k | ⟨k1, k2, k3, k4⟩ | ⟨k1, k2, k3, k4⟩
  · rcases h with h | ⟨h1, h2, h3, h4⟩ | ⟨h1, h2, h3, h4⟩
    · exact Or.inl (k.trans h)
    · exact Or.inr (Or.inl ⟨h1, k.trans h2, h3, e2.nullIn j h4⟩)
    · exact Or.inr (Or.inr ⟨h1, k.trans h2, h3, e2.nullOut j h4⟩)
  · refine Or.inr (Or.inl ⟨e1.free k1, k2, ?_, k4⟩)
    cases ha : a.nullIn with
    | none => rfl
    | some x => rw [e1.nullIn x ha] at k3; cases k3
  · refine Or.inr (Or.inr ⟨e1.free k1, k2, ?_, k4⟩)
    cases ha : a.nullOut with
    | none => rfl
    | some x => rw [e1.nullOut x ha] at k3; cases k3

theorem alloc_spec {s s' : Sys} {e : Entry} {n : Nat} (h : s.alloc e = some (s', n)) :
    s.table.get n = none ∧ n < s.limit ∧ s' = { s with table := s.table.put n (some e) } := by
  unfold Sys.alloc at h
  dsimp only at h
  split at h
  · rename_i hl
    cases h
    exact ⟨get_lowest _, hl, rfl⟩
  · cases h

theorem free_ge {s : Sys} (g : Good s) {n : Nat} (h : s.table.get n = none) : 3 ≤ n := by
  rcases Nat.lt_or_ge n 3 with hn | hn
  · exact absurd h (g.std n hn)
  · exact hn

theorem ext_put {s : Sys} {n : Nat} {e : Entry} (h : s.table.get n = none) :
    Ext s { s with table := s.table.put n (some e) } := by
  refine ⟨fun j hj => ?_, Nat.le_refl _, rfl, fun _ h => h, fun _ h => h⟩
  dsimp only
  rw [get_put, if_neg]
  rintro rfl; exact hj h

theorem good_put {s : Sys} (g : Good s) {n : Nat} {e : Entry} (h : s.table.get n = none)
    (hm : ∀ p, e.file = .readEnd p ∨ e.file = .writeEnd p → p < s.pipes) :
    Good { s with table := s.table.put n (some e) } := by
  have x := ext_put (e := e) h
  refine ⟨fun i hi => by rw [x.stays i (g.std i hi)]; exact g.std i hi,
    fun fd hf => ⟨x.openS (g.nullIn fd hf).1, (g.nullIn fd hf).2⟩,
    fun fd hf => ⟨x.openS (g.nullOut fd hf).1, (g.nullOut fd hf).2⟩, fun i e' hi => ?_⟩
  dsimp only at hi
  rw [get_put] at hi
  split at hi
  · cases hi; exact hm
  · exact g.made i e' hi

/-- What a stage of the preparation does. -/
structure Staged (s s' : Sys) (keep : Option Nat) (give : Nat) : Prop where
  ext : Ext s s'
  good : Good s'
  free : s.table.get give = none
  given : ∃ f, s'.table.get give = some ⟨f, false⟩
  kept : ∀ k, keep = some k → s.table.get k = none ∧ ∃ f, s'.table.get k = some ⟨f, true⟩
  rest : ∀ j, j ≠ give → keep ≠ some j → Grown s s' j
  newIn : ∀ j, s'.nullIn = some j → j ≠ give ∧ (s.nullIn = some j ∨ s.table.get j = none)
  newOut : ∀ j, s'.nullOut = some j → j ≠ give ∧ (s.nullOut = some j ∨ s.table.get j = none)

/-- The null device is not at a free descriptor. -/
theorem Good.notIn {s : Sys} (g : Good s) {n j : Nat} (h : s.table.get n = none) (hj : s.nullIn = some j) : j ≠ n := by
  rintro rfl
  rw [(g.nullIn _ hj).1] at h
  cases h

theorem Good.notOut {s : Sys} (g : Good s) {n j : Nat} (h : s.table.get n = none) (hj : s.nullOut = some j) : j ≠ n := by
  rintro rfl
  rw [(g.nullOut _ hj).1] at h
  cases h

theorem dup_stage {s s' : Sys} {fd n : Nat} (g : Good s) (h : s.dup fd = some (s', n)) :
    Staged s s' none n ∧ s'.table.get n = sameFile (s.table.get fd) ∧
      s'.nullIn = s.nullIn ∧ s'.nullOut = s.nullOut := by
  unfold Sys.dup at h
  split at h
  · cases h
  · rename_i e he
    obtain ⟨h1, _, rfl⟩ := alloc_spec h
    refine ⟨⟨ext_put h1, good_put g h1 (fun p hp => g.made fd e he p hp), h1, ⟨e.file, ?_⟩, fun k hk => (by cases hk),
      fun j hj _ => Or.inl ?_, fun j hj => ⟨g.notIn h1 hj, Or.inl hj⟩, fun j hj => ⟨g.notOut h1 hj, Or.inl hj⟩⟩, ?_,
      rfl, rfl⟩
    · dsimp only; rw [get_put, if_pos rfl]
    · dsimp only; rw [get_put, if_neg hj]
    · dsimp only; rw [get_put, if_pos rfl, he]; rfl

theorem pipe_spec {s s' : Sys} {r w : Nat} (g : Good s) (h : s.pipe = some (s', r, w)) :
    s.table.get r = none ∧ s.table.get w = none ∧ r ≠ w ∧ Good s' ∧ s'.pipes = s.pipes + 1 ∧ s'.limit = s.limit ∧
    s'.nullIn = s.nullIn ∧ s'.nullOut = s.nullOut ∧
    ∀ j, s'.table.get j = if j = w then some ⟨.writeEnd s.pipes, false⟩
      else if j = r then some ⟨.readEnd s.pipes, false⟩ else s.table.get j := by
  unfold Sys.pipe at h
  split at h
  · cases h
  · rename_i s1 r1 h1
    split at h
    · cases h
    · rename_i s2 w1 h2
      cases h
      obtain ⟨a1, _, rfl⟩ := alloc_spec h1
      obtain ⟨b1, _, rfl⟩ := alloc_spec h2
      dsimp only at b1 ⊢
      rw [get_put] at b1
      split at b1
      · cases b1
      · rename_i hne
        have x1 := ext_put (s := s) (e := ⟨.readEnd s.pipes, false⟩) a1
        have key : ∀ j, ((s.table.put r (some ⟨.readEnd s.pipes, false⟩)).put w (some ⟨.writeEnd s.pipes, false⟩)).get j =
            if j = w then some ⟨.writeEnd s.pipes, false⟩
            else if j = r then some ⟨.readEnd s.pipes, false⟩ else s.table.get j := by
          intro j; rw [get_put, get_put]
        have stays : ∀ j, s.table.get j ≠ none →
            ((s.table.put r (some ⟨.readEnd s.pipes, false⟩)).put w (some ⟨.writeEnd s.pipes, false⟩)).get j =
              s.table.get j := by
          intro j hj
          rw [key, if_neg, if_neg]
          · rintro rfl; exact hj a1
          · rintro rfl; exact hj b1
        refine ⟨a1, b1, Ne.symm hne, ⟨?_, ?_, ?_, ?_⟩, rfl, rfl, rfl, rfl, key⟩
        · intro i hi
          dsimp only
          rw [stays i (g.std i hi)]; exact g.std i hi
        · intro fd hf
          dsimp only at hf ⊢
          have := g.nullIn fd hf
          rw [stays fd (by rw [this.1]; simp)]; exact this
        · intro fd hf
          dsimp only at hf ⊢
          have := g.nullOut fd hf
          rw [stays fd (by rw [this.1]; simp)]; exact this
        · intro i e hi p hp
          dsimp only at hi ⊢
          rw [key] at hi
          split at hi
          · cases hi; simp at hp; omega
          · split at hi
            · cases hi; simp at hp; omega
            · have := g.made i e hi p hp; omega

theorem cloexec_spec {s s' : Sys} {fd : Nat} (h : s.setCloexec fd = some s') : ∃ e, s.table.get fd = some e ∧
    s' = { s with table := s.table.put fd (some { e with cloexec := true }) } := by
  unfold Sys.setCloexec at h
  split at h
  · cases h
  · rename_i e he
    cases h
    exact ⟨e, he, rfl⟩

/-- A pipe of which `k` is kept and `c` is for the child. -/
theorem pipe_stage {s s1 s' : Sys} {r w k c : Nat} (g : Good s) (h : s.pipe = some (s1, r, w))
    (hkc : (k = r ∧ c = w) ∨ (k = w ∧ c = r)) (h2 : s1.setCloexec k = some s') :
    Staged s s' (some k) c ∧ s'.nullIn = s.nullIn ∧ s'.nullOut = s.nullOut ∧ s'.pipes = s.pipes + 1 ∧
    s'.table.get k = some ⟨if k = r then .readEnd s.pipes else .writeEnd s.pipes, true⟩ ∧
    s'.table.get c = some ⟨if c = r then .readEnd s.pipes else .writeEnd s.pipes, false⟩ := by
  obtain ⟨a1, a2, a3, a4, a5, a6, a7, a8, a9⟩ := pipe_spec g h
  obtain ⟨e, e1, rfl⟩ := cloexec_spec h2
  have ck : c ≠ k := by
    rcases hkc with ⟨rfl, rfl⟩ | ⟨rfl, rfl⟩
    · exact Ne.symm a3
    · exact a3
  have hk : e = ⟨if k = r then .readEnd s.pipes else .writeEnd s.pipes, false⟩ := by
    rw [a9] at e1
    rcases hkc with ⟨rfl, rfl⟩ | ⟨rfl, rfl⟩
    · rw [if_neg a3, if_pos rfl] at e1; cases e1; rw [if_pos rfl]
    · rw [if_pos rfl] at e1; cases e1; rw [if_neg (Ne.symm a3)]
  have hk' : (s1.table.put k (some { e with cloexec := true })).get k =
      some ⟨if k = r then .readEnd s.pipes else .writeEnd s.pipes, true⟩ := by
    rw [get_put, if_pos rfl, hk]
  have hc' : (s1.table.put k (some { e with cloexec := true })).get c =
      some ⟨if c = r then .readEnd s.pipes else .writeEnd s.pipes, false⟩ := by
    rw [get_put, if_neg ck, a9]
    rcases hkc with ⟨rfl, rfl⟩ | ⟨rfl, rfl⟩
    · rw [if_pos rfl, if_neg (Ne.symm a3)]
    · rw [if_neg a3, if_pos rfl, if_pos rfl]
  have kfree : s.table.get k = none := by rcases hkc with ⟨rfl, rfl⟩ | ⟨rfl, rfl⟩ <;> assumption
  have cfree : s.table.get c = none := by rcases hkc with ⟨rfl, rfl⟩ | ⟨rfl, rfl⟩ <;> assumption
  have rest : ∀ j, j ≠ c → k ≠ j → (s1.table.put k (some { e with cloexec := true })).get j = s.table.get j := by
    intro j hj hkj
    rw [get_put, if_neg (Ne.symm hkj), a9]
    rcases hkc with ⟨rfl, rfl⟩ | ⟨rfl, rfl⟩
    · rw [if_neg hj, if_neg (Ne.symm hkj)]
    · rw [if_neg (Ne.symm hkj), if_neg hj]
  have stays : ∀ j, s.table.get j ≠ none → (s1.table.put k (some { e with cloexec := true })).get j = s.table.get j := by
    intro j hj
    apply rest
    · rintro rfl; exact hj cfree
    · rintro rfl; exact hj kfree
  refine ⟨⟨⟨stays, by dsimp only; omega, a6, fun j hj => by dsimp only; rw [a7]; exact hj,
    fun j hj => by dsimp only; rw [a8]; exact hj⟩, ⟨?_, ?_, ?_, ?_⟩, cfree, ⟨_, hc'⟩, ?_, ?_,
    fun j hj => ⟨g.notIn cfree (by rw [← a7]; exact hj), Or.inl (by rw [← a7]; exact hj)⟩,
    fun j hj => ⟨g.notOut cfree (by rw [← a8]; exact hj), Or.inl (by rw [← a8]; exact hj)⟩⟩, a7, a8, a5, hk', hc'⟩
  · intro i hi
    dsimp only
    rw [stays i (g.std i hi)]; exact g.std i hi
  · intro fd hf
    dsimp only at hf ⊢
    rw [a7] at hf
    have := g.nullIn fd hf
    rw [stays fd (by rw [this.1]; simp)]; exact this
  · intro fd hf
    dsimp only at hf ⊢
    rw [a8] at hf
    have := g.nullOut fd hf
    rw [stays fd (by rw [this.1]; simp)]; exact this
  · intro i e' hi p hp
    dsimp only at hi ⊢
    rw [get_put] at hi
    split at hi
    · cases hi
      exact a4.made k e e1 p hp
    · exact a4.made i e' hi p hp
  · intro k' hk2
    cases hk2
    exact ⟨kfree, _, hk'⟩
  · intro j hj hk2
    exact Or.inl (rest j hj (fun e => hk2 (by rw [e])))

theorem nullIn_stage {s s' : Sys} {n : Nat} (g : Good s) (h : s.getNullIn = some (s', n)) :
    Staged s s' none n ∧ s'.table.get n = some ⟨.nullIn, false⟩ ∧ s'.nullOut = s.nullOut := by
  unfold Sys.getNullIn at h
  split at h
  · rename_i fd hfd
    obtain ⟨a, b, c, d⟩ := dup_stage g h
    rw [(g.nullIn fd hfd).1] at b
    exact ⟨a, b, d⟩
  · rename_i hnone
    split at h
    · cases h
    · rename_i s1 fd h1
      obtain ⟨a1, _, rfl⟩ := alloc_spec h1
      have g0 := good_put (e := ⟨.nullIn, false⟩) g a1 (by simp)
      have g1 : Good { s with table := s.table.put fd (some ⟨.nullIn, false⟩), nullIn := some fd } := by
        refine ⟨g0.std, ?_, g0.nullOut, g0.made⟩
        intro fd' hf
        dsimp only at hf ⊢
        cases hf
        exact ⟨by rw [get_put, if_pos rfl], free_ge g a1⟩
      obtain ⟨a, b, c, d⟩ := dup_stage g1 h
      have x1 := ext_put (s := s) (e := ⟨.nullIn, false⟩) a1
      have x : Ext s { s with table := s.table.put fd (some ⟨.nullIn, false⟩), nullIn := some fd } :=
        ⟨x1.stays, x1.pipes, x1.limit, fun j hj => (by rw [hnone] at hj; cases hj), x1.nullOut⟩
      refine ⟨⟨x.trans a.ext, a.good, x.free a.free, a.given, fun k hk => (by cases hk), fun j hj hk => ?_,
        fun j hj => ⟨(a.newIn j hj).1, ?_⟩, fun j hj => ⟨(a.newOut j hj).1, Or.inl (by rw [d] at hj; exact hj)⟩⟩, ?_, d⟩
      · refine Grown.trans (b := { s with table := s.table.put fd (some ⟨.nullIn, false⟩), nullIn := some fd }) ?_
          (a.rest j hj hk) x a.ext
        by_cases e : j = fd
        · subst e
          exact Or.inr (Or.inl ⟨a1, by dsimp only; rw [get_put, if_pos rfl], hnone, rfl⟩)
        · exact Or.inl (by dsimp only; rw [get_put, if_neg e])
      · rw [c] at hj
        cases hj
        exact Or.inr a1
      · rw [b]; dsimp only; rw [get_put, if_pos rfl]; rfl

theorem nullOut_stage {s s' : Sys} {n : Nat} (g : Good s) (h : s.getNullOut = some (s', n)) :
    Staged s s' none n ∧ s'.table.get n = some ⟨.nullOut, false⟩ ∧ s'.nullIn = s.nullIn := by
  unfold Sys.getNullOut at h
  split at h
  · rename_i fd hfd
    obtain ⟨a, b, c, d⟩ := dup_stage g h
    rw [(g.nullOut fd hfd).1] at b
    exact ⟨a, b, c⟩
  · rename_i hnone
    split at h
    · cases h
    · rename_i s1 fd h1
      obtain ⟨a1, _, rfl⟩ := alloc_spec h1
      have g0 := good_put (e := ⟨.nullOut, false⟩) g a1 (by simp)
      have g1 : Good { s with table := s.table.put fd (some ⟨.nullOut, false⟩), nullOut := some fd } := by
        refine ⟨g0.std, g0.nullIn, ?_, g0.made⟩
        intro fd' hf
        dsimp only at hf ⊢
        cases hf
        exact ⟨by rw [get_put, if_pos rfl], free_ge g a1⟩
      obtain ⟨a, b, c, d⟩ := dup_stage g1 h
      have x1 := ext_put (s := s) (e := ⟨.nullOut, false⟩) a1
      have x : Ext s { s with table := s.table.put fd (some ⟨.nullOut, false⟩), nullOut := some fd } :=
        ⟨x1.stays, x1.pipes, x1.limit, x1.nullIn, fun j hj => (by rw [hnone] at hj; cases hj)⟩
      refine ⟨⟨x.trans a.ext, a.good, x.free a.free, a.given, fun k hk => (by cases hk), fun j hj hk => ?_,
        fun j hj => ⟨(a.newIn j hj).1, Or.inl (by rw [c] at hj; exact hj)⟩, fun j hj => ⟨(a.newOut j hj).1, ?_⟩⟩, ?_, c⟩
      · refine Grown.trans (b := { s with table := s.table.put fd (some ⟨.nullOut, false⟩), nullOut := some fd }) ?_
          (a.rest j hj hk) x a.ext
        by_cases e : j = fd
        · subst e
          exact Or.inr (Or.inr ⟨a1, by dsimp only; rw [get_put, if_pos rfl], hnone, rfl⟩)
        · exact Or.inl (by dsimp only; rw [get_put, if_neg e])
      · rw [d] at hj
        cases hj
        exact Or.inr a1
      · rw [b]; dsimp only; rw [get_put, if_pos rfl]; rfl

/-- The type of a stream in the preparation. -/
theorem prepareIn_stage {s s' : Sys} {i : Input} {give : Nat} {keep : Option Nat} (g : Good s)
    (h : prepareIn s i = some (s', give, keep)) : Staged s s' keep give ∧
      Stream .nullIn .writeEnd .readEnd s s' i.stdIn i.stdInPipe keep (s'.table.get give) := by
  unfold prepareIn at h
  unfold Stream
  split at h
  · rename_i hm
    rw [hm]
    split at h
    · rename_i fd hfd
      rw [hfd]
      rw [Option.map_eq_some_iff] at h
      obtain ⟨⟨s1, n⟩, h1, h2⟩ := h
      cases h2
      obtain ⟨a, b, _⟩ := dup_stage g h1
      exact ⟨a, rfl, b⟩
    · rename_i hfd
      rw [hfd]
      rw [Option.map_eq_some_iff] at h
      obtain ⟨⟨s1, n⟩, h1, h2⟩ := h
      cases h2
      obtain ⟨a, b, _⟩ := nullIn_stage g h1
      exact ⟨a, rfl, b⟩
  · rename_i hm
    rw [hm]
    split at h
    · cases h
    · rename_i s1 r w hp
      rw [Option.map_eq_some_iff] at h
      obtain ⟨s2, h1, h2⟩ := h
      cases h2
      obtain ⟨a, _, _, b, c, d⟩ := pipe_stage g hp (Or.inr ⟨rfl, rfl⟩) h1
      have hne := Ne.symm (pipe_spec g hp).2.2.1
      rw [if_neg hne] at c
      rw [if_pos rfl] at d
      exact ⟨a, _, s.pipes, rfl, (a.kept _ rfl).1, c, d, Nat.le_refl _, by omega⟩
  · cases h

theorem prepareOut_stage {s s' : Sys} {o : Output} {give : Nat} {keep : Option Nat} (g : Good s)
    (h : prepareOut s o = some (s', keep, give)) : Staged s s' keep give ∧
      Stream .nullOut .readEnd .writeEnd s s' o.stdOut o.stdOutPipe keep (s'.table.get give) := by
  unfold prepareOut at h
  unfold Stream
  split at h
  · rename_i hm
    rw [hm]
    split at h
    · rename_i fd hfd
      rw [hfd]
      rw [Option.map_eq_some_iff] at h
      obtain ⟨⟨s1, n⟩, h1, h2⟩ := h
      cases h2
      obtain ⟨a, b, _⟩ := dup_stage g h1
      exact ⟨a, rfl, b⟩
    · rename_i hfd
      rw [hfd]
      rw [Option.map_eq_some_iff] at h
      obtain ⟨⟨s1, n⟩, h1, h2⟩ := h
      cases h2
      obtain ⟨a, b, _⟩ := nullOut_stage g h1
      exact ⟨a, rfl, b⟩
  · rename_i hm
    rw [hm]
    split at h
    · cases h
    · rename_i s1 r w hp
      rw [Option.map_eq_some_iff] at h
      obtain ⟨s2, h1, h2⟩ := h
      cases h2
      obtain ⟨a, _, _, b, c, d⟩ := pipe_stage g hp (Or.inl ⟨rfl, rfl⟩) h1
      have hne := Ne.symm (pipe_spec g hp).2.2.1
      rw [if_pos rfl] at c
      rw [if_neg hne] at d
      exact ⟨a, _, s.pipes, rfl, (a.kept _ rfl).1, c, d, Nat.le_refl _, by omega⟩
  · cases h

theorem prepareErr_stage {s s' : Sys} {o : Output} {give : Nat} {keep : Option Nat} {out1 : Nat} (g : Good s)
    (h : prepareErr s o out1 = some (s', keep, give)) :
    (o.stdErr = .stdOut ∧ s' = s ∧ keep = none ∧ give = out1) ∨ (o.stdErr ≠ .stdOut ∧ Staged s s' keep give ∧
      Stream .nullOut .readEnd .writeEnd s s' o.stdErr o.stdErrPipe keep (s'.table.get give)) := by
  unfold prepareErr at h
  unfold Stream
  split at h
  · rename_i hm
    rw [hm]
    right
    refine ⟨by simp, ?_⟩
    split at h
    · rename_i fd hfd
      rw [hfd]
      rw [Option.map_eq_some_iff] at h
      obtain ⟨⟨s1, n⟩, h1, h2⟩ := h
      cases h2
      obtain ⟨a, b, _⟩ := dup_stage g h1
      exact ⟨a, rfl, b⟩
    · rename_i hfd
      rw [hfd]
      rw [Option.map_eq_some_iff] at h
      obtain ⟨⟨s1, n⟩, h1, h2⟩ := h
      cases h2
      obtain ⟨a, b, _⟩ := nullOut_stage g h1
      exact ⟨a, rfl, b⟩
  · rename_i hm
    cases h
    exact Or.inl ⟨hm, rfl, rfl, rfl⟩
  · rename_i hm
    rw [hm]
    right
    refine ⟨by simp, ?_⟩
    split at h
    · cases h
    · rename_i s1 r w hp
      rw [Option.map_eq_some_iff] at h
      obtain ⟨s2, h1, h2⟩ := h
      cases h2
      obtain ⟨a, _, _, b, c, d⟩ := pipe_stage g hp (Or.inl ⟨rfl, rfl⟩) h1
      have hne := Ne.symm (pipe_spec g hp).2.2.1
      rw [if_pos rfl] at c
      rw [if_neg hne] at d
      exact ⟨a, _, s.pipes, rfl, (a.kept _ rfl).1, c, d, Nat.le_refl _, by omega⟩

/-- A stream seen from an earlier and a later state. -/
theorem Stream.widen {null : File} {mine theirs : Nat → File} {a b c d : Sys} {m : Mode} {given h : Option Nat}
    {e : Option Entry} (st : Stream null mine theirs b c m given h e) (x : Ext a b)
    (y : ∀ k f, c.table.get k = some ⟨f, true⟩ → d.table.get k = some ⟨f, true⟩) (hp : c.pipes ≤ d.pipes)
    (hg : ∀ fd, m = .redirect → given = some fd → a.table.get fd ≠ none) :
    Stream null mine theirs a d m given h e := by
  unfold Stream at st ⊢
  split at st
  · rename_i fd
    rw [x.stays fd (hg fd rfl rfl)] at st
    exact st
  · exact st
  · obtain ⟨k, p, h1, h2, h3, h4, h5, h6⟩ := st
    exact ⟨k, p, h1, x.free h2, y k _ h3, h4, Nat.le_trans x.pipes h5, by omega⟩
  · exact st

end Verif.Proc
