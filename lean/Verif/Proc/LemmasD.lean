import Verif.Proc.LemmasC

/-!
# Histories
-/

namespace Verif.Proc

/-- An end of a pipe that was there before comes from a stream that was given. -/
theorem Stream.old {null : File} {mine theirs : Nat → File} {s s' : Sys} {m : Mode} {given h : Option Nat}
    {e : Option Entry} {en : Entry} {p : Nat} (st : Stream null mine theirs s s' m given h e)
    (he : e = some en) (hf : en.file = .readEnd p ∨ en.file = .writeEnd p) (hp : p < s.pipes)
    (hn : ∀ p, null ≠ .readEnd p ∧ null ≠ .writeEnd p)
    (ht : (∀ p, theirs p = .readEnd p) ∨ ∀ p, theirs p = .writeEnd p) :
    m = .redirect ∧ ∃ fd e', given = some fd ∧ s.table.get fd = some e' ∧ e'.file = en.file := by
  unfold Stream at st
  split at st
  · rename_i fd
    refine ⟨rfl, fd, ?_⟩
    rw [he] at st
    cases hq : s.table.get fd with
    | none => rw [hq] at st; cases st.2
    | some e' =>
      rw [hq] at st
      refine ⟨e', rfl, rfl, ?_⟩
      have := st.2
      unfold sameFile at this
      injection this with this
      rw [this]
  · rw [he] at st
    have h2 := st.2
    injection h2 with h2
    exfalso
    rw [h2] at hf
    rcases hf with hf | hf
    · exact (hn p).1 hf
    · exact (hn p).2 hf
  · obtain ⟨k, q, _, _, _, h4, h5, _⟩ := st
    rw [he] at h4
    injection h4 with h4
    rw [h4] at hf
    exfalso
    have : q = p := by
      rcases ht with ht | ht <;> rw [ht] at hf <;> rcases hf with hf | hf <;> injection hf
    omega
  · exact st.elim

/-- A handle leads to a new pipe. -/
theorem Stream.handle {null : File} {mine theirs : Nat → File} {s s' : Sys} {m : Mode} {given h : Option Nat}
    {e : Option Entry} {k : Nat} (st : Stream null mine theirs s s' m given h e) (hk : h = some k) :
    ∃ p, s'.table.get k = some ⟨mine p, true⟩ ∧ e = some ⟨theirs p, false⟩ ∧ s.pipes ≤ p ∧ p < s'.pipes := by
  unfold Stream at st
  split at st
  · rw [hk] at st; cases st.1
  · rw [hk] at st; cases st.1
  · obtain ⟨k', p, h1, h2, h3, h4, h5, h6⟩ := st
    rw [hk] at h1
    cases h1
    exact ⟨p, h3, h4, h5, h6⟩
  · exact st.elim

theorem Stream.redirected {null : File} {mine theirs : Nat → File} {s s' : Sys} {m : Mode} {given h : Option Nat}
    {e : Option Entry} (st : Stream null mine theirs s s' m given h e) : m ≠ .stdOut := by
  rintro rfl
  unfold Stream at st
  split at st <;> simp_all

theorem nullIn_end : ∀ p, File.nullIn ≠ .readEnd p ∧ File.nullIn ≠ .writeEnd p := by intro p; constructor <;> simp
theorem nullOut_end : ∀ p, File.nullOut ≠ .readEnd p ∧ File.nullOut ≠ .writeEnd p := by intro p; constructor <;> simp

/-- The handles. -/
theorem Streams.handle {s s' : Sys} {i : Input} {o : Output} {h : Handles} {t : Table} (st : Streams s s' i o h t)
    {j : Nat} (hj : h.has j) : ∃ p f, s'.table.get j = some ⟨f, true⟩ ∧ (f = .readEnd p ∨ f = .writeEnd p) ∧
      s.pipes ≤ p := by
  rcases hj with hj | hj | hj
  · obtain ⟨p, h1, _, h3, _⟩ := st.stdIn.handle hj
    exact ⟨p, _, h1, Or.inr rfl, h3⟩
  · obtain ⟨p, h1, _, h3, _⟩ := st.stdOut.handle hj
    exact ⟨p, _, h1, Or.inl rfl, h3⟩
  · have := st.stdErr
    split at this
    · rw [this.1] at hj; cases hj
    · obtain ⟨p, h1, _, h3, _⟩ := this.handle hj
      exact ⟨p, _, h1, Or.inl rfl, h3⟩

/-- What this process holds of an earlier pipe it has held before, at the same descriptor. -/
theorem exec_here {s s' : Sys} {i : Input} {o : Output} {h : Handles} {t : Table} (st : Streams s s' i o h t)
    (gr : ∀ j, ¬ h.has j → Grown s s' j) {j p : Nat} {e : Entry} (hj : s'.table.get j = some e)
    (hf : e.file = .readEnd p ∨ e.file = .writeEnd p) (hp : p < s.pipes) : s.table.get j = some e := by
  by_cases hh : h.has j
  · obtain ⟨q, f, h1, h2, h3⟩ := st.handle hh
    rw [h1] at hj
    cases hj
    exfalso
    have : q = p := by
      dsimp only at hf
      rcases h2 with h2 | h2 <;> rw [h2] at hf <;> rcases hf with hf | hf <;> injection hf
    omega
  · rcases gr j hh with h1 | h1 | h1
    · rw [← h1, hj]
    · rw [h1.2.1] at hj
      cases hj
      rcases hf with hf | hf <;> cases hf
    · rw [h1.2.1] at hj
      cases hj
      rcases hf with hf | hf <;> cases hf

/-- What the program holds of an earlier pipe was given to it or was not marked. -/
theorem exec_kid {s s' : Sys} {i : Input} {o : Output} {h : Handles} {t : Table} (st : Streams s s' i o h t)
    (rest : ∀ j, 3 ≤ j → t.get j = inherited (s'.table.get j)) (gr : ∀ j, ¬ h.has j → Grown s s' j) {j p : Nat}
    {e : Entry} (hj : t.get j = some e) (hf : e.file = .readEnd p ∨ e.file = .writeEnd p) (hp : p < s.pipes) :
    ∃ fd e', s.table.get fd = some e' ∧ e'.file = e.file ∧ (e'.cloexec = false ∨ Given fd i o) := by
  have j1 : t.get 1 = some e → ∃ fd e', s.table.get fd = some e' ∧ e'.file = e.file ∧ (e'.cloexec = false ∨ Given fd i o) := by
    intro hj
    obtain ⟨hm, fd, e', h1, h2, h3⟩ := st.stdOut.old hj hf hp nullOut_end (Or.inr fun _ => rfl)
    exact ⟨fd, e', h2, h3, Or.inr (Or.inr (Or.inl ⟨hm, h1⟩))⟩
  rcases Nat.lt_or_ge j 3 with h3 | h3
  · have : j = 0 ∨ j = 1 ∨ j = 2 := by omega
    rcases this with rfl | rfl | rfl
    · obtain ⟨hm, fd, e', h1, h2, h3⟩ := st.stdIn.old hj hf hp nullIn_end (Or.inl fun _ => rfl)
      exact ⟨fd, e', h2, h3, Or.inr (Or.inl ⟨hm, h1⟩)⟩
    · exact j1 hj
    · have q := st.stdErr
      split at q
      · exact j1 (by rw [← q.2]; exact hj)
      · obtain ⟨hm, fd, e', h1, h2, h3⟩ := q.old hj hf hp nullOut_end (Or.inr fun _ => rfl)
        exact ⟨fd, e', h2, h3, Or.inr (Or.inr (Or.inr ⟨hm, h1⟩))⟩
  · rw [rest j h3] at hj
    cases hs : s'.table.get j with
    | none => rw [hs] at hj; cases hj
    | some e2 =>
      rw [hs] at hj
      unfold inherited at hj
      dsimp only at hj
      split at hj
      · cases hj
      · rename_i hc
        cases hj
        exact ⟨j, e, exec_here st gr hs hf hp, rfl, Or.inl (by simpa using hc)⟩

/-- The ends the program holds are of pipes that have been made. -/
theorem exec_made {s s' : Sys} {i : Input} {o : Output} {h : Handles} {t : Table} (g : Good s) (g' : Good s')
    (x : Ext s s') (st : Streams s s' i o h t) (rest : ∀ j, 3 ≤ j → t.get j = inherited (s'.table.get j))
    (gr : ∀ j, ¬ h.has j → Grown s s' j) {j p : Nat}
    {e : Entry} (hj : t.get j = some e) (hf : e.file = .readEnd p ∨ e.file = .writeEnd p) : p < s'.pipes := by
  have key : ∀ {null : File} {mine theirs : Nat → File} {m : Mode} {given h : Option Nat},
      Stream null mine theirs s s' m given h (some e) → (∀ p, null ≠ .readEnd p ∧ null ≠ .writeEnd p) →
      ((∀ p, theirs p = .readEnd p) ∨ ∀ p, theirs p = .writeEnd p) → p < s'.pipes := by
    intro null mine theirs m given h st hn ht
    unfold Stream at st
    split at st
    · rename_i fd
      cases hq : s.table.get fd with
      | none => rw [hq] at st; cases st.2
      | some e' =>
        rw [hq] at st
        have := st.2
        unfold sameFile at this
        injection this with this
        have h2 := g.made fd e' hq p (by rw [this] at hf; exact hf)
        have := x.pipes
        omega
    · have h2 := st.2
      injection h2 with h2
      rw [h2] at hf
      rcases hf with hf | hf
      · exact absurd hf (hn p).1
      · exact absurd hf (hn p).2
    · obtain ⟨k, q, _, _, _, h4, h5, h6⟩ := st
      injection h4 with h4
      rw [h4] at hf
      have : q = p := by
        rcases ht with ht | ht <;> rw [ht] at hf <;> rcases hf with hf | hf <;> injection hf
      omega
    · exact st.elim
  rcases Nat.lt_or_ge j 3 with h3 | h3
  · have : j = 0 ∨ j = 1 ∨ j = 2 := by omega
    rcases this with rfl | rfl | rfl
    · have q := st.stdIn; rw [hj] at q
      exact key q nullIn_end (Or.inl fun _ => rfl)
    · have q := st.stdOut; rw [hj] at q
      exact key q nullOut_end (Or.inr fun _ => rfl)
    · have q := st.stdErr
      split at q
      · have q' := st.stdOut
        rw [← q.2, hj] at q'
        exact key q' nullOut_end (Or.inr fun _ => rfl)
      · rw [hj] at q
        exact key q nullOut_end (Or.inr fun _ => rfl)
  · rw [rest j h3] at hj
    cases hs : s'.table.get j with
    | none => rw [hs] at hj; cases hj
    | some e2 =>
      rw [hs] at hj
      unfold inherited at hj
      dsimp only at hj
      split at hj
      · cases hj
      · cases hj
        exact g'.made j e hs p hf

/-! ## The world stays in good order -/

theorem Fine.step {ok : Sys → Input → Output → Prop} {w w' : World} (f : Fine w) (h : Step ok w w') :
    Fine w' ∧ w.sys.pipes ≤ w'.sys.pipes ∧ w.kids.length ≤ w'.kids.length := by
  cases h with
  | exec v k e =>
    rename_i i o s t h
    obtain ⟨t', ht, g, x, st, rest, gr⟩ := exec_spec f.sys v e
    cases ht
    refine ⟨⟨g, ?_⟩, x.pipes, by simp⟩
    intro t' ht p hp
    rw [List.mem_append, List.mem_singleton] at ht
    have xp := x.pipes
    rcases ht with ht | rfl
    · have := f.kids t' ht p hp
      dsimp only
      omega
    · rcases hp with ⟨j, e, h1, h2⟩ | ⟨j, e, h1, h2⟩
      · exact exec_made f.sys g x st rest gr h1 (Or.inl h2)
      · exact exec_made f.sys g x st rest gr h1 (Or.inr h2)
  | close e h3 hi ho =>
    rename_i fd t
    obtain ⟨rfl, _⟩ := close_some e
    refine ⟨⟨⟨?_, ?_, ?_, ?_⟩, f.kids⟩, Nat.le_refl _, Nat.le_refl _⟩
    · intro i hi
      dsimp only
      rw [get_put, if_neg (by omega)]
      exact f.sys.std i hi
    · intro fd' hfd
      dsimp only at hfd ⊢
      rw [get_put, if_neg (by rintro rfl; exact hi hfd)]
      exact f.sys.nullIn fd' hfd
    · intro fd' hfd
      dsimp only at hfd ⊢
      rw [get_put, if_neg (by rintro rfl; exact ho hfd)]
      exact f.sys.nullOut fd' hfd
    · intro i e hi
      dsimp only at hi ⊢
      rw [get_put] at hi
      split at hi
      · cases hi
      · exact f.sys.made i e hi
  | «open» e =>
    obtain ⟨h1, _, rfl⟩ := alloc_spec e
    refine ⟨⟨good_put f.sys h1 ?_, f.kids⟩, Nat.le_refl _, Nat.le_refl _⟩
    intro p hp
    rcases hp with hp | hp <;> cases hp
  | kid hn h =>
    rename_i n t t'
    refine ⟨⟨f.sys, ?_⟩, Nat.le_refl _, by simp⟩
    intro t2 ht p hp
    rcases List.mem_or_eq_of_mem_set ht with h1 | rfl
    · exact f.kids t2 h1 p hp
    · refine f.kids t (List.mem_of_getElem? hn) p ?_
      rcases hp with hp | hp
      · exact Or.inl (h _ ⟨p, Or.inl rfl⟩ hp)
      · exact Or.inr (h _ ⟨p, Or.inr rfl⟩ hp)

theorem Fine.steps {ok : Sys → Input → Output → Prop} {w w' : World} (f : Fine w) (h : Steps ok w w') :
    Fine w' ∧ w.sys.pipes ≤ w'.sys.pipes ∧ w.kids.length ≤ w'.kids.length := by
  induction h with
  | refl => exact ⟨f, Nat.le_refl _, Nat.le_refl _⟩
  | tail _ h2 ih =>
    obtain ⟨a, b, c⟩ := ih
    obtain ⟨a2, b2, c2⟩ := a.step h2
    exact ⟨a2, by omega, by omega⟩

/-- What only a program holds, only it will hold. -/
theorem OnlyKid.step {ok : Sys → Input → Output → Prop} {w w' : World} {f : File} {n p : Nat} (fi : Fine w)
    (h : Step ok w w') (k : OnlyKid w f n) (hf : f = .readEnd p ∨ f = .writeEnd p) (hp : p < w.sys.pipes) :
    OnlyKid w' f n := by
  cases h with
  | exec v hok e =>
    rename_i i o s t h
    obtain ⟨t', ht, g, x, st, rest, gr⟩ := exec_spec fi.sys v e
    cases ht
    refine ⟨?_, ?_⟩
    · rintro ⟨j, e, h1, h2⟩
      exact k.here ⟨j, e, exec_here st gr h1 (by rw [h2]; exact hf) hp, h2⟩
    · intro m t2 hm hh
      dsimp only at hm
      rw [List.getElem?_append] at hm
      split at hm
      · exact k.kids m t2 hm hh
      · have : t2 = t := by
          have := List.mem_of_getElem? hm
          simpa using this
        subst this
        obtain ⟨j, e, h1, h2⟩ := hh
        obtain ⟨fd, e', h3, h4, _⟩ := exec_kid st rest gr h1 (by rw [h2]; exact hf) hp
        exact absurd ⟨fd, e', h3, h4.trans h2⟩ k.here
  | close e h3 hi ho =>
    obtain ⟨rfl, _⟩ := close_some e
    refine ⟨?_, k.kids⟩
    rintro ⟨j, e, h1, h2⟩
    dsimp only at h1
    rw [get_put] at h1
    split at h1
    · cases h1
    · exact k.here ⟨j, e, h1, h2⟩
  | «open» e =>
    obtain ⟨h0, _, rfl⟩ := alloc_spec e
    refine ⟨?_, k.kids⟩
    rintro ⟨j, e, h1, h2⟩
    dsimp only at h1
    rw [get_put] at h1
    split at h1
    · cases h1
      dsimp only at h2
      rw [← h2] at hf
      rcases hf with hf | hf <;> cases hf
    · exact k.here ⟨j, e, h1, h2⟩
  | kid hn h =>
    rename_i n' t t'
    refine ⟨k.here, ?_⟩
    intro m t2 hm hh
    dsimp only at hm
    rw [List.getElem?_set] at hm
    split at hm
    · rename_i he
      subst he
      split at hm
      · cases hm
        exact k.kids _ t hn (h f ⟨p, hf⟩ hh)
      · cases hm
    · exact k.kids m t2 hm hh

/-- What only this process holds, only it will hold, unless it is given to a program. -/
theorem OnlyAt.step {w w' : World} {f : File} {n p : Nat} (fi : Fine w)
    (h : Step (Keeping f) w w') (k : OnlyAt w f n) (hf : f = .readEnd p ∨ f = .writeEnd p) (hp : p < w.sys.pipes) :
    OnlyAt w' f n := by
  cases h with
  | exec v ok e =>
    rename_i i o s t h
    obtain ⟨t', ht, g, x, st, rest, gr⟩ := exec_spec fi.sys v e
    cases ht
    refine ⟨?_, ?_⟩
    · intro j e h1 h2
      exact k.here j e (exec_here st gr h1 (by rw [h2]; exact hf) hp) h2
    · intro t2 hm hh
      dsimp only at hm
      rw [List.mem_append, List.mem_singleton] at hm
      rcases hm with hm | rfl
      · exact k.kids t2 hm hh
      · obtain ⟨j, e, h1, h2⟩ := hh
        obtain ⟨fd, e', h3, h4, h5⟩ := exec_kid st rest gr h1 (by rw [h2]; exact hf) hp
        rcases h5 with h5 | h5
        · have := (k.here fd e' h3 (h4.trans h2)).2
          rw [h5] at this
          cases this
        · exact ok fd e' h5 h3 (h4.trans h2)
  | close e h3 hi ho =>
    obtain ⟨rfl, _⟩ := close_some e
    refine ⟨?_, k.kids⟩
    intro j e h1 h2
    dsimp only at h1
    rw [get_put] at h1
    split at h1
    · cases h1
    · exact k.here j e h1 h2
  | «open» e =>
    obtain ⟨h0, _, rfl⟩ := alloc_spec e
    refine ⟨?_, k.kids⟩
    intro j e h1 h2
    dsimp only at h1
    rw [get_put] at h1
    split at h1
    · cases h1
      dsimp only at h2
      rw [← h2] at hf
      rcases hf with hf | hf <;> cases hf
    · exact k.here j e h1 h2
  | kid hn h =>
    rename_i n' t t'
    refine ⟨k.here, ?_⟩
    intro t2 hm hh
    rcases List.mem_or_eq_of_mem_set hm with h1 | rfl
    · exact k.kids t2 h1 hh
    · exact k.kids t (List.mem_of_getElem? hn) (h f ⟨p, hf⟩ hh)

theorem OnlyKid.steps {ok : Sys → Input → Output → Prop} {w w' : World} {f : File} {n p : Nat} (fi : Fine w)
    (h : Steps ok w w') (k : OnlyKid w f n) (hf : f = .readEnd p ∨ f = .writeEnd p) (hp : p < w.sys.pipes) :
    OnlyKid w' f n := by
  induction h with
  | refl => exact k
  | tail h1 h2 ih =>
    obtain ⟨a, b, _⟩ := fi.steps h1
    exact OnlyKid.step a h2 ih hf (by omega)

theorem OnlyAt.steps {w w' : World} {f : File} {n p : Nat} (fi : Fine w)
    (h : Steps (Keeping f) w w') (k : OnlyAt w f n) (hf : f = .readEnd p ∨ f = .writeEnd p) (hp : p < w.sys.pipes) :
    OnlyAt w' f n := by
  induction h with
  | refl => exact k
  | tail h1 h2 ih =>
    obtain ⟨a, b, _⟩ := fi.steps h1
    exact OnlyAt.step a h2 ih hf (by omega)

/-! ## New pipes -/

/-- Who holds an end of a pipe that is new. -/
theorem exec_new {s s' : Sys} {h : Handles} (g : Good s)
    (gr : ∀ j, ¬ h.has j → Grown s s' j) {j p : Nat} {e : Entry} (hj : s'.table.get j = some e)
    (hf : e.file = .readEnd p ∨ e.file = .writeEnd p) (hp : s.pipes ≤ p) : h.has j := by
  by_cases hh : h.has j
  · exact hh
  · exfalso
    rcases gr j hh with h1 | h1 | h1
    · have := g.made j e (by rw [← h1, hj]) p hf
      omega
    · rw [h1.2.1] at hj
      cases hj
      rcases hf with hf | hf <;> cases hf
    · rw [h1.2.1] at hj
      cases hj
      rcases hf with hf | hf <;> cases hf

/-- A new end in a stream of the program is the other end of the handle. -/
theorem Stream.newEnd {null : File} {mine theirs : Nat → File} {s s' : Sys} {m : Mode} {given h : Option Nat}
    {e : Option Entry} {en : Entry} {p : Nat} (g : Good s) (st : Stream null mine theirs s s' m given h e)
    (he : e = some en) (hf : en.file = .readEnd p ∨ en.file = .writeEnd p) (hp : s.pipes ≤ p)
    (hn : ∀ p, null ≠ .readEnd p ∧ null ≠ .writeEnd p)
    (ht : (∀ p, theirs p = .readEnd p) ∨ ∀ p, theirs p = .writeEnd p) : en = ⟨theirs p, false⟩ := by
  unfold Stream at st
  split at st
  · rename_i fd
    exfalso
    rw [he] at st
    cases hq : s.table.get fd with
    | none => rw [hq] at st; cases st.2
    | some e' =>
      rw [hq] at st
      have := st.2
      unfold sameFile at this
      injection this with this
      have := g.made fd e' hq p (by rw [this] at hf; exact hf)
      omega
  · rw [he] at st
    have h2 := st.2
    injection h2 with h2
    exfalso
    rw [h2] at hf
    rcases hf with hf | hf
    · exact (hn p).1 hf
    · exact (hn p).2 hf
  · obtain ⟨k, q, _, _, _, h4, h5, _⟩ := st
    rw [he] at h4
    injection h4 with h4
    rw [h4] at hf
    have : q = p := by
      rcases ht with ht | ht <;> rw [ht] at hf <;> rcases hf with hf | hf <;> injection hf
    rw [h4, this]
  · exact st.elim

theorem here_new {s s' : Sys} {i : Input} {o : Output} {h : Handles} {t : Table} (g : Good s)
    (st : Streams s s' i o h t) (gr : ∀ j, ¬ h.has j → Grown s s' j) {j p : Nat} {e : Entry}
    (hj : s'.table.get j = some e) (hf : e.file = .readEnd p ∨ e.file = .writeEnd p) (hp : s.pipes ≤ p) :
    (h.writeToStdIn = some j ∧ e = ⟨.writeEnd p, true⟩ ∧ t.get 0 = some ⟨.readEnd p, false⟩) ∨
    (h.readFromStdOut = some j ∧ e = ⟨.readEnd p, true⟩ ∧ t.get 1 = some ⟨.writeEnd p, false⟩) ∨
    (h.readFromStdErr = some j ∧ e = ⟨.readEnd p, true⟩ ∧ t.get 2 = some ⟨.writeEnd p, false⟩ ∧ o.stdErr ≠ .stdOut) := by
  rcases exec_new g gr hj hf hp with hh | hh | hh
  · obtain ⟨q, h1, h2, _, _⟩ := st.stdIn.handle hh
    rw [hj] at h1
    injection h1 with h1
    rw [h1] at hf
    have : q = p := by rcases hf with hf | hf <;> injection hf
    subst this
    exact Or.inl ⟨hh, h1, h2⟩
  · obtain ⟨q, h1, h2, _, _⟩ := st.stdOut.handle hh
    rw [hj] at h1
    injection h1 with h1
    rw [h1] at hf
    have : q = p := by rcases hf with hf | hf <;> injection hf
    subst this
    exact Or.inr (Or.inl ⟨hh, h1, h2⟩)
  · have se := st.stdErr
    split at se
    · rw [hh] at se; cases se.1
    · rename_i hne
      obtain ⟨q, h1, h2, _, _⟩ := se.handle hh
      rw [hj] at h1
      injection h1 with h1
      rw [h1] at hf
      have : q = p := by rcases hf with hf | hf <;> injection hf
      subst this
      exact Or.inr (Or.inr ⟨hh, h1, h2, hne⟩)

theorem kid_new {s s' : Sys} {i : Input} {o : Output} {h : Handles} {t : Table} (g : Good s)
    (st : Streams s s' i o h t) (rest : ∀ j, 3 ≤ j → t.get j = inherited (s'.table.get j))
    (gr : ∀ j, ¬ h.has j → Grown s s' j) {j p : Nat} {e : Entry}
    (hj : t.get j = some e) (hf : e.file = .readEnd p ∨ e.file = .writeEnd p) (hp : s.pipes ≤ p) :
    (j = 0 ∧ e = ⟨.readEnd p, false⟩) ∨ ((j = 1 ∨ j = 2) ∧ e = ⟨.writeEnd p, false⟩) := by
  rcases Nat.lt_or_ge j 3 with h3 | h3
  · have : j = 0 ∨ j = 1 ∨ j = 2 := by omega
    rcases this with rfl | rfl | rfl
    · exact Or.inl ⟨rfl, st.stdIn.newEnd g hj hf hp nullIn_end (Or.inl fun _ => rfl)⟩
    · exact Or.inr ⟨Or.inl rfl, st.stdOut.newEnd g hj hf hp nullOut_end (Or.inr fun _ => rfl)⟩
    · refine Or.inr ⟨Or.inr rfl, ?_⟩
      have se := st.stdErr
      split at se
      · rw [se.2] at hj
        exact st.stdOut.newEnd g hj hf hp nullOut_end (Or.inr fun _ => rfl)
      · exact se.newEnd g hj hf hp nullOut_end (Or.inr fun _ => rfl)
  · exfalso
    rw [rest j h3] at hj
    cases hs : s'.table.get j with
    | none => rw [hs] at hj; cases hj
    | some e2 =>
      rw [hs] at hj
      unfold inherited at hj
      dsimp only at hj
      split at hj
      · cases hj
      · rename_i hc
        cases hj
        rcases here_new g st gr hs hf hp with ⟨_, h1, _⟩ | ⟨_, h1, _⟩ | ⟨_, h1, _⟩ <;> rw [h1] at hc <;> exact hc rfl

/-- Who holds the ends of the new pipes. -/
theorem exec_pipes {w : World} (f : Fine w) {s : Sys} {i : Input} {o : Output} {h : Handles} {t : Table}
    (v : Valid w.sys i o) (e : exec w.sys i o = some (s, some t, h)) :
    (i.stdIn = .opened → ∃ k p, h.writeToStdIn = some k ∧ w.sys.table.get k = none ∧ w.sys.pipes ≤ p ∧ p < s.pipes ∧
      s.table.get k = some ⟨.writeEnd p, true⟩ ∧ t.get 0 = some ⟨.readEnd p, false⟩ ∧
      OnlyAt ⟨s, w.kids ++ [t]⟩ (.writeEnd p) k ∧ OnlyKid ⟨s, w.kids ++ [t]⟩ (.readEnd p) w.kids.length) ∧
    (o.stdOut = .opened → ∃ k p, h.readFromStdOut = some k ∧ w.sys.table.get k = none ∧ w.sys.pipes ≤ p ∧ p < s.pipes ∧
      s.table.get k = some ⟨.readEnd p, true⟩ ∧ t.get 1 = some ⟨.writeEnd p, false⟩ ∧
      OnlyAt ⟨s, w.kids ++ [t]⟩ (.readEnd p) k ∧ OnlyKid ⟨s, w.kids ++ [t]⟩ (.writeEnd p) w.kids.length) ∧
    (o.stdErr = .opened → ∃ k p, h.readFromStdErr = some k ∧ w.sys.table.get k = none ∧ w.sys.pipes ≤ p ∧ p < s.pipes ∧
      s.table.get k = some ⟨.readEnd p, true⟩ ∧ t.get 2 = some ⟨.writeEnd p, false⟩ ∧
      OnlyAt ⟨s, w.kids ++ [t]⟩ (.readEnd p) k ∧ OnlyKid ⟨s, w.kids ++ [t]⟩ (.writeEnd p) w.kids.length) := by
  obtain ⟨t', ht, g, x, st, rest, gr⟩ := exec_spec f.sys v e
  cases ht
  have old : ∀ p, w.sys.pipes ≤ p → ∀ t' ∈ w.kids, ¬ Holds t' (.readEnd p) ∧ ¬ Holds t' (.writeEnd p) := by
    intro p hp t' ht'
    constructor <;> intro hh
    · have := f.kids t' ht' p (Or.inl hh); omega
    · have := f.kids t' ht' p (Or.inr hh); omega
  have kidsOf : ∀ (file : File) p, w.sys.pipes ≤ p → (file = .readEnd p ∨ file = .writeEnd p) →
      ∀ (m : Nat) t', (w.kids ++ [t])[m]? = some t' → Holds t' file → m = w.kids.length := by
    intro file p hp hfile m t' hm hh
    rw [List.getElem?_append] at hm
    split at hm
    · exfalso
      have := old p hp t' (List.mem_of_getElem? hm)
      rcases hfile with rfl | rfl
      · exact this.1 hh
      · exact this.2 hh
    · rename_i hl
      have := (List.getElem?_eq_some_iff.mp hm).1
      simp only [List.length_cons, List.length_nil] at this
      omega
  have split2 : ∀ p, w.sys.pipes ≤ p → t.get 1 = some ⟨.writeEnd p, false⟩ → t.get 2 = some ⟨.writeEnd p, false⟩ →
      o.stdErr = .stdOut := by
    intro p hp h1 h2
    by_cases q : o.stdErr = .stdOut
    · exact q
    · exact absurd h2 (st.split q p hp h1)
  refine ⟨fun hm => ?_, fun hm => ?_, fun hm => ?_⟩
  · have si := st.stdIn
    unfold Stream at si
    rw [hm] at si
    dsimp only at si
    obtain ⟨k, p, h1, h2, h3, h4, h5, h6⟩ := si
    have ap := st.apart p h5 h4
    refine ⟨k, p, h1, h2, h5, h6, h3, h4, ⟨?_, ?_⟩, ⟨?_, kidsOf _ p h5 (Or.inl rfl)⟩⟩
    · intro j en hj hfile
      rcases here_new f.sys st gr hj (Or.inr hfile) h5 with ⟨q1, q2, _⟩ | ⟨_, q2, _⟩ | ⟨_, q2, _⟩
      · rw [h1] at q1
        cases q1
        exact ⟨rfl, by rw [q2]⟩
      · rw [q2] at hfile; cases hfile
      · rw [q2] at hfile; cases hfile
    · intro t' ht' hh
      rw [List.mem_append, List.mem_singleton] at ht'
      rcases ht' with ht' | rfl
      · exact (old p h5 t' ht').2 hh
      · obtain ⟨j, en, hj, hfile⟩ := hh
        rcases kid_new f.sys st rest gr hj (Or.inr hfile) h5 with ⟨_, q⟩ | ⟨rfl | rfl, q⟩
        · rw [q] at hfile; cases hfile
        · rw [q] at hj; exact ap.1 hj
        · rw [q] at hj; exact ap.2 hj
    · rintro ⟨j, en, hj, hfile⟩
      rcases here_new f.sys st gr hj (Or.inl hfile) h5 with ⟨_, q2, _⟩ | ⟨_, q2, q3⟩ | ⟨_, q2, q3, _⟩
      · rw [q2] at hfile; cases hfile
      · exact ap.1 q3
      · exact ap.2 q3
  · have si := st.stdOut
    unfold Stream at si
    rw [hm] at si
    dsimp only at si
    obtain ⟨k, p, h1, h2, h3, h4, h5, h6⟩ := si
    refine ⟨k, p, h1, h2, h5, h6, h3, h4, ⟨?_, ?_⟩, ⟨?_, kidsOf _ p h5 (Or.inr rfl)⟩⟩
    · intro j en hj hfile
      rcases here_new f.sys st gr hj (Or.inl hfile) h5 with ⟨q1, q2, _⟩ | ⟨q1, q2, _⟩ | ⟨_, q2, q3, q4⟩
      · rw [q2] at hfile; cases hfile
      · rw [h1] at q1
        cases q1
        exact ⟨rfl, by rw [q2]⟩
      · exact absurd (split2 p h5 h4 q3) q4
    · intro t' ht' hh
      rw [List.mem_append, List.mem_singleton] at ht'
      rcases ht' with ht' | rfl
      · exact (old p h5 t' ht').1 hh
      · obtain ⟨j, en, hj, hfile⟩ := hh
        rcases kid_new f.sys st rest gr hj (Or.inl hfile) h5 with ⟨rfl, q⟩ | ⟨_, q⟩
        · rw [q] at hj; exact (st.apart p h5 hj).1 h4
        · rw [q] at hfile; cases hfile
    · rintro ⟨j, en, hj, hfile⟩
      rcases here_new f.sys st gr hj (Or.inr hfile) h5 with ⟨_, q2, q3⟩ | ⟨_, q2, _⟩ | ⟨_, q2, _⟩
      · exact (st.apart p h5 q3).1 h4
      · rw [q2] at hfile; cases hfile
      · rw [q2] at hfile; cases hfile
  · have si := st.stdErr
    rw [if_neg (by rw [hm]; simp)] at si
    unfold Stream at si
    rw [hm] at si
    dsimp only at si
    obtain ⟨k, p, h1, h2, h3, h4, h5, h6⟩ := si
    refine ⟨k, p, h1, h2, h5, h6, h3, h4, ⟨?_, ?_⟩, ⟨?_, kidsOf _ p h5 (Or.inr rfl)⟩⟩
    · intro j en hj hfile
      rcases here_new f.sys st gr hj (Or.inl hfile) h5 with ⟨q1, q2, _⟩ | ⟨_, q2, q3⟩ | ⟨q1, q2, _⟩
      · rw [q2] at hfile; cases hfile
      · have := split2 p h5 q3 h4
        rw [hm] at this
        cases this
      · rw [h1] at q1
        cases q1
        exact ⟨rfl, by rw [q2]⟩
    · intro t' ht' hh
      rw [List.mem_append, List.mem_singleton] at ht'
      rcases ht' with ht' | rfl
      · exact (old p h5 t' ht').1 hh
      · obtain ⟨j, en, hj, hfile⟩ := hh
        rcases kid_new f.sys st rest gr hj (Or.inl hfile) h5 with ⟨rfl, q⟩ | ⟨_, q⟩
        · rw [q] at hj; exact (st.apart p h5 hj).2 h4
        · rw [q] at hfile; cases hfile
    · rintro ⟨j, en, hj, hfile⟩
      rcases here_new f.sys st gr hj (Or.inr hfile) h5 with ⟨_, q2, q3⟩ | ⟨_, q2, _⟩ | ⟨_, q2, _⟩
      · exact (st.apart p h5 q3).2 h4
      · rw [q2] at hfile; cases hfile
      · rw [q2] at hfile; cases hfile

/-! ## Room -/

theorem alloc_room {s : Sys} {e : Entry} (h : s.table.length < s.limit) :
    ∃ s' n, s.alloc e = some (s', n) ∧ s'.table.length ≤ s.table.length + 1 ∧ s'.limit = s.limit ∧
      s'.table.get n = some e := by
  have hl : s.table.lowest ≤ s.table.length := by
    unfold Table.lowest; exact List.findIdx_le_length
  refine ⟨{ s with table := s.table.put s.table.lowest (some e) }, s.table.lowest,
    by unfold Sys.alloc; dsimp only; rw [if_pos (by omega)], ?_, rfl, by dsimp only; rw [get_put, if_pos rfl]⟩
  dsimp only
  unfold Table.put
  simp only [List.length_set, List.length_append, List.length_replicate]
  omega

theorem dup_room {s : Sys} {fd : Nat} (h : s.table.length < s.limit) (hf : s.table.get fd ≠ none) :
    ∃ s' n, s.dup fd = some (s', n) ∧ s'.table.length ≤ s.table.length + 1 ∧ s'.limit = s.limit := by
  unfold Sys.dup
  cases hq : s.table.get fd with
  | none => exact absurd hq hf
  | some e =>
    obtain ⟨s', n, h1, h2, h3, _⟩ := alloc_room (e := ⟨e.file, false⟩) h
    exact ⟨s', n, h1, h2, h3⟩

theorem pipe_room {s : Sys} (h : s.table.length + 2 ≤ s.limit) :
    ∃ s' r w, s.pipe = some (s', r, w) ∧ s'.table.length ≤ s.table.length + 2 ∧ s'.limit = s.limit := by
  unfold Sys.pipe
  obtain ⟨s1, r, h1, h2, h3, _⟩ := alloc_room (s := s) (e := ⟨.readEnd s.pipes, false⟩) (by omega)
  rw [h1]
  dsimp only
  obtain ⟨s2, w, k1, k2, k3, _⟩ := alloc_room (s := s1) (e := ⟨.writeEnd s.pipes, false⟩) (by omega)
  rw [k1]
  exact ⟨_, _, _, rfl, by dsimp only; omega, by dsimp only; omega⟩

theorem cloexec_room {s : Sys} {fd : Nat} (hf : s.table.get fd ≠ none) :
    ∃ s', s.setCloexec fd = some s' ∧ s'.table.length = max s.table.length (fd + 1) ∧ s'.limit = s.limit := by
  unfold Sys.setCloexec
  cases hq : s.table.get fd with
  | none => exact absurd hq hf
  | some e =>
    refine ⟨_, rfl, ?_, rfl⟩
    dsimp only
    unfold Table.put
    simp only [List.length_set, List.length_append, List.length_replicate]
    omega

theorem get_lt {t : Table} {fd : Nat} (h : t.get fd ≠ none) : fd < t.length := by
  rcases Nat.lt_or_ge fd t.length with q | q
  · exact q
  · exfalso
    apply h
    unfold Table.get
    rw [List.getD_eq_getElem?_getD, List.getElem?_eq_none q]
    rfl

theorem nullIn_room {s : Sys} (g : Good s) (h : s.table.length + 2 ≤ s.limit) :
    ∃ s' n, s.getNullIn = some (s', n) ∧ s'.table.length ≤ s.table.length + 2 ∧ s'.limit = s.limit := by
  unfold Sys.getNullIn
  cases hq : s.nullIn with
  | some fd =>
    dsimp only
    obtain ⟨s', n, h1, h2, h3⟩ := dup_room (s := s) (fd := fd) (by omega) (by rw [(g.nullIn fd hq).1]; simp)
    exact ⟨s', n, h1, by omega, h3⟩
  | none =>
    dsimp only
    obtain ⟨s1, r, h1, h2, h3, h4⟩ := alloc_room (s := s) (e := ⟨.nullIn, false⟩) (by omega)
    rw [h1]
    dsimp only
    obtain ⟨s', n, k1, k2, k3⟩ := dup_room (s := { s1 with nullIn := some r }) (fd := r) (by dsimp only; omega)
      (by dsimp only; rw [h4]; simp)
    dsimp only at k2 k3
    exact ⟨s', n, k1, by omega, by omega⟩

theorem nullOut_room {s : Sys} (g : Good s) (h : s.table.length + 2 ≤ s.limit) :
    ∃ s' n, s.getNullOut = some (s', n) ∧ s'.table.length ≤ s.table.length + 2 ∧ s'.limit = s.limit := by
  unfold Sys.getNullOut
  cases hq : s.nullOut with
  | some fd =>
    dsimp only
    obtain ⟨s', n, h1, h2, h3⟩ := dup_room (s := s) (fd := fd) (by omega) (by rw [(g.nullOut fd hq).1]; simp)
    exact ⟨s', n, h1, by omega, h3⟩
  | none =>
    dsimp only
    obtain ⟨s1, r, h1, h2, h3, h4⟩ := alloc_room (s := s) (e := ⟨.nullOut, false⟩) (by omega)
    rw [h1]
    dsimp only
    obtain ⟨s', n, k1, k2, k3⟩ := dup_room (s := { s1 with nullOut := some r }) (fd := r) (by dsimp only; omega)
      (by dsimp only; rw [h4]; simp)
    dsimp only at k2 k3
    exact ⟨s', n, k1, by omega, by omega⟩

/-- A pipe and a mark. -/
theorem marked_room {s : Sys} (g : Good s) (h : s.table.length + 2 ≤ s.limit) :
    ∃ s1 r w, s.pipe = some (s1, r, w) ∧
      (∃ s', s1.setCloexec r = some s' ∧ s'.table.length ≤ s.table.length + 2 ∧ s'.limit = s.limit) ∧
      ∃ s', s1.setCloexec w = some s' ∧ s'.table.length ≤ s.table.length + 2 ∧ s'.limit = s.limit := by
  obtain ⟨s1, r, w, h1, h2, h3⟩ := pipe_room h
  obtain ⟨_, _, hrw, _, _, _, _, _, tab⟩ := pipe_spec g h1
  have hr : s1.table.get r ≠ none := by rw [tab, if_neg hrw, if_pos rfl]; simp
  have hw : s1.table.get w ≠ none := by rw [tab, if_pos rfl]; simp
  have := get_lt hr
  have := get_lt hw
  obtain ⟨a, a1, a2, a3⟩ := cloexec_room hr
  obtain ⟨b, b1, b2, b3⟩ := cloexec_room hw
  exact ⟨s1, r, w, h1, ⟨a, a1, by omega, by omega⟩, b, b1, by omega, by omega⟩

theorem prepareIn_room {s : Sys} {i : Input} (g : Good s) (h : s.table.length + 2 ≤ s.limit) (hm : i.stdIn ≠ .stdOut)
    (hg : ∀ fd, i.stdIn = .redirect → i.stdInPipe = some fd → s.table.get fd ≠ none) :
    ∃ r, prepareIn s i = some r ∧ r.1.table.length ≤ s.table.length + 2 ∧ r.1.limit = s.limit := by
  unfold prepareIn
  cases hq : i.stdIn with
  | redirect =>
    cases hp : i.stdInPipe with
    | some fd =>
      obtain ⟨s', n, h1, h2, h3⟩ := dup_room (s := s) (fd := fd) (by omega) (hg fd hq hp)
      dsimp only
      rw [h1]
      exact ⟨_, rfl, by dsimp only; omega, h3⟩
    | none =>
      obtain ⟨s', n, h1, h2, h3⟩ := nullIn_room g h
      dsimp only
      rw [h1]
      exact ⟨_, rfl, h2, h3⟩
  | opened =>
    obtain ⟨s1, r, w, h1, ⟨a, a1, a2, a3⟩, b, b1, b2, b3⟩ := marked_room g h
    dsimp only
    rw [h1]
    dsimp only
    rw [b1]
    exact ⟨_, rfl, b2, b3⟩
  | stdOut => exact absurd hq hm

theorem prepareOut_room {s : Sys} {o : Output} (g : Good s) (h : s.table.length + 2 ≤ s.limit) (hm : o.stdOut ≠ .stdOut)
    (hg : ∀ fd, o.stdOut = .redirect → o.stdOutPipe = some fd → s.table.get fd ≠ none) :
    ∃ r, prepareOut s o = some r ∧ r.1.table.length ≤ s.table.length + 2 ∧ r.1.limit = s.limit := by
  unfold prepareOut
  cases hq : o.stdOut with
  | redirect =>
    cases hp : o.stdOutPipe with
    | some fd =>
      obtain ⟨s', n, h1, h2, h3⟩ := dup_room (s := s) (fd := fd) (by omega) (hg fd hq hp)
      dsimp only
      rw [h1]
      exact ⟨_, rfl, by dsimp only; omega, h3⟩
    | none =>
      obtain ⟨s', n, h1, h2, h3⟩ := nullOut_room g h
      dsimp only
      rw [h1]
      exact ⟨_, rfl, h2, h3⟩
  | opened =>
    obtain ⟨s1, r, w, h1, ⟨a, a1, a2, a3⟩, b, b1, b2, b3⟩ := marked_room g h
    dsimp only
    rw [h1]
    dsimp only
    rw [a1]
    exact ⟨_, rfl, a2, a3⟩
  | stdOut => exact absurd hq hm

theorem prepareErr_room {s : Sys} {o : Output} {out1 : Nat} (g : Good s) (h : s.table.length + 2 ≤ s.limit)
    (hg : ∀ fd, o.stdErr = .redirect → o.stdErrPipe = some fd → s.table.get fd ≠ none) :
    ∃ r, prepareErr s o out1 = some r := by
  unfold prepareErr
  cases hq : o.stdErr with
  | redirect =>
    cases hp : o.stdErrPipe with
    | some fd =>
      obtain ⟨s', n, h1, h2, h3⟩ := dup_room (s := s) (fd := fd) (by omega) (hg fd hq hp)
      dsimp only
      rw [h1]
      exact ⟨_, rfl⟩
    | none =>
      obtain ⟨s', n, h1, h2, h3⟩ := nullOut_room g h
      dsimp only
      rw [h1]
      exact ⟨_, rfl⟩
  | opened =>
    obtain ⟨s1, r, w, h1, ⟨a, a1, a2, a3⟩, b, b1, b2, b3⟩ := marked_room g h
    dsimp only
    rw [h1]
    dsimp only
    rw [a1]
    exact ⟨_, rfl⟩
  | stdOut => exact ⟨_, rfl⟩

/-- What is prepared: the descriptors for the program, with the pipes that are new. -/
theorem prepare_room {s : Sys} {i : Input} {o : Output} (g : Good s) (v : Valid s i o)
    (h : s.table.length + 6 ≤ s.limit) : ∃ r, prepare s i o = some r := by
  obtain ⟨⟨s1, in0, in1⟩, h1, h2, h3⟩ := prepareIn_room (i := i) g (by omega) v.input v.stdIn
  dsimp only at h2 h3
  obtain ⟨a, _⟩ := prepareIn_stage g h1
  have x1 := a.ext
  obtain ⟨⟨s2, out0, out1⟩, k1, k2, k3⟩ := prepareOut_room (s := s1) (o := o) a.good (by omega) v.output
    (fun fd q1 q2 => by rw [x1.stays fd (v.stdOut fd q1 q2)]; exact v.stdOut fd q1 q2)
  dsimp only at k2 k3
  obtain ⟨b, _⟩ := prepareOut_stage a.good k1
  have x2 := x1.trans b.ext
  obtain ⟨⟨s3, err0, err1⟩, m1⟩ := prepareErr_room (s := s2) (o := o) (out1 := out1) b.good (by omega)
    (fun fd q1 q2 => by rw [x2.stays fd (v.stdErr fd q1 q2)]; exact v.stdErr fd q1 q2)
  refine ⟨(s3, ⟨in0, in1, out0, out1, err0, err1⟩), ?_⟩
  · unfold prepare
    rw [h1]
    dsimp only
    rw [k1]
    dsimp only
    rw [m1]

/-- After preparing, this process is in good order and the descriptors for the program are open. -/
theorem prepare_spec {s s' : Sys} {i : Input} {o : Output} {f : Fds} (g : Good s) (e : prepare s i o = some (s', f)) :
    Good s' ∧ Ext s s' ∧ f.in0 ≠ f.out1 ∧ f.in0 ≠ f.err1 ∧ 3 ≤ f.out1 ∧ s'.table.get f.in0 ≠ none ∧ s'.table.get f.err1 ≠ none ∧
      (∃ q, s'.table.get f.out1 = some ⟨q, false⟩) ∧
      (o.stdOut = .opened → ∃ k p, f.out0 = some k ∧ s.table.get k = none ∧ s'.table.get k = some ⟨.readEnd p, true⟩ ∧
        s'.table.get f.out1 = some ⟨.writeEnd p, false⟩ ∧ s.pipes ≤ p) := by
  unfold prepare at e
  split at e
  · cases e
  rename_i s1 in0 in1 hin
  split at e
  · cases e
  rename_i s2 out0 out1 hout
  split at e
  · cases e
  rename_i s3' err0 err1 herr
  cases e
  obtain ⟨a, ast⟩ := prepareIn_stage g hin
  obtain ⟨b, bst⟩ := prepareOut_stage a.good hout
  obtain ⟨fa, hfa⟩ := a.given
  obtain ⟨fb, hfb⟩ := b.given
  dsimp only
  have d1 : in0 ≠ out1 := by
    intro e1; have := b.free; rw [← e1, hfa] at this; cases this
  have h3 : 3 ≤ out1 := free_ge a.good b.free
  have hfa2 := b.ext.openS hfa
  have fin : ∀ s3, Ext s2 s3 → (o.stdOut = .opened → ∃ k p, out0 = some k ∧ s.table.get k = none ∧
      s3.table.get k = some ⟨.readEnd p, true⟩ ∧ s3.table.get out1 = some ⟨.writeEnd p, false⟩ ∧ s.pipes ≤ p) := by
    intro s3 x hm
    unfold Stream at bst
    rw [hm] at bst
    dsimp only at bst
    obtain ⟨k, p, h1, h2, h3, h4, h5, h6⟩ := bst
    exact ⟨k, p, h1, a.ext.free h2, x.openS h3, x.openS h4, Nat.le_trans a.ext.pipes h5⟩
  rcases prepareErr_stage b.good herr with ⟨_, rfl, _, rfl⟩ | ⟨_, c, _⟩
  · exact ⟨b.good, a.ext.trans b.ext, d1, d1, h3, by rw [hfa2]; simp, by rw [hfb]; simp, ⟨fb, hfb⟩, fin _ (Ext.refl _)⟩
  · have d2 : in0 ≠ err1 := by
      intro e1; have := c.free; rw [← e1, hfa2] at this; cases this
    obtain ⟨fc, hfc⟩ := c.given
    exact ⟨c.good, (a.ext.trans b.ext).trans c.ext, d1, d2, h3, by rw [c.ext.openS hfa2]; simp, by rw [hfc]; simp,
      ⟨fb, c.ext.openS hfb⟩, fin _ c.ext⟩

theorem exec_room {s : Sys} {i : Input} {o : Output} (g : Good s) (v : Valid s i o)
    (h : s.table.length + 6 ≤ s.limit) : ∃ s' t h, exec s i o = some (s', some t, h) := by
  obtain ⟨⟨s1, f⟩, h1⟩ := prepare_room g v h
  obtain ⟨_, _, d1, d2, _, q1, q2, ⟨q, q3⟩, _⟩ := prepare_spec g h1
  obtain ⟨s2, h2, _⟩ := parentSide_spec q1 (by rw [q3]; simp) q2 d1 d2
  have e : ∃ c hh, exec s i o = some (s2, c, hh) := by
    unfold exec
    rw [h1]
    dsimp only
    rw [h2]
    exact ⟨_, _, rfl⟩
  obtain ⟨c, hh, e⟩ := e
  obtain ⟨t, ht, _⟩ := exec_spec g v e
  exact ⟨s2, t, hh, by rw [e, ht]⟩

end Verif.Proc
