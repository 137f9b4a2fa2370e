import Verif.Proc.LemmasD

/-!
# Theorems on child processes
-/

namespace Verif.Proc

/-- A process with its three standard streams and a file. -/
def shell : Sys := ⟨[some ⟨.other 0, false⟩, some ⟨.other 1, false⟩, some ⟨.other 2, false⟩, some ⟨.other 3, true⟩],
  64, 0, none, none⟩

theorem shell_good : Good shell := by
  refine ⟨by decide, fun fd h => (by cases h), fun fd h => (by cases h), ?_⟩
  intro i e hi p hp
  unfold shell Table.get at hi
  simp only [List.getD_eq_getElem?_getD] at hi
  have : i < 4 := by
    rcases Nat.lt_or_ge i 4 with h | h
    · exact h
    · rw [List.getElem?_eq_none (by simpa using h)] at hi; cases hi
  have : i = 0 ∨ i = 1 ∨ i = 2 ∨ i = 3 := by omega
  rcases this with rfl | rfl | rfl | rfl <;> simp at hi <;> subst hi <;> simp at hp

theorem shell_fine : Fine ⟨shell, []⟩ := ⟨shell_good, by simp⟩

/-- Every way of `Subprocess.h` to ask for input and output is allowed. -/
theorem valid_shell (i : Input) (o : Output) (hi : i = .ignore ∨ i = .inherit ∨ i = .open)
    (ho : o = .ignore ∨ o = .inherit ∨ o = .openSeparate ∨ o = .openMerged ∨ o = .openStdOutOnly) {s : Sys} (g : Good s) :
    Valid s i o := by
  have h0 := g.std 0 (by decide)
  have h1 := g.std 1 (by decide)
  have h2 := g.std 2 (by decide)
  rcases hi with rfl | rfl | rfl <;> rcases ho with rfl | rfl | rfl | rfl | rfl <;>
    constructor <;> simp [Input.ignore, Input.inherit, Input.open, Output.ignore, Output.inherit, Output.openSeparate,
      Output.openMerged, Output.openStdOutOnly, h0, h1, h2]

theorem holds_iff (t : Table) (f : File) : Holds t f ↔ ∃ e ∈ t, e.map Entry.file = some f := by
  constructor
  · rintro ⟨j, e, h1, h2⟩
    unfold Table.get at h1
    rw [List.getD_eq_getElem?_getD] at h1
    cases hq : t[j]? with
    | none => rw [hq] at h1; cases h1
    | some e' =>
      rw [hq] at h1
      cases h1
      exact ⟨some e, List.mem_of_getElem? hq, by rw [← h2]; rfl⟩
  · rintro ⟨e, he, h⟩
    obtain ⟨j, hj⟩ := List.mem_iff_getElem?.mp he
    cases e with
    | none => cases h
    | some e =>
      refine ⟨j, e, ?_, by simpa using h⟩
      unfold Table.get
      rw [List.getD_eq_getElem?_getD, hj]
      rfl

/-! ## Starting a program -/

/-- The streams of the program are what is asked: a given file, the null device, or a new pipe whose other end is the
handle of this process; standard error can be what standard output is. -/
theorem C80_streams {s s' : Sys} {i : Input} {o : Output} {c : Option Table} {h : Handles} (g : Good s)
    (v : Valid s i o) (e : exec s i o = some (s', c, h)) : ∃ t, c = some t ∧
      Stream .nullIn .writeEnd .readEnd s s' i.stdIn i.stdInPipe h.writeToStdIn (t.get 0) ∧
      Stream .nullOut .readEnd .writeEnd s s' o.stdOut o.stdOutPipe h.readFromStdOut (t.get 1) ∧
      (o.stdErr ≠ .stdOut →
        Stream .nullOut .readEnd .writeEnd s s' o.stdErr o.stdErrPipe h.readFromStdErr (t.get 2)) ∧
      (o.stdErr = .stdOut → h.readFromStdErr = none ∧ t.get 2 = t.get 1) := by
  obtain ⟨t, ht, _, _, st, _, _⟩ := exec_spec g v e
  refine ⟨t, ht, st.stdIn, st.stdOut, fun hn => ?_, fun he => ?_⟩
  · have := st.stdErr; rw [if_neg hn] at this; exact this
  · have := st.stdErr; rw [if_pos he] at this; exact this

/-- Besides its streams the program inherits exactly what this process has open and not marked; the handles are not among
it. -/
theorem C80_inherits {s s' : Sys} {i : Input} {o : Output} {c : Option Table} {h : Handles} (g : Good s)
    (v : Valid s i o) (e : exec s i o = some (s', c, h)) : ∃ t, c = some t ∧
      (∀ j, 3 ≤ j → t.get j = inherited (s'.table.get j)) ∧ ∀ j, h.has j → 3 ≤ j ∧ t.get j = none := by
  obtain ⟨t, ht, _, x, st, rest, gr⟩ := exec_spec g v e
  refine ⟨t, ht, rest, fun j hj => ?_⟩
  obtain ⟨p, f, h1, h2, h3⟩ := st.handle hj
  have hfree : s.table.get j = none := by
    cases hq : s.table.get j with
    | none => rfl
    | some e' =>
      have := x.openS hq
      rw [h1] at this
      cases this
      have := g.made j _ hq p h2
      omega
  have j3 := free_ge g hfree
  refine ⟨j3, ?_⟩
  rw [rest j j3, h1]
  rfl

/-- This process has the same descriptors as before, the handles, and the null device when it was asked for the first
time; nothing else. -/
theorem C80_parent {s s' : Sys} {i : Input} {o : Output} {c : Option Table} {h : Handles} (g : Good s)
    (v : Valid s i o) (e : exec s i o = some (s', c, h)) : Good s' ∧
      (∀ j, s.table.get j ≠ none → s'.table.get j = s.table.get j) ∧
      (∀ j, h.has j → s.table.get j = none ∧ ∃ f, s'.table.get j = some ⟨f, true⟩) ∧
      ∀ j, ¬ h.has j → Grown s s' j := by
  obtain ⟨t, ht, g', x, st, rest, gr⟩ := exec_spec g v e
  refine ⟨g', x.stays, fun j hj => ?_, gr⟩
  obtain ⟨p, f, h1, h2, h3⟩ := st.handle hj
  refine ⟨?_, f, h1⟩
  cases hq : s.table.get j with
  | none => rfl
  | some e' =>
    have := x.openS hq
    rw [h1] at this
    cases this
    have := g.made j _ hq p h2
    omega

/-- With room for six descriptors it succeeds, in this process and in the child. -/
theorem C80_succeeds {s : Sys} {i : Input} {o : Output} (g : Good s) (v : Valid s i o)
    (h : s.table.length + 6 ≤ s.limit) : ∃ s' t hs, exec s i o = some (s', some t, hs) := exec_room g v h

-- a program with three pipes: the handles are at 5, 6 and 8 (what is between was given to the child)
example : ∃ s' t, exec shell .open .openSeparate = some (s', some t, ⟨some 5, some 6, some 8⟩) ∧
    t = [some ⟨.readEnd 0, false⟩, some ⟨.writeEnd 1, false⟩, some ⟨.writeEnd 2, false⟩, none, none, none, none, none,
      none, none] ∧
    s'.table.get 5 = some ⟨.writeEnd 0, true⟩ ∧ s'.table.get 4 = none := by
  refine ⟨_, _, rfl, ?_, ?_, ?_⟩ <;> decide
-- nothing in, nothing out: the null device stays open in this process and in every program started
example : ∃ s' t, exec shell .ignore .ignore = some (s', some t, ⟨none, none, none⟩) ∧
    s'.table.get 4 = some ⟨.nullIn, false⟩ ∧ t.get 4 = some ⟨.nullIn, false⟩ ∧ t.get 0 = some ⟨.nullIn, false⟩ ∧
    t.get 2 = some ⟨.nullOut, false⟩ := by
  refine ⟨_, _, rfl, ?_⟩
  decide
example : ∃ s' t h, exec shell .inherit .openMerged = some (s', some t, h) :=
  C80_succeeds shell_good (valid_shell _ _ (by simp) (by simp) shell_good) (by decide)

/-! ## Ends of pipes -/

/-- Reading the output of a program ends when that program is done with it, whatever happens in between: no other program
that is started before or later keeps the pipe open, nor does this process. -/
theorem C80_output_ends {w : World} (f : Fine w) {s : Sys} {i : Input} {o : Output} {h : Handles} {t : Table}
    (v : Valid w.sys i o) (e : exec w.sys i o = some (s, some t, h)) (ho : o.stdOut = .opened) :
    ∃ k p, h.readFromStdOut = some k ∧ s.table.get k = some ⟨.readEnd p, true⟩ ∧ t.get 1 = some ⟨.writeEnd p, false⟩ ∧
      ∀ w', Steps Freely ⟨s, w.kids ++ [t]⟩ w' →
        (AtEnd w' p ↔ ∀ t', w'.kids[w.kids.length]? = some t' → ¬ Holds t' (.writeEnd p)) := by
  obtain ⟨k, p, h1, _, _, h3, h4, h5, _, h7⟩ := (exec_pipes f v e).2.1 ho
  have f' : Fine ⟨s, w.kids ++ [t]⟩ := (f.step (Step.exec (ok := Freely) v trivial e)).1
  refine ⟨k, p, h1, h4, h5, fun w' hw => ?_⟩
  have ok := OnlyKid.steps f' hw h7 (Or.inr rfl) h3
  constructor
  · intro ha t' ht'
    exact ha.2 t' (List.mem_of_getElem? ht')
  · intro ha
    refine ⟨ok.here, fun t' ht' hh => ?_⟩
    obtain ⟨m, hm⟩ := List.mem_iff_getElem?.mp ht'
    have := ok.kids m t' hm hh
    subst this
    exact ha t' hm hh

/-- The same of standard error when it has a pipe of its own. -/
theorem C80_errors_end {w : World} (f : Fine w) {s : Sys} {i : Input} {o : Output} {h : Handles} {t : Table}
    (v : Valid w.sys i o) (e : exec w.sys i o = some (s, some t, h)) (ho : o.stdErr = .opened) :
    ∃ k p, h.readFromStdErr = some k ∧ s.table.get k = some ⟨.readEnd p, true⟩ ∧ t.get 2 = some ⟨.writeEnd p, false⟩ ∧
      t.get 1 ≠ some ⟨.writeEnd p, false⟩ ∧
      ∀ w', Steps Freely ⟨s, w.kids ++ [t]⟩ w' →
        (AtEnd w' p ↔ ∀ t', w'.kids[w.kids.length]? = some t' → ¬ Holds t' (.writeEnd p)) := by
  obtain ⟨k, p, h1, _, h2, h3, h4, h5, _, h7⟩ := (exec_pipes f v e).2.2 ho
  have f' : Fine ⟨s, w.kids ++ [t]⟩ := (f.step (Step.exec (ok := Freely) v trivial e)).1
  refine ⟨k, p, h1, h4, h5, ?_, fun w' hw => ?_⟩
  · obtain ⟨t', ht, _, _, st, _, _⟩ := exec_spec f.sys v e
    cases ht
    intro q
    exact st.split (by rw [ho]; simp) p h2 q h5
  have ok := OnlyKid.steps f' hw h7 (Or.inr rfl) h3
  constructor
  · intro ha t' ht'
    exact ha.2 t' (List.mem_of_getElem? ht')
  · intro ha
    refine ⟨ok.here, fun t' ht' hh => ?_⟩
    obtain ⟨m, hm⟩ := List.mem_iff_getElem?.mp ht'
    have := ok.kids m t' hm hh
    subst this
    exact ha t' hm hh

/-- A program finds the end of its input exactly when this process has closed its handle, whatever other programs are
started, as long as the handle is not given to one of them. -/
theorem C80_input_ends {w : World} (f : Fine w) {s : Sys} {i : Input} {o : Output} {h : Handles} {t : Table}
    (v : Valid w.sys i o) (e : exec w.sys i o = some (s, some t, h)) (hi : i.stdIn = .opened) :
    ∃ k p, h.writeToStdIn = some k ∧ s.table.get k = some ⟨.writeEnd p, true⟩ ∧ t.get 0 = some ⟨.readEnd p, false⟩ ∧
      ∀ w', Steps (Keeping (.writeEnd p)) ⟨s, w.kids ++ [t]⟩ w' →
        (AtEnd w' p ↔ w'.sys.table.get k ≠ some ⟨.writeEnd p, true⟩) := by
  obtain ⟨k, p, h1, _, _, h3, h4, h5, h6, _⟩ := (exec_pipes f v e).1 hi
  have f' : Fine ⟨s, w.kids ++ [t]⟩ := (f.step (Step.exec (ok := Freely) v trivial e)).1
  refine ⟨k, p, h1, h4, h5, fun w' hw => ?_⟩
  have oa := OnlyAt.steps f' hw h6 (Or.inr rfl) h3
  constructor
  · intro ha hk
    exact ha.1 ⟨k, _, hk, rfl⟩
  · intro hk
    refine ⟨?_, oa.kids⟩
    rintro ⟨j, en, hj, hfile⟩
    obtain ⟨rfl, hc⟩ := oa.here j en hj hfile
    apply hk
    rw [hj, ← hfile, ← hc]

/-- Writing to a program that is done with its input fails, whatever happens in between: nobody else can read it. -/
theorem C80_input_broken {w : World} (f : Fine w) {s : Sys} {i : Input} {o : Output} {h : Handles} {t : Table}
    (v : Valid w.sys i o) (e : exec w.sys i o = some (s, some t, h)) (hi : i.stdIn = .opened) :
    ∃ k p, h.writeToStdIn = some k ∧ s.table.get k = some ⟨.writeEnd p, true⟩ ∧
      ∀ w', Steps Freely ⟨s, w.kids ++ [t]⟩ w' →
        (Broken w' p ↔ ∀ t', w'.kids[w.kids.length]? = some t' → ¬ Holds t' (.readEnd p)) := by
  obtain ⟨k, p, h1, _, _, h3, h4, h5, _, h7⟩ := (exec_pipes f v e).1 hi
  have f' : Fine ⟨s, w.kids ++ [t]⟩ := (f.step (Step.exec (ok := Freely) v trivial e)).1
  refine ⟨k, p, h1, h4, fun w' hw => ?_⟩
  have ok := OnlyKid.steps f' hw h7 (Or.inl rfl) h3
  constructor
  · intro ha t' ht'
    exact ha.2 t' (List.mem_of_getElem? ht')
  · intro ha
    refine ⟨ok.here, fun t' ht' hh => ?_⟩
    obtain ⟨m, hm⟩ := List.mem_iff_getElem?.mp ht'
    have := ok.kids m t' hm hh
    subst this
    exact ha t' hm hh

-- a program with its output in a pipe is started, then a second one; the first ends, the second goes on
example : ∃ s1 t1 h1 s2 t2 h2, exec shell .ignore .openMerged = some (s1, some t1, h1) ∧
    exec s1 .ignore .inherit = some (s2, some t2, h2) ∧
    Steps Freely ⟨s1, [t1]⟩ ⟨s2, [[], t2]⟩ ∧ h1.readFromStdOut = some 6 ∧ AtEnd ⟨s2, [[], t2]⟩ 0 := by
  obtain ⟨s1, t1, h1, e1⟩ := C80_succeeds (s := shell) (i := .ignore) (o := .openMerged) shell_good
    (valid_shell _ _ (by simp) (by simp) shell_good) (by decide)
  have f := shell_fine
  have v1 : Valid (World.sys ⟨shell, []⟩) .ignore .openMerged := valid_shell _ _ (by simp) (by simp) shell_good
  have f1 := (f.step (Step.exec (ok := Freely) v1 trivial e1)).1
  have e1' : (exec shell .ignore .openMerged) = some (s1, some t1, h1) := e1
  have room : ∃ r, exec shell .ignore .openMerged = some r ∧ r.1.table.length + 6 ≤ r.1.limit ∧
      r.2.2.readFromStdOut = some 6 ∧ (∃ t, r.2.1 = some t ∧ t.get 1 = some ⟨.writeEnd 0, false⟩) := by
    refine ⟨_, rfl, ?_⟩
    decide
  obtain ⟨r, hr, hroom, hh, t', ht', hw⟩ := room
  rw [e1'] at hr
  cases hr
  cases ht'
  dsimp only at hroom hh
  have g1 : Good s1 := f1.sys
  have v2 : Valid s1 .ignore .inherit := valid_shell _ _ (by simp) (by simp) g1
  obtain ⟨s2, t2, h2, e2⟩ := C80_succeeds (s := s1) (i := .ignore) (o := .inherit) g1 v2 hroom
  obtain ⟨k, p, _, _, h5, hall⟩ := C80_output_ends f v1 e1 rfl
  have hp : p = 0 := by rw [hw] at h5; cases h5; rfl
  subst hp
  have st : Steps Freely ⟨s1, [t1]⟩ ⟨s2, [[], t2]⟩ := by
    refine Steps.tail (Steps.tail (Steps.refl _) (Step.exec (w := ⟨s1, [t1]⟩) v2 trivial e2)) ?_
    refine Step.kid (w := ⟨s2, [t1] ++ [t2]⟩) (n := 0) (t := t1) (t' := []) rfl ?_
    rintro _ _ ⟨j, en, hj, _⟩
    simp [Table.get] at hj
  refine ⟨s1, t1, h1, s2, t2, h2, e1, e2, st, hh, ?_⟩
  refine (hall _ st).mpr ?_
  intro t' ht'
  cases ht'
  rintro ⟨j, en, hj, _⟩
  simp [Table.get] at hj

-- input in a pipe: open until the handle at 5 is closed
example : ∃ s t h, exec shell .open .inherit = some (s, some t, h) ∧ h.writeToStdIn = some 5 ∧ ¬ AtEnd ⟨s, [t]⟩ 0 ∧
    ∀ s', s.table.close 5 = some s' → AtEnd ⟨{ s with table := s' }, [t]⟩ 0 := by
  have v : Valid (World.sys ⟨shell, []⟩) .open .inherit := valid_shell _ _ (by simp) (by simp) shell_good
  obtain ⟨s, t, h, e⟩ := C80_succeeds (s := shell) (i := .open) (o := .inherit) shell_good v (by decide)
  have facts : ∃ r, exec shell .open .inherit = some r ∧ r.2.2.writeToStdIn = some 5 ∧ r.1.nullIn = none ∧
      r.1.nullOut = none ∧ r.1.table.get 5 = some ⟨.writeEnd 0, true⟩ := by
    refine ⟨_, rfl, ?_⟩
    decide
  obtain ⟨r, hr, h5, n1, n2, g5⟩ := facts
  rw [e] at hr
  cases hr
  dsimp only at h5 n1 n2 g5
  obtain ⟨k, p, k1, k2, _, hall⟩ := C80_input_ends shell_fine v e rfl
  rw [h5] at k1
  cases k1
  rw [g5] at k2
  cases k2
  refine ⟨s, t, h, e, h5, fun ha => (hall _ (Steps.refl _)).mp ha g5, fun s' hs => ?_⟩
  refine (hall _ (Steps.tail (Steps.refl _) (Step.close (w := ⟨s, [t]⟩) hs (by decide) (by rw [n1]; simp)
    (by rw [n2]; simp)))).mpr ?_
  rw [(close_some hs).1]
  dsimp only
  rw [get_put, if_pos rfl]
  simp

/-! ## Where it goes wrong -/

/-- If another thread starts a program between the two system calls of this one (the ends for the program are not marked,
and nothing keeps two threads apart), that program holds the output of this thread's program open: reading it does not
end with the program. -/
theorem C80_race {s s1 s2 : Sys} {i i2 : Input} {o o2 : Output} {fds : Fds} {h2 : Handles} {t2 : Table} (g : Good s)
    (e1 : prepare s i o = some (s1, fds)) (ho : o.stdOut = .opened) (v2 : Valid s1 i2 o2)
    (e2 : exec s1 i2 o2 = some (s2, some t2, h2)) :
    ∃ k p, fds.out0 = some k ∧ s1.table.get k = some ⟨.readEnd p, true⟩ ∧ Holds t2 (.writeEnd p) ∧
      ∀ (sys : Sys) (kids : List Table), t2 ∈ kids → ¬ AtEnd ⟨sys, kids⟩ p := by
  obtain ⟨g1, _, _, _, h3, _, _, _, hout⟩ := prepare_spec g e1
  obtain ⟨k, p, q1, _, q3, q4, _⟩ := hout ho
  obtain ⟨t, ht, _, x, _, rest, _⟩ := exec_spec g1 v2 e2
  cases ht
  have hh : Holds t2 (.writeEnd p) := by
    refine ⟨fds.out1, ⟨.writeEnd p, false⟩, ?_, rfl⟩
    rw [rest _ h3, x.openS q4]
    rfl
  exact ⟨k, p, q1, q3, hh, fun sys kids hm ha => ha.2 t2 hm hh⟩

example : ∃ s1 f s2 t2 h2, prepare shell .ignore .openMerged = some (s1, f) ∧
    exec s1 .ignore .inherit = some (s2, some t2, h2) ∧ t2.get f.out1 = some ⟨.writeEnd 0, false⟩ := by
  refine ⟨_, _, _, _, _, rfl, rfl, ?_⟩
  decide

/-- In a process that was started without a standard input, the program gets none either though a pipe is asked for:
`dup2(0, 0)` is followed by `close(0)`.  Writing to the handle fails from the start. -/
theorem C80_closed_input : ∃ s t h, exec { shell with table := shell.table.put 0 none } .open .inherit =
      some (s, some t, h) ∧
    h.writeToStdIn = some 4 ∧ s.table.get 4 = some ⟨.writeEnd 0, true⟩ ∧ t.get 0 = none ∧ Broken ⟨s, [t]⟩ 0 := by
  refine ⟨⟨[none, some ⟨.other 1, false⟩, some ⟨.other 2, false⟩, some ⟨.other 3, true⟩, some ⟨.writeEnd 0, true⟩, none,
    none], 64, 1, none, none⟩, [none, some ⟨.other 1, false⟩, some ⟨.other 2, false⟩, none, none, none, none],
    ⟨some 4, none, none⟩, by decide, rfl, by decide, by decide, ?_⟩
  unfold Broken
  simp only [holds_iff]
  decide

/-! ## Arguments, folder and exit code -/

/-- The program sees its path and the arguments as they are, if there is no zero byte in them. -/
theorem C80_arguments (exePath : List UInt8) (args : List (List UInt8)) (h : ∀ a ∈ exePath :: args, (0 : UInt8) ∉ a) :
    argv exePath args = exePath :: args := by
  have one : ∀ a : List UInt8, (0 : UInt8) ∉ a → cString (withNullTerminator a) = a := by
    intro a ha
    unfold cString withNullTerminator
    rw [if_neg]
    · rw [List.takeWhile_append_of_pos]
      · simp
      · intro b hb
        have : b ≠ 0 := by rintro rfl; exact ha hb
        simpa using this
    · intro hl
      exact ha (List.mem_of_getLast? hl)
  unfold argv
  rw [one exePath (h _ (by simp))]
  congr 1
  conv => rhs; rw [← List.map_id args]
  apply List.map_congr_left
  intro a ha
  exact one a (h a (by simp [ha]))

example : argv [108, 115] [[45, 108], [], [32, 34]] = [[108, 115], [45, 108], [], [32, 34]] :=
  C80_arguments _ _ (by decide)

/-- With a zero byte the rest of an argument is lost. -/
theorem C80_zero_byte : ∃ a : List UInt8, argv [108, 115] [a] ≠ [[108, 115], a] := ⟨[97, 0, 98], by decide⟩

/-- The program runs in the folder that is asked for if it can be entered; if it cannot, the program runs all the same,
in the folder of this process. -/
theorem C80_folder (chdir : List UInt8 → Option (List UInt8)) (here dir : List UInt8) (h : dir ≠ [])
    (hz : (0 : UInt8) ∉ dir) : (∀ d, chdir dir = some d → startFolder chdir here dir = d) ∧
      (chdir dir = none → startFolder chdir here dir = here) := by
  have one : cString (withNullTerminator dir) = dir := by
    have := C80_arguments dir [] (by simpa using hz)
    unfold argv at this
    simpa using this
  unfold startFolder
  rw [if_pos h, one]
  exact ⟨fun d hd => by rw [hd]; rfl, fun hd => by rw [hd]; rfl⟩

example : startFolder (fun d => if d = [47] then some [47] else none) [47, 104] [47] = [47] ∧
    startFolder (fun d => if d = [47] then some [47] else none) [47, 104] [47, 120] = [47, 104] := by decide

/-- `join` waits while the program runs; then it returns the exit code modulo 256, or -1 if the program was killed, and the
program is forgotten. -/
theorem C80_join (procs : Procs) (pid : Nat) :
    (procs pid = .running → join procs ⟨some pid⟩ = .waits) ∧
    (∀ code, procs pid = .exited code → join procs ⟨some pid⟩ = .returns (code.toNat % 256 : Nat) (procs.set pid .gone) ⟨none⟩) ∧
    (∀ sig, procs pid = .killed sig → join procs ⟨some pid⟩ = .returns (-1) (procs.set pid .gone) ⟨none⟩) := by
  refine ⟨fun h => ?_, fun code h => ?_, fun sig h => ?_⟩ <;> unfold join <;> dsimp only <;> rw [h] <;> rfl

example : join (Procs.set (fun _ => .gone) 7 (.exited 3)) ⟨some 7⟩ =
    .returns 3 (Procs.set (Procs.set (fun _ => .gone) 7 (.exited 3)) 7 .gone) ⟨none⟩ :=
  (C80_join _ 7).2.1 3 (by simp [Procs.set])

/-- An exit code of 256 is taken for success. -/
theorem C80_code_256 : ∃ (procs : Procs) (pid : Nat), procs pid = .exited 256 ∧
    join procs ⟨some pid⟩ = .returns 0 (procs.set pid .gone) ⟨none⟩ :=
  ⟨fun _ => .exited 256, 7, rfl, (C80_join _ 7).2.1 256 rfl⟩

/-- After `join` has returned, a second one fails an assertion; destroying the object does nothing more. -/
theorem C80_join_once {procs procs' : Procs} {obj obj' : Object} {c : Int} (h : join procs obj = .returns c procs' obj') :
    (∀ p, join p obj' = .assertFails) ∧ ∀ p, destroy p obj' = some p := by
  have : obj' = ⟨none⟩ := by
    unfold join at h
    split at h
    · cases h
    · split at h
      · cases h
      · cases h
      · split at h
        · cases h
        · cases h
          rfl
  subst this
  exact ⟨fun _ => rfl, fun _ => rfl⟩

/-- Destroying the object without `join` forgets a program that has ended; one that still runs goes on, and nobody will
ever wait for it. -/
theorem C80_destroy (procs : Procs) (pid : Nat) :
    (procs pid = .running → destroy procs ⟨some pid⟩ = some procs) ∧
    (∀ code, procs pid = .exited code → destroy procs ⟨some pid⟩ = some (procs.set pid .gone)) ∧
    (∀ sig, procs pid = .killed sig → destroy procs ⟨some pid⟩ = some (procs.set pid .gone)) := by
  refine ⟨fun h => ?_, fun code h => ?_, fun sig h => ?_⟩ <;> unfold destroy <;> dsimp only <;> rw [h]

end Verif.Proc
