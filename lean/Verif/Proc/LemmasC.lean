import Verif.Proc.LemmasB

/-!
# What `exec` comes to
-/

namespace Verif.Proc

/-- The streams of the program are what is asked, and different pipes are different. -/
structure Streams (s s' : Sys) (i : Input) (o : Output) (h : Handles) (t : Table) : Prop where
  stdIn : Stream .nullIn .writeEnd .readEnd s s' i.stdIn i.stdInPipe h.writeToStdIn (t.get 0)
  stdOut : Stream .nullOut .readEnd .writeEnd s s' o.stdOut o.stdOutPipe h.readFromStdOut (t.get 1)
  stdErr : if o.stdErr = .stdOut then h.readFromStdErr = none ∧ t.get 2 = t.get 1
    else Stream .nullOut .readEnd .writeEnd s s' o.stdErr o.stdErrPipe h.readFromStdErr (t.get 2)
  apart : ∀ p, s.pipes ≤ p → t.get 0 = some ⟨.readEnd p, false⟩ →
    t.get 1 ≠ some ⟨.writeEnd p, false⟩ ∧ t.get 2 ≠ some ⟨.writeEnd p, false⟩
  split : o.stdErr ≠ .stdOut → ∀ p, s.pipes ≤ p → t.get 1 = some ⟨.writeEnd p, false⟩ →
    t.get 2 ≠ some ⟨.writeEnd p, false⟩

/-- A file of a new pipe in a stream is of a pipe of that stage. -/
theorem Stream.fresh {null : File} {mine theirs : Nat → File} {a b c : Sys} {m : Mode} {given h : Option Nat}
    {e : Option Entry} {f : File} (g : Good a) (x : Ext a b) (st : Stream null mine theirs b c m given h e)
    (hg : ∀ fd, m = .redirect → given = some fd → a.table.get fd ≠ none) (he : e = some ⟨f, false⟩) {p : Nat}
    (hf : f = .readEnd p ∨ f = .writeEnd p) (hp : a.pipes ≤ p) (hn : ∀ p, null ≠ .readEnd p ∧ null ≠ .writeEnd p)
    (ht : (∀ p, theirs p = .readEnd p) ∨ ∀ p, theirs p = .writeEnd p) :
    b.pipes ≤ p := by
  unfold Stream at st
  split at st
  · rename_i fd
    exfalso
    have hfd := hg fd rfl rfl
    rw [x.stays fd hfd, he] at st
    cases hq : a.table.get fd with
    | none => exact hfd hq
    | some e' =>
      rw [hq] at st
      have h2 : (⟨f, false⟩ : Entry) = ⟨e'.file, false⟩ := by
        have := st.2; unfold sameFile at this; simpa using this
      have h3 : f = e'.file := by injection h2
      have := g.made fd e' hq p (by rw [← h3]; exact hf)
      omega
  · rw [he] at st
    have h2 := st.2
    injection h2 with h2
    injection h2 with h3 _
    exfalso
    rcases hf with hf | hf
    · exact (hn p).1 (by rw [← h3, hf])
    · exact (hn p).2 (by rw [← h3, hf])
  · obtain ⟨k, q, _, _, _, h4, h5, _⟩ := st
    rw [he] at h4
    injection h4 with h4
    injection h4 with h4 _
    have : q = p := by
      rcases ht with ht | ht
      · rw [ht] at h4
        rcases hf with hf | hf
        · rw [hf] at h4; injection h4 with h4; exact h4.symm
        · rw [hf] at h4; cases h4
      · rw [ht] at h4
        rcases hf with hf | hf
        · rw [hf] at h4; cases h4
        · rw [hf] at h4; injection h4 with h4; exact h4.symm
    omega
  · exact st.elim

theorem exec_spec {s s' : Sys} {i : Input} {o : Output} {c : Option Table} {h : Handles} (g : Good s)
    (v : Valid s i o) (e : exec s i o = some (s', c, h)) :
    ∃ t, c = some t ∧ Good s' ∧ Ext s s' ∧ Streams s s' i o h t ∧ (∀ j, 3 ≤ j → t.get j = inherited (s'.table.get j)) ∧
      ∀ j, ¬ h.has j → Grown s s' j := by
  unfold exec at e
  split at e
  · cases e
  rename_i s3 f hprep
  split at e
  · cases e
  rename_i s4 h4 hpar
  have ec := e
  simp only [Option.some.injEq, Prod.mk.injEq] at ec
  obtain ⟨rfl, hchild, rfl⟩ := ec
  unfold prepare at hprep
  split at hprep
  · cases hprep
  rename_i s1 in0 in1 hin
  split at hprep
  · cases hprep
  rename_i s2 out0 out1 hout
  split at hprep
  · cases hprep
  rename_i s3' err0 err1 herr
  cases hprep
  obtain ⟨a, ast⟩ := prepareIn_stage g hin
  obtain ⟨b, bst⟩ := prepareOut_stage a.good hout
  obtain ⟨fa, hfa⟩ := a.given
  obtain ⟨fb, hfb⟩ := b.given
  have d1 : in0 ≠ out1 := by
    intro e1; have := b.free; rw [← e1, hfa] at this; cases this
  have key : Ext s2 s3 ∧ Good s3 ∧ in0 ≠ err1 ∧ (∃ fc, s3.table.get err1 = some ⟨fc, false⟩) ∧ 3 ≤ err1 ∧
      (∀ k, err0 = some k → ∃ f, s3.table.get k = some ⟨f, true⟩) ∧
      (∀ j, j ≠ err1 → err0 ≠ some j → Grown s2 s3 j) ∧ (err1 = out1 ∨ s2.table.get err1 = none) ∧
      (∀ j, s3.nullIn = some j → j ≠ err1 ∧ (s2.nullIn = some j ∨ s2.table.get j = none)) ∧
      (∀ j, s3.nullOut = some j → j ≠ err1 ∧ (s2.nullOut = some j ∨ s2.table.get j = none)) ∧
      (if o.stdErr = .stdOut then err0 = none ∧ err1 = out1
        else err1 ≠ out1 ∧ Stream .nullOut .readEnd .writeEnd s2 s3 o.stdErr o.stdErrPipe err0 (s3.table.get err1)) := by
    rcases prepareErr_stage b.good herr with ⟨q1, q2, q3, q4⟩ | ⟨q1, q2, q3⟩
    · subst q2 q3 q4
      rw [if_pos q1]
      exact ⟨Ext.refl _, b.good, d1, ⟨fb, hfb⟩, free_ge a.good b.free, fun k hk => (by cases hk),
        fun j _ _ => Grown.refl _ _, Or.inl rfl, fun j hj => ⟨(b.newIn j hj).1, Or.inl hj⟩, fun j hj => ⟨(b.newOut j hj).1, Or.inl hj⟩, rfl, rfl⟩
    · rw [if_neg q1]
      have n1 : err1 ≠ out1 := by
        intro e1; have := q2.free; rw [e1, hfb] at this; cases this
      refine ⟨q2.ext, q2.good, ?_, q2.given, free_ge b.good q2.free, fun k hk => (q2.kept k hk).2, q2.rest,
        Or.inr q2.free, q2.newIn, q2.newOut, n1, q3⟩
      intro e1
      have h1 := b.ext.openS hfa
      have := q2.free
      rw [← e1, h1] at this
      cases this
  obtain ⟨cext, cgood, d2, ⟨fc, hfc⟩, c3, ckept, crest, cfree, cnewIn, cnewOut, cst⟩ := key
  have hfa3 : s3.table.get in0 = some ⟨fa, false⟩ := cext.openS (b.ext.openS hfa)
  have hfb3 : s3.table.get out1 = some ⟨fb, false⟩ := cext.openS hfb
  obtain ⟨t, ht, t0, t1, t2, trest⟩ := childSide_spec (t := s3.table) (f := ⟨in0, in1, out0, out1, err0, err1⟩)
    hfa3 hfb3 hfc (free_ge g a.free) (free_ge a.good b.free) c3 d1 d2
  obtain ⟨s5, hs5, lim, pip, ni, no, ptab⟩ := parentSide_spec (s := s3) (f := ⟨in0, in1, out0, out1, err0, err1⟩)
    (by rw [hfa3]; simp) (by rw [hfb3]; simp) (by rw [hfc]; simp) d1 d2
  rw [hs5] at hpar
  injection hpar with hpar
  injection hpar with q1 q2
  subst q1 q2
  rw [hchild] at ht
  dsimp only at t0 t1 t2 trest ptab
  -- the three temporary descriptors were free at first
  have x02 := a.ext.trans b.ext
  have x03 := x02.trans cext
  have fout : s.table.get out1 = none := a.ext.free b.free
  have ferr : s.table.get err1 = none := by
    rcases cfree with e1 | e1
    · rw [e1]; exact fout
    · exact x02.free e1
  have temps : ∀ j, j = in0 ∨ j = out1 ∨ j = err1 → s.table.get j = none := by
    rintro j (rfl | rfl | rfl)
    · exact a.free
    · exact fout
    · exact ferr
  have notIn : ∀ j, s3.nullIn = some j → j ≠ in0 ∧ j ≠ out1 ∧ j ≠ err1 := by
    intro j hj
    obtain ⟨h1, h2⟩ := cnewIn j hj
    rcases h2 with h2 | h2
    · obtain ⟨h3, h4⟩ := b.newIn j h2
      refine ⟨?_, h3, h1⟩
      rcases h4 with h4 | h4
      · exact (a.newIn j h4).1
      · rintro rfl; rw [hfa] at h4; cases h4
    · refine ⟨?_, ?_, h1⟩
      · rintro rfl; rw [b.ext.openS hfa] at h2; cases h2
      · rintro rfl; rw [hfb] at h2; cases h2
  have notOut : ∀ j, s3.nullOut = some j → j ≠ in0 ∧ j ≠ out1 ∧ j ≠ err1 := by
    intro j hj
    obtain ⟨h1, h2⟩ := cnewOut j hj
    rcases h2 with h2 | h2
    · obtain ⟨h3, h4⟩ := b.newOut j h2
      refine ⟨?_, h3, h1⟩
      rcases h4 with h4 | h4
      · exact (a.newOut j h4).1
      · rintro rfl; rw [hfa] at h4; cases h4
    · refine ⟨?_, ?_, h1⟩
      · rintro rfl; rw [b.ext.openS hfa] at h2; cases h2
      · rintro rfl; rw [hfb] at h2; cases h2
  have marked : ∀ k f, s3.table.get k = some ⟨f, true⟩ → s5.table.get k = some ⟨f, true⟩ := by
    intro k f hk
    rw [ptab, if_neg]
    · exact hk
    · rintro (rfl | rfl | rfl)
      · rw [hfa3] at hk; cases hk
      · rw [hfb3] at hk; cases hk
      · rw [hfc] at hk; cases hk
  have ext : Ext s s5 := by
    refine ⟨fun j hj => ?_, by rw [pip]; exact x03.pipes, by rw [lim]; exact x03.limit,
      fun j hj => by rw [ni]; exact x03.nullIn j hj, fun j hj => by rw [no]; exact x03.nullOut j hj⟩
    rw [ptab, if_neg (fun e => hj (temps j e))]
    exact x03.stays j hj
  have m1 : ∀ k f, s1.table.get k = some ⟨f, true⟩ → s5.table.get k = some ⟨f, true⟩ :=
    fun k f hk => marked k f (cext.openS (b.ext.openS hk))
  have m2 : ∀ k f, s2.table.get k = some ⟨f, true⟩ → s5.table.get k = some ⟨f, true⟩ :=
    fun k f hk => marked k f (cext.openS hk)
  have p12 := b.ext.pipes
  have p23 := cext.pipes
  have v2 : ∀ fd, o.stdOut = .redirect → o.stdOutPipe = some fd → s.table.get fd ≠ none := v.stdOut
  refine ⟨t, ht, ?_, ext, ?_, ?_, ?_⟩
  · refine ⟨fun i hi => by rw [ext.stays i (g.std i hi)]; exact g.std i hi, ?_, ?_, ?_⟩
    · intro fd hfd
      rw [ni] at hfd
      have := cgood.nullIn fd hfd
      have h3 := notIn fd hfd
      refine ⟨?_, this.2⟩
      rw [ptab, if_neg (by omega)]
      exact this.1
    · intro fd hfd
      rw [no] at hfd
      have := cgood.nullOut fd hfd
      have h3 := notOut fd hfd
      refine ⟨?_, this.2⟩
      rw [ptab, if_neg (by omega)]
      exact this.1
    · intro j e hj p hp
      rw [pip]
      rw [ptab] at hj
      split at hj
      · cases hj
      · exact cgood.made j e hj p hp
  · have nIn : ∀ p, File.nullIn ≠ .readEnd p ∧ File.nullIn ≠ .writeEnd p := by intro p; constructor <;> simp
    have nOut : ∀ p, File.nullOut ≠ .readEnd p ∧ File.nullOut ≠ .writeEnd p := by intro p; constructor <;> simp
    refine ⟨?_, ?_, ?_, ?_, ?_⟩
    · rw [t0, ← hfa]
      exact ast.widen (Ext.refl s) m1 (by omega) v.stdIn
    · rw [t1, ← hfb]
      exact bst.widen a.ext m2 (by omega) v.stdOut
    · by_cases he : o.stdErr = .stdOut
      · rw [if_pos he] at cst ⊢
        refine ⟨cst.1, ?_⟩
        rw [t1, t2]
        have : fc = fb := by
          rw [cst.2, hfb3] at hfc
          injection hfc with hfc
          injection hfc with hfc _
          exact hfc.symm
        rw [this]
      · rw [if_neg he] at cst ⊢
        rw [t2, ← hfc]
        exact cst.2.widen x02 marked (by omega) v.stdErr
    · intro p hp h0
      rw [t0, ← hfa] at h0
      have hp1 : p < s1.pipes := a.good.made in0 _ h0 p (Or.inl rfl)
      have w1 : t.get 1 ≠ some ⟨.writeEnd p, false⟩ := by
        intro h1
        rw [t1, ← hfb] at h1
        have := bst.fresh g a.ext v.stdOut h1 (Or.inr rfl) hp nOut (Or.inr fun _ => rfl)
        omega
      refine ⟨w1, ?_⟩
      intro h2
      by_cases he : o.stdErr = .stdOut
      · rw [if_pos he] at cst
        apply w1
        rw [t1, ← hfb3, ← cst.2, hfc]
        rw [t2] at h2
        exact h2
      · rw [if_neg he] at cst
        rw [t2, ← hfc] at h2
        have := cst.2.fresh g x02 v.stdErr h2 (Or.inr rfl) hp nOut (Or.inr fun _ => rfl)
        omega
    · intro he p hp h1 h2
      rw [if_neg he] at cst
      rw [t1, ← hfb] at h1
      have hp1 : p < s2.pipes := b.good.made out1 _ h1 p (Or.inr rfl)
      rw [t2, ← hfc] at h2
      have := cst.2.fresh g x02 v.stdErr h2 (Or.inr rfl) hp nOut (Or.inr fun _ => rfl)
      omega
  · intro j hj
    rw [trest j hj, ptab]
    split <;> rfl
  · intro j hj
    unfold Handles.has at hj
    rw [not_or, not_or] at hj
    obtain ⟨h1, h2, h3⟩ := hj
    by_cases hte : j = in0 ∨ j = out1 ∨ j = err1
    · left
      rw [ptab, if_pos hte, temps j hte]
    · have g1 := a.rest j (fun e => hte (Or.inl e)) h1
      have g2 := b.rest j (fun e => hte (Or.inr (Or.inl e))) h2
      have g3 := crest j (fun e => hte (Or.inr (Or.inr e))) h3
      have gg := (g1.trans g2 a.ext b.ext).trans g3 x02 cext
      unfold Grown at gg ⊢
      rw [ptab, if_neg hte, ni, no]
      exact gg

end Verif.Proc
