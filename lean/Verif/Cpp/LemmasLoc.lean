import Verif.Cpp.LemmasRead
/-!
# The tokenizer for C++ — locations
-/
namespace Verif.Cpp
open Verif

/-- The position up to which the source has been read is at least `p`. -/
def After (p : Int) (pp : PP) : Prop :=
  ∀ f below, pp.stack = f :: below → p ≤ locAt pp.endLoc f.rest

/-- The invariant of the location map. -/
structure Inv (macros : List Macro) (source : List Byte) (pp : PP) : Prop where
  mac : pp.macros = macros
  frames : ∀ f ∈ pp.stack, chainText macros source pp.chains f.chain = some f.contents ∧
    f.rest <:+ f.contents
  sorted : pp.locMap.Pairwise (fun a b => a.loc ≤ b.loc)
  nonneg : ∀ it ∈ pp.locMap, 0 ≤ it.loc
  endLoc : 0 ≤ pp.endLoc
  top : ∀ f below, pp.stack = f :: below → ∃ m it, pp.locMap = m ++ [it] ∧ it.chain = f.chain ∧
    it.loc ≤ locAt pp.endLoc f.rest ∧
    (it.offset : Int) + (locAt pp.endLoc f.rest - it.loc) = f.offset

/-- Nothing that was known is lost. -/
structure Kept (pp q : PP) : Prop where
  chains : ∃ c, q.chains = pp.chains ++ c
  items : ∃ new, q.locMap = pp.locMap ++ new ∧ ∀ p, After p pp → ∀ it ∈ new, p ≤ it.loc
  after : ∀ p, After p pp → After p q

/-- The text of a token is found through the location map. -/
def Located (macros : List Macro) (source : List Byte) (pp : PP) (t : Token) : Prop :=
  ∃ it text, lookup pp.locMap t.loc = some it ∧ it.loc ≤ t.loc ∧
    chainText macros source pp.chains it.chain = some text ∧
    t.text <+: text.drop (it.offset + (t.loc - it.loc).toNat)

theorem Kept.rfl' (pp : PP) : Kept pp pp :=
  ⟨⟨[], by simp⟩, ⟨[], by simp, fun _ _ it h => by cases h⟩, fun _ h => h⟩

theorem Kept.trans {a b c : PP} (h1 : Kept a b) (h2 : Kept b c) : Kept a c := by
  obtain ⟨c1, e1⟩ := h1.chains
  obtain ⟨c2, e2⟩ := h2.chains
  obtain ⟨n1, m1, l1⟩ := h1.items
  obtain ⟨n2, m2, l2⟩ := h2.items
  refine ⟨⟨c1 ++ c2, by rw [e2, e1, List.append_assoc]⟩,
    ⟨n1 ++ n2, by rw [m2, m1, List.append_assoc], ?_⟩, fun p h => h2.after p (h1.after p h)⟩
  intro p hp it hit
  rcases List.mem_append.mp hit with h | h
  · exact l1 p hp it h
  · exact l2 p (h1.after p hp) it h

theorem chainText_append {macros : List Macro} {source : List Byte} {a b : List Chain} {i : Nat}
    {t : List Byte} (h : chainText macros source a i = some t) :
    chainText macros source (a ++ b) i = some t := by
  unfold chainText at h ⊢
  cases ha : a[i]? with
  | none => rw [ha] at h; cases h
  | some c =>
    have hi : i < a.length := by
      rcases Nat.lt_or_ge i a.length with h | h
      · exact h
      · rw [List.getElem?_eq_none h] at ha; cases ha
    rw [List.getElem?_append_left hi, ha]
    rw [ha] at h
    exact h

/-- A token stays located when what follows it is read. -/
theorem Located.keep {macros : List Macro} {source : List Byte} {pp q : PP} {t : Token}
    (h : Located macros source pp t) (k : Kept pp q) (ha : After (t.loc + 1) pp) :
    Located macros source q t := by
  obtain ⟨it, text, h1, h2, h3, h4⟩ := h
  obtain ⟨c, hc⟩ := k.chains
  obtain ⟨new, hn, hl⟩ := k.items
  refine ⟨it, text, ?_, h2, ?_, h4⟩
  · rw [hn, lookup_append, h1]
    intro x hx
    have := hl _ ha x hx
    omega
  · rw [hc]; exact chainText_append h3

theorem findMacro_spec : ∀ {ms : List Macro} {name : List Byte} {m : Macro} {i : Nat},
    findMacro ms name = some (m, i) → ms.reverse[i]? = some m ∧ m ∈ ms ∧ m.name = name := by
  intro ms
  induction ms with
  | nil => intro name m i h; cases h
  | cons x xs ih =>
    intro name m i h
    unfold findMacro at h
    by_cases hx : x.name = name
    · rw [if_pos hx] at h
      cases h
      refine ⟨?_, List.mem_cons_self, hx⟩
      rw [List.reverse_cons, List.getElem?_append_right (by simp)]
      simp
    · rw [if_neg hx] at h
      obtain ⟨h1, h2, h3⟩ := ih h
      refine ⟨?_, List.mem_cons_of_mem _ h2, h3⟩
      have hi : i < xs.reverse.length := by
        rcases Nat.lt_or_ge i xs.reverse.length with h | h
        · exact h
        · rw [List.getElem?_eq_none h] at h1; cases h1
      rw [List.reverse_cons, List.getElem?_append_left hi]
      exact h1

theorem offset_suf {f : Frame} {r : List Byte} (h1 : f.rest <:+ f.contents) (h2 : r <:+ f.rest) :
    (({ f with rest := r } : Frame).offset : Int) = f.offset + (f.rest.length - r.length) := by
  have := h1.length_le
  have := h2.length_le
  simp only [Frame.offset]
  omega

section
variable {macros : List Macro} {source : List Byte}

/-- Reading on in the item on top of the stack. -/
theorem Inv.advance {pp q : PP} {f : Frame} {below : List Frame} {r : List Byte}
    (I : Inv macros source pp) (hs : pp.stack = f :: below) (hr : r <:+ f.rest)
    (qs : q.stack = { f with rest := r } :: below) (qm : q.macros = pp.macros)
    (qe : q.endLoc = pp.endLoc) (qc : q.chains = pp.chains) (ql : q.locMap = pp.locMap) :
    Inv macros source q ∧ Kept pp q := by
  have hf := I.frames f (by rw [hs]; exact List.mem_cons_self)
  have hcur := locAt_mono (e := pp.endLoc) hr
  refine ⟨⟨by rw [qm, I.mac], ?_, by rw [ql]; exact I.sorted, by rw [ql]; exact I.nonneg,
    by rw [qe]; exact I.endLoc, ?_⟩, ⟨⟨[], by simp [qc]⟩, ⟨[], by simp [ql], fun _ _ it h => by cases h⟩, ?_⟩⟩
  · intro g hg
    rw [qs] at hg
    rw [qc]
    rcases List.mem_cons.mp hg with rfl | hg
    · exact ⟨hf.1, hr.trans hf.2⟩
    · exact I.frames g (by rw [hs]; exact List.mem_cons_of_mem _ hg)
  · intro g b' hg
    rw [qs] at hg
    cases hg
    obtain ⟨m, it, h1, h2, h3, h4⟩ := I.top f below hs
    refine ⟨m, it, by rw [ql, h1], h2, by rw [qe]; exact Int.le_trans h3 hcur, ?_⟩
    have := offset_suf hf.2 hr
    rw [qe, this]
    simp only [locAt] at h4 ⊢
    omega
  · intro p hp g b' hg
    rw [qs] at hg
    cases hg
    rw [qe]
    exact Int.le_trans (hp f below hs) hcur

/-- The item on top of the stack is at its end. -/
theorem Inv.pop {pp : PP} {f : Frame} {below : List Frame} (I : Inv macros source pp)
    (hs : pp.stack = f :: below) (hr : f.rest = []) :
    Inv macros source (popFrame pp below) ∧ Kept pp (popFrame pp below) := by
  obtain ⟨m, it, h1, h2, h3, h4⟩ := I.top f below hs
  have hcur : locAt pp.endLoc f.rest = pp.endLoc := by simp [locAt, hr]
  rw [hcur] at h3 h4
  cases below with
  | nil =>
    refine ⟨⟨I.mac, (fun g hg => by cases hg), I.sorted, I.nonneg, I.endLoc, (fun g b' hg => by cases hg)⟩,
      ⟨⟨[], by simp [popFrame]⟩, ⟨[], by simp [popFrame], fun _ _ it h => by cases h⟩,
        fun p _ g b' hg => by cases hg⟩⟩
  | cons g gs =>
    have hall : ∀ x ∈ pp.locMap, x.loc ≤ pp.endLoc := by
      intro x hx
      rw [h1] at hx
      rcases List.mem_append.mp hx with hx | hx
      · have hs' := I.sorted
        rw [h1] at hs'
        exact Int.le_trans ((List.pairwise_append.mp hs').2.2 x hx it List.mem_cons_self) h3
      · cases List.mem_singleton.mp hx; exact h3
    refine ⟨⟨I.mac, ?_, ?_, ?_, ?_, ?_⟩, ⟨⟨[], by simp [popFrame]⟩, ⟨_, rfl, ?_⟩, ?_⟩⟩
    · intro x hx
      exact I.frames x (by rw [hs]; exact List.mem_cons_of_mem _ hx)
    · refine List.pairwise_append.mpr ⟨I.sorted, List.pairwise_singleton _ _, ?_⟩
      intro a ha b hb
      cases List.mem_singleton.mp hb
      exact hall a ha
    · intro x hx
      rcases List.mem_append.mp hx with hx | hx
      · exact I.nonneg x hx
      · cases List.mem_singleton.mp hx; exact I.endLoc
    · have := I.endLoc
      simp only [popFrame]; omega
    · intro x b' hx
      cases hx
      refine ⟨pp.locMap, _, rfl, rfl, ?_, ?_⟩
      · simp only [popFrame, locAt]; omega
      · simp only [popFrame, locAt]; omega
    · intro p hp x hx
      cases List.mem_singleton.mp hx
      have := hp f _ hs
      rwa [hcur] at this
    · intro p hp x b' hx
      cases hx
      have := hp f _ hs
      rw [hcur] at this
      simp only [popFrame, locAt]; omega

/-- A macro is entered. -/
theorem Inv.enter {pp q : PP} {f : Frame} {below : List Frame} {r : List Byte} {m : Macro} {idx : Nat}
    {name : List Byte} (I : Inv macros source pp) (hs : pp.stack = f :: below) (hr : r <:+ f.rest)
    (hm : findMacro pp.macros name = some (m, idx))
    (qm : q.macros = pp.macros) (qc : q.chains = pp.chains) (ql : q.locMap = pp.locMap) :
    Inv macros source (enterMacro q { f with rest := r } below m idx (locAt pp.endLoc f.rest)) ∧
      Kept pp (enterMacro q { f with rest := r } below m idx (locAt pp.endLoc f.rest)) := by
  have hf := I.frames f (by rw [hs]; exact List.mem_cons_self)
  obtain ⟨m0, it, h1, h2, h3, h4⟩ := I.top f below hs
  have hpos : 0 ≤ locAt pp.endLoc f.rest :=
    Int.le_trans (I.nonneg it (by rw [h1]; simp)) h3
  have hall : ∀ x ∈ pp.locMap, x.loc ≤ locAt pp.endLoc f.rest := by
    intro x hx
    rw [h1] at hx
    rcases List.mem_append.mp hx with hx | hx
    · have hs' := I.sorted
      rw [h1] at hs'
      exact Int.le_trans ((List.pairwise_append.mp hs').2.2 x hx it List.mem_cons_self) h3
    · cases List.mem_singleton.mp hx; exact h3
  have hidx := (findMacro_spec hm).1
  rw [I.mac] at hidx
  refine ⟨⟨by simp only [enterMacro]; rw [qm, I.mac], ?_, ?_, ?_, ?_, ?_⟩,
    ⟨⟨_, by simp only [enterMacro]; rw [qc]⟩, ⟨_, by simp only [enterMacro]; rw [ql], ?_⟩, ?_⟩⟩
  · intro x hx
    simp only [enterMacro, qc] at hx ⊢
    rcases List.mem_cons.mp hx with rfl | hx
    · refine ⟨?_, List.suffix_rfl⟩
      unfold chainText
      rw [List.getElem?_append_right (Nat.le_refl _)]
      simp [hidx]
    · rcases List.mem_cons.mp hx with rfl | hx
      · exact ⟨chainText_append hf.1, hr.trans hf.2⟩
      · have := I.frames x (by rw [hs]; exact List.mem_cons_of_mem _ hx)
        exact ⟨chainText_append this.1, this.2⟩
  · simp only [enterMacro, ql]
    refine List.pairwise_append.mpr ⟨I.sorted, List.pairwise_singleton _ _, ?_⟩
    intro a ha b hb
    cases List.mem_singleton.mp hb
    exact hall a ha
  · intro x hx
    simp only [enterMacro, ql] at hx
    rcases List.mem_append.mp hx with hx | hx
    · exact I.nonneg x hx
    · cases List.mem_singleton.mp hx; exact hpos
  · simp only [enterMacro]; omega
  · intro x b' hx
    cases hx
    refine ⟨q.locMap, _, rfl, rfl, ?_, ?_⟩
    · simp only [enterMacro, locAt]; omega
    · simp only [enterMacro, locAt, Frame.offset]; omega
  · intro p hp x hx
    cases List.mem_singleton.mp hx
    exact hp f below hs
  · intro p hp x b' hx
    cases hx
    have := hp f below hs
    simp only [enterMacro, locAt] at this ⊢
    omega

/-- What a step gives. -/
structure GotOk (macros : List Macro) (source : List Byte) (pp : PP) (t : Token) (q : PP) : Prop where
  inv : Inv macros source q
  kept : Kept pp q
  after : ∀ p, After p pp → p ≤ t.loc
  nonneg : 0 ≤ t.loc
  type : t.type ≠ .endOfFile
  text : t.text ≠ []
  later : After t.loc q
  located : t.type ≠ .macro → Located macros source q t ∧ After (t.loc + t.text.length) q

theorem step_again {pp q : PP} {loc loc' : Int} (I : Inv macros source pp)
    (h : step pp loc = some (.again q loc')) : Inv macros source q ∧ Kept pp q := by
  unfold step at h
  cases hs : pp.stack with
  | nil => rw [hs] at h; cases h
  | cons f below =>
    rw [hs] at h
    dsimp only at h
    by_cases hr : f.rest = []
    · rw [if_pos hr] at h
      cases h
      exact I.pop hs hr
    rw [if_neg hr] at h
    by_cases he : pp.endLoc < 0
    · rw [if_pos he] at h; cases h
    rw [if_neg he] at h
    cases hl : lex pp.angles pp.endLoc pp.atStart f.rest with
    | none => rw [hl] at h; cases h
    | some L =>
      rw [hl] at h
      obtain ⟨l1, l2, _⟩ := lex_spec hl
      cases L with
      | tok => cases h
      | ident => cases h
      | skip r errs st =>
        cases h
        exact I.advance hs l1 rfl rfl rfl rfl rfl

theorem located_top {pp q : PP} {f : Frame} {below : List Frame} {r : List Byte} {t : Token}
    (I : Inv macros source pp) (hs : pp.stack = f :: below) (hr : r <:+ f.rest)
    (ht : t.loc = locAt pp.endLoc f.rest) (hx : t.text = upTo f.rest r)
    (qs : q.stack = { f with rest := r } :: below)
    (qe : q.endLoc = pp.endLoc) (qc : q.chains = pp.chains) (ql : q.locMap = pp.locMap) :
    Located macros source q t ∧ After (t.loc + t.text.length) q := by
  have hf := I.frames f (by rw [hs]; exact List.mem_cons_self)
  obtain ⟨m0, it, h1, h2, h3, h4⟩ := I.top f below hs
  constructor
  · refine ⟨it, f.contents, ?_, by rw [ht]; exact h3, by rw [qc, h2]; exact hf.1, ?_⟩
    · rw [ql, h1, ht]
      exact lookup_last (by rw [← h1]; exact I.sorted) h3
    · have ho : it.offset + (t.loc - it.loc).toNat = f.offset := by rw [ht]; omega
      rw [ho]
      obtain ⟨pre, hpre⟩ := hf.2
      have hd : f.contents.drop f.offset = f.rest := by
        rw [← hpre]
        simp only [Frame.offset, ← hpre, List.length_append, Nat.add_sub_cancel, List.drop_left]
      rw [hd, hx]
      exact List.take_prefix _ _
  · intro g b' hg
    rw [qs] at hg
    cases hg
    have := hr.length_le
    rw [ht, hx, upTo_length hr, qe]
    simp only [locAt]
    omega

theorem step_got {pp q : PP} {loc : Int} {t : Token} (I : Inv macros source pp)
    (h : step pp loc = some (.got t q)) : GotOk macros source pp t q := by
  unfold step at h
  cases hs : pp.stack with
  | nil => rw [hs] at h; cases h
  | cons f below =>
    obtain ⟨m0, it, h1, h2, h3, h4⟩ := I.top f below hs
    have hpos : 0 ≤ locAt pp.endLoc f.rest :=
      Int.le_trans (I.nonneg it (by rw [h1]; simp)) h3
    rw [hs] at h
    dsimp only at h
    by_cases hr : f.rest = []
    · rw [if_pos hr] at h; cases h
    rw [if_neg hr] at h
    by_cases he : pp.endLoc < 0
    · rw [if_pos he] at h; cases h
    rw [if_neg he] at h
    cases hl : lex pp.angles pp.endLoc pp.atStart f.rest with
    | none => rw [hl] at h; cases h
    | some L =>
      rw [hl] at h
      obtain ⟨l1, l2, _, _, l5⟩ := lex_spec hl
      have hne : ∀ {r : List Byte}, r.length < f.rest.length → upTo f.rest r ≠ [] := by
        intro r hlt h0
        have := congrArg List.length h0
        simp only [upTo, List.length_take, List.length_nil] at this
        omega
      have hafter : ∀ p, After p pp → p ≤ locAt pp.endLoc f.rest := fun p hp => hp f below hs
      have hself : After (locAt pp.endLoc f.rest) pp := fun g b' hg => by
        rw [hs] at hg; cases hg; exact Int.le_refl _
      cases L with
      | skip => cases h
      | tok ty r errs st incl =>
        simp only [Lex.rest] at l1 l2
        have hty := l5 _ _ _ _ _ rfl
        simp only [Option.some.injEq, Step.got.injEq] at h
        obtain ⟨ht, hq⟩ := h
        obtain ⟨a, b⟩ := I.advance (q := q) hs l1 (by rw [← hq]) (by rw [← hq]) (by rw [← hq])
          (by rw [← hq]) (by rw [← hq])
        have hloc := located_top (q := q) (t := t) I hs l1 (by rw [← ht]) (by rw [← ht]; rfl)
          (by rw [← hq]) (by rw [← hq]) (by rw [← hq]) (by rw [← hq])
        subst ht
        exact ⟨a, b, hafter, hpos, hty.2.1, hne l2, b.after _ hself, fun _ => hloc⟩
      | ident r errs =>
        simp only [Lex.rest] at l1 l2
        simp only [Option.some.injEq, Step.got.injEq] at h
        obtain ⟨ht, hq⟩ := h
        unfold gotIdent at ht hq
        dsimp only at ht hq
        cases hm : findMacro pp.macros (upTo f.rest r) with
        | none =>
          rw [show f.rest.take (f.rest.length - r.length) = upTo f.rest r from rfl, hm] at ht hq
          dsimp only at ht hq
          obtain ⟨a, b⟩ := I.advance (q := q) hs l1 (by rw [← hq]) (by rw [← hq]) (by rw [← hq])
            (by rw [← hq]) (by rw [← hq])
          have hloc := located_top (q := q) (t := t) I hs l1 (by rw [← ht]) (by rw [← ht])
            (by rw [← hq]) (by rw [← hq]) (by rw [← hq]) (by rw [← hq])
          subst ht
          exact ⟨a, b, hafter, hpos, (fun h => by cases h), hne l2, b.after _ hself, fun _ => hloc⟩
        | some mi =>
          obtain ⟨m, idx⟩ := mi
          rw [show f.rest.take (f.rest.length - r.length) = upTo f.rest r from rfl, hm] at ht hq
          dsimp only at ht hq
          by_cases hta : m.takesArgs = true
          · rw [if_pos hta] at ht hq
            by_cases ha : (readMacroArguments pp.endLoc r).args = []
            · rw [if_pos ha] at ht hq
              obtain ⟨a, b⟩ := I.advance (q := q) hs l1 (by rw [← hq]) (by rw [← hq]) (by rw [← hq])
                (by rw [← hq]) (by rw [← hq])
              have hloc := located_top (q := q) (t := t) I hs l1 (by rw [← ht]) (by rw [← ht])
                (by rw [← hq]) (by rw [← hq]) (by rw [← hq]) (by rw [← hq])
              subst ht
              exact ⟨a, b, hafter, hpos, (fun h => by cases h), hne l2, b.after _ hself, fun _ => hloc⟩
            · rw [if_neg ha] at ht hq
              subst ht hq
              obtain ⟨a, b⟩ := I.enter (q := { pp with
                errors := pp.errors ++ errs ++ (readMacroArguments pp.endLoc r).errs, atStart := false
                macroArgs := (readMacroArguments pp.endLoc r).args })
                hs ((macroArguments_suf pp.endLoc r).trans l1) hm rfl rfl rfl
              exact ⟨a, b, hafter, hpos, (fun h => by cases h), hne l2, b.after _ hself,
                fun h => absurd rfl h⟩
          · rw [if_neg hta] at ht hq
            subst ht hq
            obtain ⟨a, b⟩ := I.enter (q := { pp with
              errors := pp.errors ++ errs, atStart := false, macroArgs := [] }) hs l1 hm rfl rfl rfl
            exact ⟨a, b, hafter, hpos, (fun h => by cases h), hne l2, b.after _ hself,
              fun h => absurd rfl h⟩

theorem readLoop_ok : ∀ (n : Nat) (pp : PP) (loc : Int) (t : Token) (q : PP), Inv macros source pp →
    readLoop n pp loc = some (t, q) →
    (t.type = .endOfFile ∧ q.stack = [] ∧ Inv macros source q ∧ Kept pp q) ∨ GotOk macros source pp t q := by
  intro n
  induction n with
  | zero => intro pp loc t q _ h; cases h
  | succ n ih =>
    intro pp loc t q I h
    unfold readLoop at h
    cases hst : step pp loc with
    | none => rw [hst] at h; cases h
    | some S =>
      rw [hst] at h
      cases S with
      | ended =>
        cases h
        have hs : pp.stack = [] := by
          cases hs : pp.stack with
          | nil => rfl
          | cons f below =>
            exfalso
            unfold step at hst
            rw [hs] at hst
            dsimp only at hst
            split at hst
            · cases hst
            · split at hst
              · cases hst
              · cases hl : lex pp.angles pp.endLoc pp.atStart f.rest with
                | none => rw [hl] at hst; cases hst
                | some L => rw [hl] at hst; cases L <;> cases hst
        exact Or.inl ⟨rfl, hs, I, Kept.rfl' _⟩
      | got t' q' =>
        cases h
        exact Or.inr (step_got I hst)
      | again pp' loc' =>
        obtain ⟨a, b⟩ := step_again I hst
        rcases ih _ _ _ _ a h with ⟨h1, h2, h3, h4⟩ | G
        · exact Or.inl ⟨h1, h2, h3, b.trans h4⟩
        · exact Or.inr ⟨G.inv, b.trans G.kept, fun p hp => G.after p (b.after p hp), G.nonneg, G.type,
            G.text, G.later, G.located⟩

/-- Where a token ends in the text with macros expanded. -/
def tokenEnd (t : Token) : Int := if t.type = .macro then t.loc else t.loc + t.text.length

/-- Reading some tokens, one after the other. -/
def readN : Nat → PP → Option (List Token × PP)
  | 0, pp => some ([], pp)
  | n + 1, pp =>
    match readToken pp with
    | none => none
    | some (t, pp') =>
      match readN n pp' with
      | none => none
      | some (ts, q) => some (t :: ts, q)

theorem readToken_ended {pp : PP} (h : pp.stack = []) :
    readToken pp = some (⟨-1, .endOfFile, []⟩, pp) := by
  unfold readToken readLoop
  simp only [step, h]

theorem readN_ended : ∀ (n : Nat) {pp q : PP} {ts : List Token}, pp.stack = [] →
    readN n pp = some (ts, q) → (∀ t ∈ ts, t.type = .endOfFile) ∧ q = pp := by
  intro n
  induction n with
  | zero => intro pp q ts _ h; cases h; exact ⟨(fun t h => by cases h), rfl⟩
  | succ n ih =>
    intro pp q ts hs h
    unfold readN at h
    rw [readToken_ended hs] at h
    dsimp only at h
    cases hn : readN n pp with
    | none => rw [hn] at h; cases h
    | some p =>
      obtain ⟨ts', q'⟩ := p
      rw [hn] at h
      cases h
      obtain ⟨a, b⟩ := ih hs hn
      refine ⟨?_, b⟩
      intro t ht
      rcases List.mem_cons.mp ht with rfl | ht
      · rfl
      · exact a t ht

theorem readN_ok : ∀ (n : Nat) (pp : PP) (ts : List Token) (q : PP), Inv macros source pp →
    readN n pp = some (ts, q) →
    Inv macros source q ∧ Kept pp q ∧
    (∀ t ∈ ts, t.type ≠ .endOfFile → (∀ p, After p pp → p ≤ t.loc) ∧ 0 ≤ t.loc ∧ t.text ≠ [] ∧
      (t.type ≠ .macro → Located macros source q t)) ∧
    (ts.filter (fun t => decide (t.type ≠ .endOfFile))).Pairwise (fun a b => tokenEnd a ≤ b.loc) := by
  intro n
  induction n with
  | zero =>
    intro pp ts q I h
    cases h
    exact ⟨I, Kept.rfl' _, (fun t h => by cases h), List.Pairwise.nil⟩
  | succ n ih =>
    intro pp ts q I h
    unfold readN at h
    cases ht : readToken pp with
    | none => rw [ht] at h; cases h
    | some p =>
      obtain ⟨t, pp'⟩ := p
      rw [ht] at h
      dsimp only at h
      cases hn : readN n pp' with
      | none => rw [hn] at h; cases h
      | some p =>
        obtain ⟨ts', q'⟩ := p
        rw [hn] at h
        cases h
        rcases readLoop_ok _ _ _ _ _ I ht with ⟨h1, h2, h3, h4⟩ | G
        · obtain ⟨a, b⟩ := readN_ended n h2 hn
          subst b
          have hall : ∀ x ∈ t :: ts', x.type = .endOfFile := by
            intro x hx
            rcases List.mem_cons.mp hx with rfl | hx
            · exact h1
            · exact a x hx
          refine ⟨h3, h4, fun x hx hne => absurd (hall x hx) hne, ?_⟩
          rw [List.filter_eq_nil_iff.mpr (fun x hx => by simp [hall x hx])]
          exact List.Pairwise.nil
        · obtain ⟨i1, i2, i3, i4⟩ := ih _ _ _ G.inv hn
          have hpos : 1 ≤ t.text.length := by
            have := G.text
            cases ht : t.text with
            | nil => exact absurd ht this
            | cons => simp
          refine ⟨i1, G.kept.trans i2, ?_, ?_⟩
          · intro x hx hne
            rcases List.mem_cons.mp hx with rfl | hx
            · refine ⟨G.after, G.nonneg, G.text, fun hm => ?_⟩
              obtain ⟨L, A⟩ := G.located hm
              refine L.keep i2 ?_
              intro f b hf
              have := A f b hf
              omega
            · obtain ⟨a, b⟩ := i3 x hx hne
              exact ⟨fun p hp => a p (G.kept.after p hp), b⟩
          · rw [List.filter_cons_of_pos (by simp [G.type])]
            refine List.pairwise_cons.mpr ⟨?_, i4⟩
            intro x hx
            obtain ⟨hx1, hx2⟩ := List.mem_filter.mp hx
            have hx3 := (i3 x hx1 (by simpa using hx2)).1
            unfold tokenEnd
            split
            · exact hx3 _ G.later
            · rename_i hm
              exact hx3 _ (G.located hm).2

theorem init_inv (macros : List Macro) (source : List Byte) :
    Inv macros source (PP.init macros source) := by
  refine ⟨rfl, ?_, by simp [PP.init], ?_, by simp [PP.init], ?_⟩
  · intro f hf
    simp only [PP.init, List.mem_singleton] at hf
    subst hf
    exact ⟨rfl, List.suffix_rfl⟩
  · intro it hit
    simp only [PP.init, List.mem_singleton] at hit
    subst hit
    exact Int.le_refl _
  · intro f below hf
    cases hf
    refine ⟨[], _, rfl, rfl, ?_, ?_⟩
    · simp [PP.init, locAt]
    · simp [PP.init, locAt, Frame.offset]

end

end Verif.Cpp
