import Verif.Markdown.SpecBlock
import Verif.Str.Props
import Verif.Num.Lemmas

/-!
# What the block parser consumes of a line
-/

namespace Verif.Markdown

open Verif Verif.Markdown.Spec

/-- The column after `m`, from column `i`. -/
def col (i : Nat) : List Byte → Nat
  | [] => i
  | c :: m => col (if c = 9 then tabStop i else i + 1) m

theorem col_append (m m' : List Byte) : ∀ i, col i (m ++ m') = col (col i m) m' := by
  induction m with
  | nil => intro i; rfl
  | cons c m ih => intro i; simp only [List.cons_append, col]; exact ih _

theorem tabStop_gt (i : Nat) : i < tabStop i := by unfold tabStop; omega

theorem tabStop_le (i : Nat) : tabStop i ≤ i + 4 := by unfold tabStop; omega

theorem col_mono (m : List Byte) : ∀ i, i ≤ col i m := by
  induction m with
  | nil => intro i; exact Nat.le_refl _
  | cons c m ih =>
    intro i
    rw [col]
    refine Nat.le_trans ?_ (ih _)
    have := tabStop_gt i
    split <;> omega

instance (c : Byte) : Decidable (MarkerByte c) := by unfold MarkerByte; infer_instance

/-- What has been consumed of the line are markers, and the columns are right. -/
def LineOk (line : List Byte) (lc : LC) : Prop :=
  ∃ m, line = m ++ lc.rem ∧ Markers m ∧ col 0 m = lc.indent ∧ lc.outer ≤ lc.indent

theorem LineOk.init (line : List Byte) : LineOk line ⟨line, 0, 0⟩ :=
  ⟨[], rfl, (by intro c hc; cases hc), rfl, Nat.le_refl _⟩

/-- Consuming one more marker character. -/
theorem LineOk.step {line r : List Byte} {c : Byte} {o i o' : Nat}
    (h : LineOk line ⟨c :: r, o, i⟩) (hc : MarkerByte c)
    (ho : o' ≤ if c = 9 then tabStop i else i + 1) :
    LineOk line ⟨r, o', if c = 9 then tabStop i else i + 1⟩ := by
  obtain ⟨m, h1, h2, h3, h4⟩ := h
  refine ⟨m ++ [c], by rw [h1]; simp, ?_, ?_, ho⟩
  · intro d hd
    rcases List.mem_append.mp hd with hd | hd
    · exact h2 d hd
    · rw [List.mem_singleton.mp hd]; exact hc
  · rw [col_append, h3]; rfl

theorem skipLoop_ok {line : List Byte} {o : Nat} : ∀ {r : List Byte} {i : Nat},
    LineOk line ⟨r, o, i⟩ → LineOk line ⟨(skipLoop i r).2, o, (skipLoop i r).1⟩ ∧ i ≤ (skipLoop i r).1
  | [], i, h => ⟨h, Nat.le_refl _⟩
  | c :: r, i, h => by
    have ho : o ≤ i := h.choose_spec.2.2.2
    rw [skipLoop]
    by_cases h1 : c = 32
    · subst h1
      rw [if_pos rfl]
      have := h.step (by decide) (o' := o) (by simp; omega)
      rw [if_neg (by decide)] at this
      obtain ⟨h2, h3⟩ := skipLoop_ok this
      exact ⟨h2, by omega⟩
    · rw [if_neg h1]
      by_cases h2 : c = 9
      · subst h2
        rw [if_pos rfl]
        have hts := tabStop_gt i
        have := h.step (by decide) (o' := o) (by simp; omega)
        rw [if_pos rfl] at this
        obtain ⟨h2, h3⟩ := skipLoop_ok this
        exact ⟨h2, by omega⟩
      · rw [if_neg h2]
        exact ⟨h, Nat.le_refl _⟩

theorem LC.skip_ok {line : List Byte} {lc : LC} (h : LineOk line lc) : LineOk line lc.skip :=
  (skipLoop_ok h).1

theorem LC.space_ok {line : List Byte} {lc lc' : LC} (h : LineOk line lc) (hs : lc.space = some lc') :
    LineOk line lc' ∧ lc.indent + 1 ≤ lc'.indent ∧ lc'.outer = lc.outer := by
  obtain ⟨r, o, i⟩ := lc
  have ho : o ≤ i := h.choose_spec.2.2.2
  unfold LC.space at hs
  cases r with
  | nil => cases hs
  | cons c r =>
    dsimp only at hs
    have hts := tabStop_gt i
    split at hs
    · rename_i hc
      cases hs
      subst hc
      have := h.step (by decide) (o' := o) (by simp; omega)
      rw [if_neg (by decide)] at this
      exact ⟨this, Nat.le_refl _, rfl⟩
    · split at hs
      · rename_i hc
        cases hs
        subst hc
        have := h.step (by decide) (o' := o) (by simp; omega)
        rw [if_pos rfl] at this
        exact ⟨this, by simp; omega, rfl⟩
      · cases hs

theorem LineOk.outer {line : List Byte} {lc : LC} {o : Nat} (h : LineOk line lc) (ho : o ≤ lc.indent) :
    LineOk line { lc with outer := o } := by
  obtain ⟨m, h1, h2, h3, _⟩ := h
  exact ⟨m, h1, h2, h3, ho⟩

theorem LC.quote_ok {line r : List Byte} {lc : LC} (h : LineOk line lc) (hr : lc.rem = 62 :: r) :
    LineOk line (lc.quote r) := by
  obtain ⟨r0, o, i⟩ := lc
  dsimp only at hr
  subst hr
  have h1 := h.step (by decide) (o' := i + 1) (by simp)
  rw [if_neg (by decide)] at h1
  unfold LC.quote
  dsimp only
  split
  · rename_i lc2 hs
    obtain ⟨h2, h3, h4⟩ := LC.space_ok h1 hs
    exact h2.outer (by rw [h4]; exact h3)
  · exact h1

theorem LineOk.inner {line : List Byte} {lc : LC} (h : LineOk line lc) :
    lc.inner = lc.indent - lc.outer := by
  have := h.choose_spec.2.2.2
  unfold LC.inner; rw [if_pos this]

theorem matchLoop_ok {nodes : List BNode} {line : List Byte} : ∀ {ns : List Nat} {keep keep' : Nat}
    {lc lc' : LC}, LineOk line lc → matchLoop nodes ns keep lc = some (keep', lc') →
    LineOk line lc' ∧ keep' ≤ keep + ns.length
  | [], keep, keep', lc, lc', h, hm => by
    rw [matchLoop] at hm; cases hm; exact ⟨(LC.skip_ok h), Nat.le_refl _⟩
  | n :: ns, keep, keep', lc, lc', h, hm => by
    have hsk := (LC.skip_ok h)
    rw [matchLoop] at hm
    split at hm
    · cases hm
    · rename_i node _
      split at hm
      · split at hm
        · rename_i hq
          have hrem : lc.skip.rem = 62 :: lc.skip.rem.tail := by
            cases hr : lc.skip.rem with
            | nil => rw [hr] at hq; cases hq.1
            | cons c r => rw [hr] at hq; simp only [List.head?_cons, Option.some.injEq] at hq; rw [hq.1]; rfl
          obtain ⟨h1, h2⟩ := matchLoop_ok (LC.quote_ok hsk hrem) hm
          exact ⟨h1, by simp only [List.length_cons]; omega⟩
        · cases hm; exact ⟨hsk, by omega⟩
      · split at hm
        · rename_i hq
          rw [hsk.inner] at hq
          have ho := hsk.choose_spec.2.2.2
          obtain ⟨h1, h2⟩ := matchLoop_ok (hsk.outer (by omega)) hm
          exact ⟨h1, by simp only [List.length_cons]; omega⟩
        · cases hm; exact ⟨hsk, by omega⟩
      · cases hm

theorem digit_marker : ∀ c : Byte, Num.digitOf c < 10 → MarkerByte c ∧ c ≠ 9 := by
  unfold MarkerByte; apply forall_byte; decide +kernel

theorem parseLoop_rest : ∀ (s : List Byte) (r : Nat) (a o : Bool),
    ∃ d, s = d ++ (Num.parseLoop 10 r a o s).rest ∧ ∀ c ∈ d, Num.digitOf c < 10
  | [], r, a, o => by
    refine ⟨[], ?_, by simp⟩
    rw [Num.parseLoop]; split <;> rfl
  | c :: s, r, a, o => by
    rw [Num.parseLoop]
    dsimp only
    split
    · refine ⟨[], ?_, by simp⟩
      split <;> rfl
    · rename_i hd
      obtain ⟨d, h1, h2⟩ := parseLoop_rest s (u64 (r * 10 + Num.digitOf c)) true
        (o || (r > 0x71c71c71c71c71b && r > (2 ^ 64 - 1 - Num.digitOf c) / 10))
      refine ⟨c :: d, by rw [List.cons_append, ← h1], ?_⟩
      intro x hx
      rcases List.mem_cons.mp hx with rfl | hx
      · omega
      · exact h2 x hx

/-- Consuming digits. -/
theorem LineOk.digits {line : List Byte} : ∀ {d r : List Byte} {o i : Nat},
    LineOk line ⟨d ++ r, o, i⟩ → (∀ c ∈ d, Num.digitOf c < 10) → LineOk line ⟨r, o, i + d.length⟩
  | [], r, o, i, h, _ => h
  | c :: d, r, o, i, h, hd => by
    obtain ⟨h1, h2⟩ := digit_marker c (hd c (by simp))
    have ho := h.choose_spec.2.2.2
    have := LineOk.step (o' := o) h h1 (by rw [if_neg h2]; dsimp only at ho; omega)
    rw [if_neg h2] at this
    have := LineOk.digits this fun x hx => hd x (List.mem_cons_of_mem _ hx)
    rw [List.length_cons, show i + (d.length + 1) = i + 1 + d.length by omega]
    exact this

theorem listMarker_ok {line : List Byte} {st st' : St} {lc lc' : LC} {num : Int} {punc : Byte}
    (h : LineOk line lc) (hm : listMarker st lc num punc = some (some (st', lc'))) :
    LineOk line lc' := by
  unfold listMarker at hm
  split at hm
  · cases hm
  · rename_i lc1 hs
    obtain ⟨h1, h2, h3⟩ := LC.space_ok h hs
    split at hm
    · cases hm
    · split at hm
      · cases hm
      · cases hm; exact h1.outer h2

theorem markerStep_ok {line : List Byte} {st st' : St} {lc lc' : LC} {c : Byte} {r : List Byte}
    (h : LineOk line lc) (hr : lc.rem = c :: r)
    (hm : markerStep st lc c r = some (some (st', lc'))) : LineOk line lc' := by
  obtain ⟨r0, o, i⟩ := lc
  dsimp only at hr
  subst hr
  have ho : o ≤ i := h.choose_spec.2.2.2
  unfold markerStep at hm
  split at hm
  · cases hm
  · split at hm
    · rename_i hc
      subst hc
      split at hm
      · cases hm
      · cases hm; exact LC.quote_ok h rfl
    · split at hm
      · rename_i hc
        have hc' : MarkerByte c ∧ c ≠ 9 := by rcases hc with rfl | rfl | rfl <;> decide
        have := LineOk.step (o' := o) h hc'.1 (by rw [if_neg hc'.2]; omega)
        rw [if_neg hc'.2] at this
        exact listMarker_ok this hm
      · split at hm
        · dsimp only at hm
          obtain ⟨d, h1, h2⟩ := parseLoop_rest (c :: r) 0 false false
          split at hm
          · cases hm
          · split at hm
            · cases hm
            · split at hm
              · rename_i punc d' r' hp
                split at hm
                · rename_i hpunc
                  have hlen : (c :: r).length - (Num.parseLoop 10 0 false false (c :: r)).rest.length =
                      d.length := by
                    have := congrArg List.length h1
                    rw [List.length_append] at this
                    omega
                  have hp1 : MarkerByte punc ∧ punc ≠ 9 := by rcases hpunc with rfl | rfl <;> decide
                  rw [h1] at h
                  have hd := LineOk.digits h h2
                  rw [hp] at hd
                  have := LineOk.step (o' := o) hd hp1.1 (by rw [if_neg hp1.2]; omega)
                  rw [if_neg hp1.2, ← hlen] at this
                  exact listMarker_ok this hm
                · cases hm
              · cases hm
        · cases hm

theorem markerLoop_ok {line : List Byte} : ∀ {n : Nat} {st st' : St} {lc lc' : LC}, LineOk line lc →
    markerLoop n st lc = some (st', lc') → LineOk line lc'
  | 0, st, st', lc, lc', h, hm => by rw [markerLoop] at hm; cases hm; exact h
  | n + 1, st, st', lc, lc', h, hm => by
    rw [markerLoop] at hm
    split at hm
    · cases hm; exact h
    · rename_i c r hr
      split at hm
      · cases hm; exact h
      · split at hm
        · cases hm
        · cases hm; exact h
        · rename_i hs
          exact markerLoop_ok (LC.skip_ok (markerStep_ok h hr hs)) hm

/-- Cutting a line at a column within its markers. -/
theorem extractLoop_ok {from' : Nat} : ∀ {m r : List Byte} {i : Nat} {t : List Byte}, Markers m →
    i ≤ from' → from' ≤ col i m → extractLoop from' i (m ++ r) = some t →
    ∃ m', Markers m' ∧ ((∃ r', m ++ r = m' ++ r' ∧ t = r') ∨
      ∃ k r', 1 ≤ k ∧ k ≤ 3 ∧ m ++ r = m' ++ 9 :: r' ∧ t = List.replicate k 32 ++ r')
  | [], r, i, t, hm, hi, hc, h => by
    have : i = from' := by simp only [col] at hc; omega
    cases r with
    | nil => rw [List.nil_append, extractLoop] at h; cases h
    | cons c r =>
      rw [List.nil_append, extractLoop, if_pos this] at h
      cases h
      exact ⟨[], (by intro _ h; cases h), Or.inl ⟨_, rfl, rfl⟩⟩
  | c :: m, r, i, t, hm, hi, hc, h => by
    rw [List.cons_append, extractLoop] at h
    have hm' : Markers m := fun x hx => hm x (List.mem_cons_of_mem _ hx)
    have lift : (∃ m', Markers m' ∧ ((∃ r', m ++ r = m' ++ r' ∧ t = r') ∨
        ∃ k r', 1 ≤ k ∧ k ≤ 3 ∧ m ++ r = m' ++ 9 :: r' ∧ t = List.replicate k 32 ++ r')) →
        ∃ m', Markers m' ∧ ((∃ r', c :: m ++ r = m' ++ r' ∧ t = r') ∨
        ∃ k r', 1 ≤ k ∧ k ≤ 3 ∧ c :: m ++ r = m' ++ 9 :: r' ∧ t = List.replicate k 32 ++ r') := by
      rintro ⟨m', h1, h2⟩
      refine ⟨c :: m', ?_, ?_⟩
      · intro x hx
        rcases List.mem_cons.mp hx with rfl | hx
        · exact hm _ (by simp)
        · exact h1 x hx
      · rcases h2 with ⟨r', e, e'⟩ | ⟨k, r', k1, k2, e, e'⟩
        · exact Or.inl ⟨r', by rw [List.cons_append, e]; rfl, e'⟩
        · exact Or.inr ⟨k, r', k1, k2, by rw [List.cons_append, e]; rfl, e'⟩
    split at h
    · cases h
      exact ⟨[], (by intro _ h; cases h), Or.inl ⟨_, rfl, rfl⟩⟩
    · rename_i hne
      split at h
      · cases h
      · split at h
        · cases h
        · rw [col] at hc
          split at h
          · rename_i h9
            subst h9
            rw [if_pos rfl] at hc
            have := tabStop_le i
            split at h
            · cases h
              refine ⟨[], (by intro _ h; cases h), Or.inr ⟨tabStop i - from', m ++ r, by omega, by omega,
                rfl, rfl⟩⟩
            · exact lift (extractLoop_ok hm' (by omega) hc h)
          · rename_i h9
            rw [if_neg h9] at hc
            exact lift (extractLoop_ok hm' (by omega) hc h)

theorem extract_ok {line : List Byte} {lc : LC} {t : List Byte} (h : LineOk line lc)
    (hi : lc.inner ≥ 4)
    (he : extractCodeLine line (lc.outer + 4) = some t) : ∀ {ls ts}, Keeps ls ts →
    Keeps (line :: ls) (t :: ts) := by
  rw [h.inner] at hi
  obtain ⟨m, h1, h2, h3, h4⟩ := h
  unfold extractCodeLine at he
  rw [h1] at he ⊢
  intro ls ts hk
  obtain ⟨m', hm', h | h⟩ := extractLoop_ok h2 (Nat.zero_le _) (by rw [h3]; omega) he
  · obtain ⟨r', e, rfl⟩ := h
    rw [e]; exact .code hm' hk
  · obtain ⟨k, r', k1, k2, e, rfl⟩ := h
    rw [e]; exact .codeTab hm' k1 k2 hk

theorem trimmed_of_ne {s : List Byte} (h : Str.trim Str.isWhite true true s ≠ []) :
    Trimmed s (Str.trim Str.isWhite true true s) := by
  obtain ⟨a, b, h1, h2, h3, h4, h5⟩ := Str.C16_trim_exact Str.isWhite s
  generalize Str.trim Str.isWhite true true s = t at *
  refine ⟨a, b, h1, h2, h3, ?_, ?_⟩
  · cases hx : t.head? with
    | none => simp at hx; exact absurd hx h
    | some c => exact ⟨c, rfl, h4 c (by rw [hx]; rfl)⟩
  · cases hx : t.getLast? with
    | none => simp at hx; exact absurd hx h
    | some c => exact ⟨c, rfl, h5 c (by rw [hx]; rfl)⟩

theorem white_of_trim {s : List Byte} (h : Str.trim Str.isWhite true true s = []) : White s := by
  obtain ⟨a, b, h1, h2, h3, _⟩ := Str.C16_trim_exact Str.isWhite s
  rw [h, List.append_nil] at h1
  intro c hc
  rw [h1] at hc
  rcases List.mem_append.mp hc with hc | hc
  · exact h2 c hc
  · exact h3 c hc

end Verif.Markdown
