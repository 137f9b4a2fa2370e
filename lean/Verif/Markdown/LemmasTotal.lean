import Verif.Markdown.LemmasInline

/-!
# When the inline parser runs to the end
-/

namespace Verif.Markdown

open Verif Verif.Markdown.Spec

/-- Every line break is followed by a character. -/
def Good (s : List Sym) : Prop := ∀ a b, s = a ++ none :: b → ∃ c t, b = some c :: t

theorem Good.suffix {a s : List Sym} (h : Good (a ++ s)) : Good s := by
  intro x y e
  exact h (a ++ x) y (by rw [e]; simp)

theorem Good.tail {x : Sym} {s : List Sym} (h : Good (x :: s)) : Good s := Good.suffix (a := [x]) h

theorem Good.drop {s : List Sym} (h : Good s) (n : Nat) : Good (s.drop n) := by
  rw [← List.take_append_drop n s] at h; exact h.suffix

theorem Good.none {s : List Sym} (h : Good (none :: s)) : ∃ c t, s = some c :: t := h [] s rfl

theorem validIndex_good {s : List Sym} (h : Good s) :
    ∃ v s', validIndex s = some (v, s') ∧ (v = .atEnd ∨ ∃ c t, s' = some c :: t) ∧ Good s' := by
  match s, h with
  | [], h => exact ⟨_, _, rfl, Or.inl rfl, h⟩
  | some c :: s, h => exact ⟨_, _, rfl, Or.inr ⟨c, s, rfl⟩, h⟩
  | Option.none :: s, h =>
    obtain ⟨c, t, rfl⟩ := h.none
    exact ⟨_, _, rfl, Or.inr ⟨c, t, rfl⟩, h.tail⟩

theorem validIndex_goodTail {s t : List Sym} {v : Valid} {x : Sym}
    (e : validIndex s = some (v, x :: t)) (h : Good s) : Good t := by
  obtain ⟨v', s', e', _, h'⟩ := validIndex_good h
  rw [e] at e'
  cases e'
  exact h'.tail

theorem getCodeSpan_total {k : Nat} {acc : List Byte} {s : List Sym} (h : Good s)
    (ha : acc ≠ [] ∨ s.head? ≠ some (some 96)) : getCodeSpan k acc s ≠ .fail := by
  fun_induction getCodeSpan k acc s with
  | case1 => have := validIndex_good h; grind
  | case2 => simp
  | case3 => have := validIndex_good h; grind
  | case4 => have := validIndex_good h; grind
  | case5 acc s v t hv acc' n hn hacc e =>
    intro _
    rcases validIndex_cases e hv with ⟨rfl, rfl⟩ | ⟨rfl, rfl⟩
    · rcases ha with ha | ha
      · exact ha (by simpa [acc'] using hacc)
      · simp at ha
    · simp [acc'] at hacc
  | case6 => simp
  | case7 =>
    rename_i ih
    exact ih ((validIndex_goodTail (by assumption) h).drop _) (Or.inl (by simp))
  | case8 =>
    rename_i ih
    exact ih (validIndex_goodTail (by assumption) h) (Or.inl (by simp))

theorem skipLeading_total {s : List Sym} (h : Good s) : skipLeading s ≠ .fail := by
  fun_induction skipLeading s with
  | case1 => have := validIndex_good h; grind
  | case2 => simp
  | case3 => have := validIndex_good h; grind
  | case4 => have := validIndex_good h; grind
  | case5 =>
    rename_i ih
    exact ih (validIndex_goodTail (by assumption) h)
  | case6 => simp

theorem skipTrailing_total {s : List Sym} (h : Good s) : skipTrailing s ≠ .fail := by
  fun_induction skipTrailing s with
  | case1 => have := validIndex_good h; grind
  | case2 => simp
  | case3 => have := validIndex_good h; grind
  | case4 => have := validIndex_good h; grind
  | case5 => simp
  | case6 =>
    rename_i ih
    exact ih (validIndex_goodTail (by assumption) h)
  | case7 => simp

theorem destLoop_total {n : Nat} {acc : List Byte} {s : List Sym} (h : Good s) :
    destLoop n acc s ≠ .fail ∧ destLoop n acc s ≠ .no := by
  fun_induction destLoop n acc s <;> grind [Good.tail, Good.none]

theorem parseLink_total {s : List Sym} (h : Good s) : parseLinkDestination s ≠ .fail := by
  unfold parseLinkDestination
  split
  · rename_i e; exact absurd e (skipLeading_total h)
  · simp
  · rename_i s1 h1
    obtain ⟨w, rfl, _⟩ := skipLeading_src h1
    have hg := h.suffix
    split
    · rename_i e; exact absurd e (destLoop_total hg).1
    · simp
    · rename_i dest nest s2 h2
      obtain ⟨raw, w', rfl, _⟩ := destLoop_src h2
      split
      · simp
      · have := skipTrailing_total hg.suffix
        split <;> simp_all

/-- No run of delimiters is empty. -/
def Runs (ds : List Delim) : Prop := ∀ s l r t, Delim.run s l r t ∈ ds → t ≠ []

theorem SrcD.runs {post pre s : List Sym} {ds : List Delim} (h : SrcD post pre ds s) : Runs ds := by
  induction h with
  | nil => intro _ _ _ _ hm; cases hm
  | run hn _ _ _ ih =>
    intro s l r t hm
    rcases List.mem_cons.mp hm with e | hm
    · cases e; simp; omega
    · exact ih _ _ _ _ hm
  | _ =>
    rename_i ih
    intro s l r t hm
    rcases List.mem_cons.mp hm with e | hm
    · cases e
    · exact ih _ _ _ _ hm

theorem closeSpan_runs {ds ds' : List Delim} {j pos j' : Nat} {s l r s' l' r' : Bool}
    {t t' : List Byte} (hj : ds[j]? = some (.run s' l' r' t')) (hp : ds[pos]? = some (.run s l r t))
    (h : j < pos) (hc : closeSpan ds j pos (.run s' l' r' t') (.run s l r t) = some (ds', j'))
    (hr : Runs ds) : Runs ds' := by
  obtain ⟨a, b, c, rfl, rfl, rfl⟩ := split_two hj hp h
  rw [closeSpan_eq] at hc
  dsimp only at hc
  split at hc
  · cases hc
  · simp only [Option.some.injEq, Prod.mk.injEq] at hc
    obtain ⟨rfl, rfl⟩ := hc
    have hk : ∀ d s l r t, Delim.run s l r t ∈ keep d → t ≠ [] := by
      intro d s l r t hm
      unfold keep at hm
      split at hm
      · cases hm
      · rw [List.mem_singleton] at hm; subst hm; assumption
    intro s l r t hm
    simp only [List.mem_append, List.mem_cons] at hm
    rcases hm with (hm | hm) | hm | hm | hm
    · exact hr s l r t (by simp [hm])
    · exact hk _ _ _ _ _ hm
    · cases hm
    · exact hk _ _ _ _ _ hm
    · exact hr s l r t (by simp [hm])

theorem processLoop_total {ds : List Delim} {pos so uo : Nat} (h : Runs ds) :
    processLoop ds pos so uo ≠ none := by
  fun_induction processLoop ds pos so uo with
  | case1 => simp
  | case2 ds pos so uo star left t hp j hj star' left' right' t' hd hc =>
    intro _
    unfold closeSpan at hc
    dsimp only at hc
    split at hc
    · rename_i h0
      have h1 := h _ _ _ _ (List.mem_of_getElem? hd)
      have h2 := h _ _ _ _ (List.mem_of_getElem? hp)
      simp only [Delim.text] at h0
      have := List.length_pos_iff.mpr h1
      have := List.length_pos_iff.mpr h2
      omega
    · cases hc
  | case3 ds pos so uo star left t hp j hj star' left' right' t' hd ds1 j1 hc ih =>
    exact ih (closeSpan_runs hd hp (findOpener_lt hj) hc h)
  | case4 ds pos so uo star left t hp j hj hd =>
    have hop := findOpener_opener hj
    obtain ⟨_, _, e⟩ := isOpener_some hop
    exact absurd e (hd _ _ _ _)
  | case5 _ _ _ _ _ _ _ _ _ ih => exact ih h
  | case6 _ _ _ _ _ _ _ ih => exact ih h

theorem processEmphasis_total {ds : List Delim} (h : Runs ds) : processEmphasis ds ≠ none := by
  unfold processEmphasis
  simp [processLoop_total h]

theorem flush_ne {ds : List Delim} {p : List Byte} (h : ds ≠ [] ∨ p ≠ []) : flush ds p ≠ [] := by
  unfold flush; split <;> simp_all

theorem rfindOpen_ne {ds : List Delim} (h : ds ≠ []) : rfindOpen ds ≠ none := by
  unfold rfindOpen; split <;> simp_all

theorem Runs.flush {ds : List Delim} {p : List Byte} (h : Runs ds) : Runs (flush ds p) := by
  unfold Markdown.flush; split
  · exact h
  · intro s l r t hm; simp at hm; exact h _ _ _ _ hm

theorem Runs.sub {a b : List Delim} (h : Runs a) (hs : ∀ x ∈ b, x ∈ a) : Runs b :=
  fun s l r t hm => h s l r t (hs _ hm)

theorem Runs.snoc {a : List Delim} {d : Delim} (h : Runs a)
    (hd : ∀ s l r t, d = .run s l r t → t ≠ []) : Runs (a ++ [d]) := by
  intro s l r t hm
  rcases List.mem_append.mp hm with hm | hm
  · exact h _ _ _ _ hm
  · exact hd _ _ _ _ (List.mem_singleton.mp hm).symm

/-- The text begins with `](`. -/
def LinkEnd (s : List Sym) : Prop := ∃ t, s = some 93 :: some 40 :: t

theorem expandLoop_total {ds : List Delim} {pending : List Byte} {prev : Option Byte} {s : List Sym}
    (hr : Runs ds) (hg : Good s) (hn : ds ≠ [] ∨ pending ≠ [] ∨ ¬ LinkEnd s) :
    expandLoop ds pending prev s ≠ none ∧
      ∀ ds', expandLoop ds pending prev s = some ds' → Runs ds' := by
  fun_induction expandLoop ds pending prev s with
  | case1 => exact ⟨by simp, fun _ e => by cases e; exact hr.flush⟩
  | case2 ds pending prev c t ih =>
    exact ih (hr.flush.snoc (by intro _ _ _ _ e; cases e)) hg.tail (Or.inl (by simp))
  | case3 ds pending prev t h =>
    obtain ⟨c, t', rfl⟩ := hg.none
    exact absurd rfl (h c t')
  | case4 ds pending prev s k t' _ hf =>
    refine absurd hf (getCodeSpan_total (hg.tail.drop _) (Or.inr (runLen_spec 96 s).2))
  | case5 ds pending prev s k t' _ code u hc _ hne =>
    rename_i ih
    obtain ⟨b, e, _⟩ := getCodeSpan_src hc
    have := hg.tail.drop (runLen 96 s)
    rw [show s.drop (runLen 96 s) = t' from rfl, e] at this
    exact ih (hr.flush.snoc (by intro _ _ _ _ e; cases e)) this.suffix (Or.inl (by simp))
  | case6 ds pending prev s k t' _ code u hc _ hne =>
    rename_i ih
    exact ih hr.flush.flush (hg.tail.drop _) (Or.inl (flush_ne (Or.inr (by simp [k]))))
  | case7 ds pending prev s k t' _ hc =>
    rename_i ih
    exact ih hr.flush.flush (hg.tail.drop _) (Or.inl (flush_ne (Or.inr (by simp [k]))))
  | case8 ds pending prev s k t' _ _ =>
    rename_i ih
    refine ih (hr.flush.snoc ?_) (hg.tail.drop _) (Or.inl (by simp))
    intro _ _ _ _ e; unfold makeRun at e; cases e; simp [k]
  | case9 ds pending prev s k t' _ _ _ =>
    rename_i ih
    refine ih (hr.flush.snoc ?_) (hg.tail.drop _) (Or.inl (by simp))
    intro _ _ _ _ e; unfold makeRun at e; cases e; simp [k]
  | case10 ds pending prev s _ _ _ ih =>
    exact ih (hr.flush.snoc (by intro _ _ _ _ e; cases e)) hg.tail (Or.inl (by simp))
  | case11 ds pending prev s hh t' _ _ _ _ _ hf =>
    refine absurd (by assumption) (rfindOpen_ne (flush_ne ?_))
    rcases hn with hn | hn | hn
    · exact Or.inl hn
    · exact Or.inr hn
    · refine absurd ⟨s.tail, ?_⟩ hn
      cases s with
      | nil => cases hh
      | cons x s => simp only [List.head?_cons, Option.some.injEq] at hh; subst hh; rfl
  | case12 ds pending prev s hh t' _ _ _ _ _ _ =>
    rename_i ih
    exact ih hr.flush (by rw [show t' = s.drop 1 from List.drop_one.symm]; exact hg.tail.drop 1)
      (Or.inr (Or.inl (by simp)))
  | case13 ds pending prev s hh t' _ i hi hf =>
    refine absurd hf (parseLink_total ?_)
    rw [show t' = s.drop 1 from List.drop_one.symm]; exact hg.tail.drop 1
  | case14 ds pending prev s hh t' _ _ _ _ _ _ _ _ =>
    rename_i ih
    exact ih hr.flush (by rw [show t' = s.drop 1 from List.drop_one.symm]; exact hg.tail.drop 1)
      (Or.inr (Or.inl (by simp)))
  | case15 ds pending prev s hh t' _ i hi dest u hl _ hp =>
    exact absurd hp (processEmphasis_total (hr.flush.sub fun x hx => List.mem_of_mem_drop hx))
  | case16 ds pending prev s hh t' _ i hi dest u hl _ cs hcs _ _ _ _ =>
    rename_i ih
    obtain ⟨w, raw, w', e1, _⟩ := parseLink_src hl
    have hgt : Good t' := by
      rw [show t' = s.drop 1 from List.drop_one.symm]; exact hg.tail.drop 1
    rw [e1] at hgt
    exact ih ((hr.flush.sub fun x hx => List.mem_of_mem_take hx).snoc (by intro _ _ _ _ e; cases e))
      hgt.suffix.tail (Or.inl (by simp))
  | case17 ds pending prev s _ _ _ _ _ ih =>
    exact ih hr.flush hg.tail (Or.inr (Or.inl (by simp)))
  | case18 ds pending prev c s _ _ _ _ _ ih =>
    exact ih hr hg.tail (Or.inr (Or.inl (by simp)))

theorem good_textOf : ∀ {ls : List (List Byte)}, (∀ l ∈ ls, l ≠ []) → Good (textOf ls)
  | [], _ => by intro a b e; simp [textOf] at e
  | l :: ls, h => by
    rw [textOf]
    split
    · intro a b e
      have : (none : Sym) ∈ l.map some ++ [] := by rw [e]; simp
      simp at this
    · rename_i hls
      have ih : Good (textOf ls) := good_textOf fun x hx => h x (List.mem_cons_of_mem _ hx)
      have hf : ∃ c t, textOf ls = some c :: t := by
        cases ls with
        | nil => exact absurd rfl hls
        | cons l' ls =>
          have := h l' (by simp)
          cases l' with
          | nil => exact absurd rfl this
          | cons c l' => rw [textOf]; exact ⟨c, _, rfl⟩
      intro a b e
      rcases List.append_eq_append_iff.mp e with ⟨m, e1, e2⟩ | ⟨m, e1, e2⟩
      · cases m with
        | nil => simp at e2; rw [← e2]; exact hf
        | cons x m =>
          simp only [List.cons_append, List.cons.injEq] at e2
          exact ih m b e2.2
      · cases m with
        | nil => simp at e2; rw [e2]; exact hf
        | cons x m =>
          have : x ∈ l.map some := by rw [e1]; simp
          simp only [List.cons_append, List.cons.injEq] at e2
          rw [← e2.1] at this
          simp at this

/-- When the inline parser fails. -/
theorem expandInline_none {ls : List (List Byte)} (hne : ls ≠ []) (h : ∀ l ∈ ls, l ≠ []) :
    expandInlineElements ls = none ↔ LinkEnd (textOf ls) := by
  have hg := good_textOf h
  have h0 : expandInlineElements ls = (match expandLoop [] [] none (textOf ls) with
      | none => none
      | some ds => processEmphasis ds) := by
    rw [← symsOf_eq]
    cases ls with
    | nil => exact absurd rfl hne
    | cons l ls =>
      cases l with
      | nil => exact absurd rfl (h [] (by simp))
      | cons c l => rfl
  rw [h0]
  constructor
  · intro e
    apply Classical.byContradiction
    intro hl
    have hr0 : Runs [] := by intro _ _ _ _ hm; cases hm
    obtain ⟨h1, h2⟩ := expandLoop_total (prev := none) hr0 hg (Or.inr (Or.inr hl))
    cases hx : expandLoop [] [] none (textOf ls) with
    | none => exact h1 hx
    | some ds =>
      rw [hx] at e
      exact processEmphasis_total (h2 ds hx) e
  · rintro ⟨t, e⟩
    have : expandLoop [] [] none (textOf ls) = none := by
      rw [e, expandLoop.eq_def]
      dsimp only
      rw [if_neg (by decide), if_neg (by decide), if_neg (by decide), if_neg (by decide),
        if_pos rfl, if_pos (show (some 40 :: t).head? = some (some (40 : Byte)) from rfl)]
      rfl
    rw [this]

end Verif.Markdown
