import Verif.Title.Spec
/-!
# Titles of members — lemmas
-/
namespace Verif.Title
open Verif

theorem identLoop_suffix (a b : Bool) : ∀ (s : List Byte) (first : Bool), (Esc.identLoop a b first s).1 <:+ s := by
  intro s
  induction s with
  | nil => intro first; exact List.suffix_refl _
  | cons c s ih =>
    intro first
    unfold Esc.identLoop
    split
    · exact (ih false).trans (List.suffix_cons _ _)
    · exact List.suffix_refl _

theorem after_suffix (s : List Byte) : afterName s <:+ s := identLoop_suffix _ _ _ _

theorem name_append (s : List Byte) : spanName s ++ afterName s = s := by
  obtain ⟨p, hp⟩ := after_suffix s
  unfold spanName
  generalize afterName s = r at *
  subst hp
  simp

theorem after_name {k : Kind} (hk : k ≠ .normal) (r : List Byte) :
    afterName (k.name ++ [32] ++ r) = 32 :: r ∧ spanName (k.name ++ [32] ++ r) = k.name := by
  have h : afterName (k.name ++ [32] ++ r) = 32 :: r := by
    cases k with
    | normal => exact absurd rfl hk
    | strong => rfl
    | em => rfl
    | qid => rfl
  refine ⟨h, ?_⟩
  have := name_append (k.name ++ [32] ++ r)
  rw [h] at this
  have h2 : spanName (k.name ++ [32] ++ r) ++ 32 :: r = k.name ++ 32 :: r := by
    rw [this]; simp
  exact List.append_cancel_right h2

theorem afterSpace_length (s : List Byte) : (afterSpace s).1.length ≤ s.length := by
  have := (after_suffix s).length_le
  unfold afterSpace
  split
  · rename_i c rest he
    rw [he] at this
    simp only [List.length_cons] at this
    split
    · dsimp only; omega
    · simpa using this
  · exact Nat.zero_le _

theorem loop_fuel : ∀ (n m : Nat) (s : List Byte) (k : Kind) (t : List Byte), s.length ≤ n → s.length ≤ m →
    titleLoop n k t s = titleLoop m k t s := by
  intro n
  induction n with
  | zero =>
    intro m s k t h1 h2
    cases s with
    | nil => cases m <;> rfl
    | cons c s => simp at h1
  | succ n ih =>
    intro m s k t h1 h2
    cases s with
    | nil => cases m <;> rfl
    | cons c s =>
      cases m with
      | zero => simp at h2
      | succ m =>
        simp only [List.length_cons] at h1 h2
        unfold titleLoop
        have hsp := afterSpace_length s
        dsimp only
        split
        · split
          · exact ih m _ _ _ (by simp) (by simp)
          · rename_i d ds
            simp only [List.length_cons] at h1 h2
            exact ih m _ _ _ (by omega) (by omega)
        split
        · rw [ih m _ _ _ (by omega) (by omega)]
        split
        · split
          · rw [ih m _ _ _ (by omega) (by omega)]
          · rw [ih m _ _ _ (by omega) (by omega)]
        · exact ih m _ _ _ (by omega) (by omega)

/-- Helper: the loop with as many rounds as it needs. -/
def title (k : Kind) (t s : List Byte) : List Span × List Err := titleLoop s.length k t s

theorem title_nil (k : Kind) (t : List Byte) :
    title k t [] = (flush k t, if k ≠ .normal then [.unclosedSpan] else []) := rfl

theorem title_backslash (k : Kind) (t : List Byte) : title k t [92] = title k t [] := rfl

theorem title_escaped (k : Kind) (t : List Byte) (d : Byte) (s : List Byte) :
    title k t (92 :: d :: s) = title k (t ++ [d]) s := by
  show titleLoop (s.length + 1 + 1) k t (92 :: d :: s) = _
  unfold titleLoop
  rw [if_pos rfl]
  exact loop_fuel _ _ _ _ _ (by omega) (Nat.le_refl _)

theorem title_plain (k : Kind) (t : List Byte) {c : Byte} (h1 : c ≠ 92) (h2 : c ≠ 91) (h3 : c ≠ 93) (s : List Byte) :
    title k t (c :: s) = title k (t ++ [c]) s := by
  show titleLoop (s.length + 1) k t (c :: s) = _
  unfold titleLoop
  rw [if_neg h1, if_neg h2, if_neg h3]
  rfl

theorem title_close (k : Kind) (t s : List Byte) : title k t (93 :: s) =
    if k = .normal then ((title k t s).1, .unexpectedClose :: (title k t s).2)
    else (flush k t ++ (title .normal [] s).1, (title .normal [] s).2) := by
  show titleLoop (s.length + 1) k t (93 :: s) = _
  conv => lhs; unfold titleLoop
  rw [if_neg (by decide), if_neg (by decide), if_pos rfl]
  rfl

theorem title_open (k : Kind) (t s : List Byte) : title k t (91 :: s) =
    (flush k t ++ (title (spanKind k (spanName s)).1 [] (afterSpace s).1).1,
      (if k ≠ .normal then [.unclosedSpan] else []) ++ (spanKind k (spanName s)).2 ++ (afterSpace s).2 ++
        (title (spanKind k (spanName s)).1 [] (afterSpace s).1).2) := by
  show titleLoop (s.length + 1) k t (91 :: s) = _
  conv => lhs; unfold titleLoop
  rw [if_neg (by decide), if_pos rfl]
  dsimp only
  have h := loop_fuel s.length (afterSpace s).1.length (afterSpace s).1 (spanKind k (spanName s)).1 []
    (afterSpace_length s) (Nat.le_refl _)
  unfold title
  rw [← h]

theorem flush_one (k : Kind) (t : List Byte) : flush k t = one k t := by
  unfold flush one
  cases t with
  | nil => rfl
  | cons c t => simp

theorem title_body {b t : List Byte} (h : Body b t) : ∀ (k : Kind) (acc r : List Byte),
    title k acc (b ++ r) = title k (acc ++ t) r := by
  induction h with
  | nil => intro k acc r; rw [List.append_nil]; rfl
  | plain c h1 h2 h3 _ ih =>
    intro k acc r
    rw [List.cons_append, title_plain k acc h1 h2 h3, ih, List.append_assoc]
    rfl
  | escaped c _ ih =>
    intro k acc r
    rw [List.cons_append, List.cons_append, title_escaped, ih, List.append_assoc]
    rfl

theorem kind_name {k : Kind} (hk : k ≠ .normal) (old : Kind) : spanKind old k.name = (k, []) := by
  cases k with
  | normal => exact absurd rfl hk
  | strong => rfl
  | em => rfl
  | qid => rfl

theorem title_complete {s : List Byte} {spans : List Span} (h : IsTitle s spans) : title .normal [] s = (spans, []) := by
  induction h with
  | last hb =>
    have := title_body hb .normal [] []
    rw [List.append_nil] at this
    rw [this, title_nil, flush_one]
    rfl
  | lastBackslash hb => rw [title_body hb, title_backslash, title_nil, flush_one]; rfl
  | @more s t s' t' rest spans k hk hb hb' _ ih =>
    have e : s ++ ([91] ++ k.name ++ [32] ++ s' ++ [93]) ++ rest = s ++ (91 :: (k.name ++ [32] ++ (s' ++ 93 :: rest))) := by
      simp
    have ha : afterSpace (k.name ++ [32] ++ (s' ++ 93 :: rest)) = (s' ++ 93 :: rest, []) := by
      unfold afterSpace
      rw [(after_name hk _).1]
      exact if_pos rfl
    rw [e, title_body hb, title_open, (after_name hk _).2, kind_name hk, ha]
    dsimp only
    rw [title_body hb', title_close, if_neg hk, ih, List.nil_append, List.nil_append, flush_one, flush_one]
    simp

/-- Which kind has this name. -/
theorem kind_of_name {old : Kind} {name : List Byte} (h : (spanKind old name).2 = []) :
    (spanKind old name).1 ≠ .normal ∧ name = (spanKind old name).1.name := by
  unfold spanKind at h ⊢
  split at h
  · cases h
  rename_i h0
  rw [if_neg h0]
  split at h
  · rename_i h1
    rw [if_pos h1]
    exact ⟨by simp, h1⟩
  rename_i h1
  rw [if_neg h1]
  split at h
  · rename_i h2
    rw [if_pos h2]
    exact ⟨by simp, h2⟩
  rename_i h2
  rw [if_neg h2]
  split at h
  · rename_i h3
    rw [if_pos h3]
    exact ⟨by simp, h3⟩
  · cases h

theorem space_of {s : List Byte} (h : (afterSpace s).2 = []) : s = spanName s ++ [32] ++ (afterSpace s).1 := by
  have := name_append s
  unfold afterSpace at h ⊢
  split at h
  · rename_i c rest he
    rw [he] at this
    split at h
    · rename_i hc
      subst hc
      simp only [if_true]
      rw [List.append_assoc]
      exact this.symm
    · cases h
  · cases h

/-- A normal piece ends at the end of the title or at a bracket. -/
theorem title_normal : ∀ (n : Nat) (s acc : List Byte) (spans : List Span), s.length ≤ n →
    title .normal acc s = (spans, []) → ∃ b t, Body b t ∧
      (((s = b ∨ s = b ++ [92]) ∧ spans = one .normal (acc ++ t)) ∨
       ∃ k r spans', k ≠ .normal ∧ s = b ++ ([91] ++ k.name ++ [32] ++ r) ∧ spans = one .normal (acc ++ t) ++ spans' ∧
         title k [] r = (spans', [])) := by
  intro n
  induction n with
  | zero =>
    intro s acc spans hn h
    cases s with
    | nil =>
      rw [title_nil, flush_one] at h
      cases h
      exact ⟨[], [], .nil, Or.inl ⟨Or.inl rfl, by rw [List.append_nil]⟩⟩
    | cons c s => simp at hn
  | succ n ih =>
    intro s acc spans hn h
    cases s with
    | nil =>
      rw [title_nil, flush_one] at h
      cases h
      exact ⟨[], [], .nil, Or.inl ⟨Or.inl rfl, by rw [List.append_nil]⟩⟩
    | cons c s =>
      simp only [List.length_cons] at hn
      by_cases h1 : c = 92
      · subst h1
        cases s with
        | nil =>
          rw [title_backslash, title_nil, flush_one] at h
          cases h
          exact ⟨[], [], .nil, Or.inl ⟨Or.inr rfl, by rw [List.append_nil]⟩⟩
        | cons d s =>
          rw [title_escaped] at h
          simp only [List.length_cons] at hn
          obtain ⟨b, t, hb, hc⟩ := ih s _ _ (by omega) h
          refine ⟨92 :: d :: b, d :: t, .escaped d hb, ?_⟩
          rcases hc with ⟨hs, hsp⟩ | ⟨k, r, spans', hk, hs, hsp, hr⟩
          · refine Or.inl ⟨?_, by rw [hsp, List.append_assoc]; rfl⟩
            rcases hs with hs | hs
            · exact Or.inl (by rw [hs])
            · exact Or.inr (by rw [hs]; rfl)
          · exact Or.inr ⟨k, r, spans', hk, by rw [hs]; rfl, by rw [hsp, List.append_assoc]; rfl, hr⟩
      by_cases h2 : c = 91
      · subst h2
        rw [title_open] at h
        simp only [Prod.mk.injEq, List.append_eq_nil_iff] at h
        obtain ⟨hs, ⟨⟨_, hk⟩, ha⟩, hr⟩ := h
        obtain ⟨k1, k2⟩ := kind_of_name hk
        refine ⟨[], [], .nil, Or.inr ⟨_, (afterSpace s).1, _, k1, ?_, ?_, Prod.ext rfl hr⟩⟩
        · have := space_of ha
          rw [← k2]
          simp only [List.nil_append, List.cons_append]
          congr 1
        · rw [← hs, flush_one, List.append_nil]
      by_cases h3 : c = 93
      · subst h3
        rw [title_close, if_pos rfl] at h
        simp at h
      · rw [title_plain _ _ h1 h2 h3] at h
        obtain ⟨b, t, hb, hc⟩ := ih s _ _ (by omega) h
        refine ⟨c :: b, c :: t, .plain c h1 h2 h3 hb, ?_⟩
        rcases hc with ⟨hs, hsp⟩ | ⟨k, r, spans', hk, hs, hsp, hr⟩
        · refine Or.inl ⟨?_, by rw [hsp, List.append_assoc]; rfl⟩
          rcases hs with hs | hs
          · exact Or.inl (by rw [hs])
          · exact Or.inr (by rw [hs]; rfl)
        · exact Or.inr ⟨k, r, spans', hk, by rw [hs]; rfl, by rw [hsp, List.append_assoc]; rfl, hr⟩

/-- Inside of a span the closing bracket comes. -/
theorem title_inside {k : Kind} (hk : k ≠ .normal) : ∀ (n : Nat) (s acc : List Byte) (spans : List Span), s.length ≤ n →
    title k acc s = (spans, []) → ∃ b t r spans', Body b t ∧ s = b ++ 93 :: r ∧ spans = one k (acc ++ t) ++ spans' ∧
      title .normal [] r = (spans', []) := by
  have hnil : ∀ acc spans, title k acc [] ≠ (spans, []) := by
    intro acc spans h
    rw [title_nil, if_pos hk] at h
    simp at h
  intro n
  induction n with
  | zero =>
    intro s acc spans hn h
    cases s with
    | nil => exact absurd h (hnil _ _)
    | cons c s => simp at hn
  | succ n ih =>
    intro s acc spans hn h
    cases s with
    | nil => exact absurd h (hnil _ _)
    | cons c s =>
      simp only [List.length_cons] at hn
      by_cases h1 : c = 92
      · subst h1
        cases s with
        | nil => rw [title_backslash] at h; exact absurd h (hnil _ _)
        | cons d s =>
          rw [title_escaped] at h
          simp only [List.length_cons] at hn
          obtain ⟨b, t, r, spans', hb, hs, hsp, hr⟩ := ih s _ _ (by omega) h
          exact ⟨92 :: d :: b, d :: t, r, spans', .escaped d hb, by rw [hs]; rfl, by rw [hsp, List.append_assoc]; rfl, hr⟩
      by_cases h2 : c = 91
      · subst h2
        rw [title_open, if_pos hk] at h
        simp at h
      by_cases h3 : c = 93
      · subst h3
        rw [title_close, if_neg hk] at h
        simp only [Prod.mk.injEq] at h
        exact ⟨[], [], s, _, .nil, rfl, by rw [← h.1, flush_one, List.append_nil], Prod.ext rfl h.2⟩
      · rw [title_plain _ _ h1 h2 h3] at h
        obtain ⟨b, t, r, spans', hb, hs, hsp, hr⟩ := ih s _ _ (by omega) h
        exact ⟨c :: b, c :: t, r, spans', .plain c h1 h2 h3 hb, by rw [hs]; rfl, by rw [hsp, List.append_assoc]; rfl, hr⟩

theorem title_sound : ∀ (n : Nat) (s : List Byte) (spans : List Span), s.length ≤ n → title .normal [] s = (spans, []) →
    IsTitle s spans := by
  intro n
  induction n with
  | zero =>
    intro s spans hn h
    cases s with
    | nil => rw [title_nil] at h; cases h; exact .last .nil
    | cons c s => simp at hn
  | succ n ih =>
    intro s spans hn h
    obtain ⟨b, t, hb, hc⟩ := title_normal _ s [] spans (Nat.le_refl _) h
    rw [List.nil_append] at hc
    rcases hc with ⟨hs | hs, rfl⟩ | ⟨k, r, spans', hk, rfl, rfl, hr⟩
    · subst hs; exact .last hb
    · subst hs; exact .lastBackslash hb
    · obtain ⟨b', t', r', spans'', hb', rfl, rfl, hr'⟩ := title_inside hk _ r [] spans' (Nat.le_refl _) hr
      have hl := ih r' spans'' (by simp at hn; omega) hr'
      have := IsTitle.more k hk hb hb' hl
      simpa using this

theorem body_protect (t : List Byte) : Body (protect t) t := by
  induction t with
  | nil => exact .nil
  | cons c t ih =>
    unfold protect
    rw [List.flatMap_cons]
    split
    · exact .escaped c ih
    · rename_i hc
      exact .plain c (fun h => hc (Or.inl h)) (fun h => hc (Or.inr (Or.inl h))) (fun h => hc (Or.inr (Or.inr h))) ih

theorem one_of {k : Kind} {t : List Byte} (h : t ≠ []) : one k t = [⟨k, t⟩] := by
  unfold one
  cases t with
  | nil => exact absurd rfl h
  | cons c t => rfl

theorem written_title : ∀ (n : Nat) (spans : List Span), spans.length ≤ n → Proper spans →
    IsTitle (spans.flatMap written) spans := by
  intro n
  induction n with
  | zero =>
    intro spans hn _
    cases spans with
    | nil => exact .last .nil
    | cons s spans => simp at hn
  | succ n ih =>
    intro spans hn hp
    cases spans with
    | nil => exact .last .nil
    | cons s rest =>
      simp only [List.length_cons] at hn
      obtain ⟨h1, h2, h3⟩ := hp
      obtain ⟨k, t⟩ := s
      by_cases hk : k = .normal
      · subst hk
        cases rest with
        | nil =>
          have := IsTitle.last (body_protect t)
          rw [one_of h1] at this
          simpa [written] using this
        | cons s' rest =>
          have hk' : s'.kind ≠ .normal := h2 rfl s' rfl
          obtain ⟨k', t'⟩ := s'
          obtain ⟨h4, _, h6⟩ := h3
          simp only [List.length_cons] at hn
          have := IsTitle.more k' hk' (body_protect t) (body_protect t') (ih rest (by omega) h6)
          rw [one_of h1, one_of h4] at this
          simp only [List.flatMap_cons]
          have e1 : written ⟨.normal, t⟩ = protect t := rfl
          have e2 : written ⟨k', t'⟩ = [91] ++ k'.name ++ [32] ++ protect t' ++ [93] := if_neg hk'
          rw [e1, e2, ← List.append_assoc]
          exact this
      · have := IsTitle.more k hk .nil (body_protect t) (ih rest (by omega) h3)
        rw [one_of h1] at this
        rw [List.flatMap_cons]
        have e2 : written ⟨k, t⟩ = [91] ++ k.name ++ [32] ++ protect t ++ [93] := if_neg hk
        rw [e2]
        exact this

theorem identLoop_letters : ∀ (name : List Byte) (first : Bool) (r : List Byte),
    (∀ c ∈ name, 97 ≤ c.toNat ∧ c.toNat ≤ 122) →
    (Esc.identLoop false false first (name ++ 32 :: r)).1 = 32 :: r := by
  intro name
  induction name with
  | nil => intro first r _; cases first <;> rfl
  | cons c name ih =>
    intro first r h
    have hc := h c (List.mem_cons_self ..)
    have : Esc.identByte false false first c = true := by
      simp [Esc.identByte, Str.isAsciiLetter, hc]
    rw [List.cons_append]
    unfold Esc.identLoop
    rw [if_pos this]
    exact ih false r fun x hx => h x (List.mem_cons_of_mem _ hx)

theorem after_sublist (s : List Byte) : (afterSpace s).1.Sublist s := by
  have := (after_suffix s).sublist
  unfold afterSpace
  split
  · rename_i c rest he
    rw [he] at this
    split
    · exact (List.sublist_cons_self _ _).trans this
    · exact this
  · exact List.nil_sublist _

theorem flush_text (k : Kind) (t : List Byte) : (flush k t).flatMap Span.text = t := by
  unfold flush
  split
  · rename_i h; rw [h]; rfl
  · simp

theorem flush_nonempty (k : Kind) (t : List Byte) : ∀ x ∈ flush k t, x.text ≠ [] := by
  unfold flush
  split
  · intro x hx; cases hx
  · rename_i h
    intro x hx
    rw [List.mem_singleton] at hx
    subst hx
    exact h

theorem title_text : ∀ (n : Nat) (s acc : List Byte) (k : Kind), s.length ≤ n →
    ((title k acc s).1.flatMap Span.text).Sublist (acc ++ s) ∧ ∀ x ∈ (title k acc s).1, x.text ≠ [] := by
  intro n
  induction n with
  | zero =>
    intro s acc k hn
    cases s with
    | nil => rw [title_nil, flush_text, List.append_nil]; exact ⟨List.Sublist.refl _, flush_nonempty _ _⟩
    | cons c s => simp at hn
  | succ n ih =>
    intro s acc k hn
    cases s with
    | nil => rw [title_nil, flush_text, List.append_nil]; exact ⟨List.Sublist.refl _, flush_nonempty _ _⟩
    | cons c s =>
      simp only [List.length_cons] at hn
      have hfl : ∀ k' s', s'.length ≤ n → s'.Sublist (c :: s) →
          ((flush k acc ++ (title k' [] s').1).flatMap Span.text).Sublist (acc ++ c :: s) ∧
            ∀ x ∈ flush k acc ++ (title k' [] s').1, x.text ≠ [] := by
        intro k' s' hl hs
        obtain ⟨i1, i2⟩ := ih s' [] k' hl
        refine ⟨?_, ?_⟩
        · rw [List.flatMap_append, flush_text]
          exact (List.Sublist.refl _).append (i1.trans hs)
        · intro x hx
          rcases List.mem_append.1 hx with hx | hx
          · exact flush_nonempty _ _ x hx
          · exact i2 x hx
      by_cases h1 : c = 92
      · subst h1
        cases s with
        | nil =>
          rw [title_backslash, title_nil, flush_text]
          exact ⟨List.sublist_append_left _ _, flush_nonempty _ _⟩
        | cons d s =>
          rw [title_escaped]
          simp only [List.length_cons] at hn
          obtain ⟨i1, i2⟩ := ih s (acc ++ [d]) k (by omega)
          refine ⟨i1.trans ?_, i2⟩
          rw [List.append_assoc]
          exact (List.Sublist.refl _).append (List.sublist_cons_self _ _)
      by_cases h2 : c = 91
      · subst h2
        rw [title_open]
        exact hfl _ _ (Nat.le_trans (afterSpace_length s) (by omega))
          ((after_sublist s).trans (List.sublist_cons_self _ _))
      by_cases h3 : c = 93
      · subst h3
        rw [title_close]
        split
        · obtain ⟨i1, i2⟩ := ih s acc k (by omega)
          exact ⟨i1.trans ((List.Sublist.refl _).append (List.sublist_cons_self _ _)), i2⟩
        · exact hfl _ _ (by omega) (List.sublist_cons_self _ _)
      · rw [title_plain _ _ h1 h2 h3]
        have := ih s (acc ++ [c]) k (by omega)
        rw [List.append_assoc] at this
        exact this

theorem reads_append {o o' : List Byte} {i i' : List Item} (h : Reads o i) (h' : Reads o' i') :
    Reads (o ++ o') (i ++ i') := by
  induction h with
  | nil => exact h'
  | text hr _ ih => rw [List.append_assoc]; exact .text hr ih
  | tag hn _ ih => rw [List.append_assoc]; exact .tag hn ih
  | link hr _ ih => rw [List.append_assoc]; exact .link hr ih

theorem reads_text {o t : List Byte} (h : Esc.Resolves o t) : Reads o [.text t] := by
  have := Reads.text h .nil
  rwa [List.append_nil] at this

theorem reads_tag (n : List Byte) (h : ∀ c ∈ n, c ≠ 60 ∧ c ≠ 62) : Reads ([60] ++ n ++ [62]) [.tag n] := by
  have := Reads.tag h .nil
  rwa [List.append_nil] at this

theorem writeSpan_reads (link : List Byte → List Byte) (s : Span) (h : Esc.NoOverlongAscii s.text)
    (hl : Esc.NoOverlongAscii (link s.text)) :
    ∃ out, writeSpan link s = some out ∧ Reads out (s.items link) := by
  obtain ⟨o, h1, h2⟩ := Esc.C11_roundtrip_partial s.text h
  obtain ⟨l, l1, l2⟩ := Esc.C11_roundtrip_partial (link s.text) hl
  unfold writeSpan Span.items
  rw [h1]
  dsimp only
  cases s.kind with
  | normal => exact ⟨o, rfl, reads_text h2⟩
  | strong =>
    exact ⟨_, rfl, reads_append (i := [_, _])
      (reads_append (reads_tag [115, 116, 114, 111, 110, 103] (by decide)) (reads_text h2))
      (reads_tag [47, 115, 116, 114, 111, 110, 103] (by decide))⟩
  | em =>
    exact ⟨_, rfl, reads_append (i := [_, _])
      (reads_append (reads_tag [101, 109] (by decide)) (reads_text h2)) (reads_tag [47, 101, 109] (by decide))⟩
  | qid =>
    dsimp only
    split
    · exact ⟨o, rfl, reads_text h2⟩
    · rw [l1]
      refine ⟨_, rfl, ?_⟩
      have hh := Reads.link l2 .nil
      rw [List.append_nil] at hh
      exact reads_append (i := [_, _]) (reads_append hh (reads_text h2)) (reads_tag [47, 97] (by decide))

end Verif.Title
