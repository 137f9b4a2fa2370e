import Verif.Markdown.SpecInline

/-! # Lemmas about the inline pass -/

namespace Verif.Markdown

open Verif Spec

theorem Spec.Src.append {a b : List Inline} {s t : List Sym} (h : Src a s) (k : Src b t) :
    Src (a ++ b) (s ++ t) := by
  induction h with
  | nil => exact k
  | text _ ih => rw [List.append_assoc]; exact .text ih
  | soft _ ih => exact .soft ih
  | emph hd hb h1 _ _ ih => have := Src.emph hd hb h1 ih; simpa using this
  | strong hd hb h1 _ _ ih => have := Src.strong hd hb h1 ih; simpa using this
  | code hk hc _ ih => have := Src.code hk hc ih; simpa using this
  | link h1 h2 h3 h4 _ _ ih => have := Src.link h1 h2 h3 h4 ih; simpa using this

theorem Spec.Src.cons_iff {e : Inline} {es : List Inline} {s : List Sym} (h : Src (e :: es) s) :
    ∃ s1 s2, s = s1 ++ s2 ∧ Src [e] s1 ∧ Src es s2 := by
  cases h with
  | text h => exact ⟨_, _, rfl, by simpa using Src.text .nil, h⟩
  | soft h => exact ⟨[none], _, rfl, .soft .nil, h⟩
  | emph hd hb h1 h => exact ⟨_, _, by simp, Src.emph hd hb h1 .nil, h⟩
  | strong hd hb h1 h => exact ⟨_, _, by simp, Src.strong hd hb h1 .nil, h⟩
  | code hk hc h => exact ⟨_, _, rfl, by simpa using Src.code hk hc .nil, h⟩
  | link h1 h2 h3 h4 h => exact ⟨_, _, by simp, Src.link h1 h2 h3 h4 .nil, h⟩

theorem Spec.Src.split : ∀ {a b : List Inline} {s : List Sym}, Src (a ++ b) s →
    ∃ s1 s2, s = s1 ++ s2 ∧ Src a s1 ∧ Src b s2
  | [], b, s, h => ⟨[], s, rfl, .nil, h⟩
  | e :: a, b, s, h => by
    obtain ⟨s1, s2, rfl, h1, h2⟩ := Spec.Src.cons_iff h
    obtain ⟨s3, s4, rfl, h3, h4⟩ := Spec.Src.split h2
    exact ⟨s1 ++ s3, s4, by simp, h1.append h3, h4⟩

/-- The character of a run. -/
def runChar (star : Bool) : Byte := if star then 42 else 95

/-- The text begins with a character that is not white. -/
def HeadOk (s : List Sym) : Prop := ∃ c t, s = some c :: t ∧ Str.isWhite c = false

/-- The text ends with a character that is not white. -/
def LastOk (s : List Sym) : Prop := ∃ c t, s = t ++ [some c] ∧ Str.isWhite c = false

/-- `SrcD post pre ds s`: the delimiters `ds` stand for the text `s`, which comes after `pre` and
before `post`; runs that may open emphasis are not followed by white space, and those that may close
it are not preceded by it. -/
inductive SrcD (post : List Sym) : List Sym → List Delim → List Sym → Prop where
  | nil {pre} : SrcD post pre [] []
  | raw {pre t ds s} : SrcD post (pre ++ t.map some) ds s →
      SrcD post pre (.raw t :: ds) (t.map some ++ s)
  | run {pre star l r n ds s} : 0 < n → (l = true → HeadOk (s ++ post)) → (r = true → LastOk pre) →
      SrcD post (pre ++ List.replicate n (some (runChar star))) ds s →
      SrcD post pre (.run star l r (List.replicate n (runChar star)) :: ds)
        (List.replicate n (some (runChar star)) ++ s)
  | openLink {pre ds s} : SrcD post (pre ++ [some 91]) ds s →
      SrcD post pre (.openLink [91] :: ds) (some 91 :: s)
  | elem {pre e b ds s} : Src [e] b → SrcD post (pre ++ b) ds s →
      SrcD post pre (.elem e :: ds) (b ++ s)

theorem SrcD.append {a b : List Delim} {post pre s t : List Sym} (h : SrcD (t ++ post) pre a s)
    (k : SrcD post (pre ++ s) b t) : SrcD post pre (a ++ b) (s ++ t) := by
  induction h with
  | nil => simpa using k
  | raw _ ih => rw [List.append_assoc]; exact .raw (ih (by simpa using k))
  | run hn hl hr _ ih =>
    rw [List.append_assoc]
    exact .run hn (by simpa using hl) hr (ih (by simpa using k))
  | openLink _ ih => exact .openLink (ih (by simpa using k))
  | elem he _ ih => rw [List.append_assoc]; exact .elem he (ih (by simpa using k))

theorem SrcD.split : ∀ {a b : List Delim} {post pre s : List Sym}, SrcD post pre (a ++ b) s →
    ∃ s1 s2, s = s1 ++ s2 ∧ SrcD (s2 ++ post) pre a s1 ∧ SrcD post (pre ++ s1) b s2
  | [], b, post, pre, s, h => ⟨[], s, rfl, .nil, by simpa using h⟩
  | d :: a, b, post, pre, s, h => by
    cases h with
    | raw h =>
      obtain ⟨s3, s4, rfl, h3, h4⟩ := SrcD.split h
      exact ⟨_, s4, by simp, .raw h3, by simpa using h4⟩
    | run hn hl hr h =>
      obtain ⟨s3, s4, rfl, h3, h4⟩ := SrcD.split h
      exact ⟨_, s4, by simp, .run hn (by simpa using hl) hr h3, by simpa using h4⟩
    | openLink h =>
      obtain ⟨s3, s4, rfl, h3, h4⟩ := SrcD.split h
      exact ⟨_, s4, by simp, .openLink h3, by simpa using h4⟩
    | elem he h =>
      obtain ⟨s3, s4, rfl, h3, h4⟩ := SrcD.split h
      exact ⟨_, s4, by simp, .elem he h3, by simpa using h4⟩

theorem convertLoop_src : ∀ {ds : List Delim} {acc : List Inline} {post pre s0 s : List Sym},
    Src acc.reverse s0 → SrcD post pre ds s → Src (convertLoop acc ds) (s0 ++ s)
  | [], acc, post, pre, s0, s, h0, h => by
    cases h; rw [convertLoop]; simpa using h0
  | .elem e :: ds, acc, post, pre, s0, s, h0, h => by
    cases h with
    | elem he h =>
      rename_i b s
      rw [convertLoop, ← List.append_assoc]
      exact convertLoop_src (by rw [List.reverse_cons]; exact h0.append he) h
  | .raw t :: ds, acc, post, pre, s0, s, h0, h => by
    cases h with
    | raw h => exact aux (.raw t) (by intro e he; cases he) h0 h rfl
  | .run star l r t :: ds, acc, post, pre, s0, s, h0, h => by
    cases h with
    | run hn hl hr h =>
      rename_i n s
      have := aux (t := List.replicate n (runChar star)) (.run star l r _)
        (by intro e he; cases he) h0 h rfl
      rw [List.map_replicate] at this
      exact this
  | .openLink t :: ds, acc, post, pre, s0, s, h0, h => by
    cases h with
    | openLink h => exact aux (t := [91]) (.openLink [91]) (by intro e he; cases he) h0 h rfl
where
  aux {ds : List Delim} {acc : List Inline} {post pre s0 s : List Sym} {t : List Byte} (d : Delim)
      (hne : ∀ e, d ≠ .elem e) (h0 : Src acc.reverse s0) (h : SrcD post pre ds s) (ht : d.text = t) :
      Src (convertLoop acc (d :: ds)) (s0 ++ (t.map some ++ s)) := by
    have hcase : (∃ u acc', acc = .text u :: acc' ∧
        convertLoop acc (d :: ds) = convertLoop (.text (u ++ t) :: acc') ds) ∨
        convertLoop acc (d :: ds) = convertLoop (.text t :: acc) ds := by
      subst ht
      cases d with
      | elem e => exact absurd rfl (hne e)
      | raw t =>
        cases acc with
        | nil => exact Or.inr (by simp [convertLoop])
        | cons e acc =>
          cases e <;> first
            | exact Or.inl ⟨_, _, rfl, by simp [convertLoop]⟩
            | exact Or.inr (by simp [convertLoop])
      | run _ _ _ t =>
        cases acc with
        | nil => exact Or.inr (by simp [convertLoop])
        | cons e acc =>
          cases e <;> first
            | exact Or.inl ⟨_, _, rfl, by simp [convertLoop]⟩
            | exact Or.inr (by simp [convertLoop])
      | openLink t =>
        cases acc with
        | nil => exact Or.inr (by simp [convertLoop])
        | cons e acc =>
          cases e <;> first
            | exact Or.inl ⟨_, _, rfl, by simp [convertLoop]⟩
            | exact Or.inr (by simp [convertLoop])
    rcases hcase with ⟨u, acc', rfl, e⟩ | e
    · rw [e, ← List.append_assoc]
      refine convertLoop_src ?_ h
      rw [List.reverse_cons] at h0 ⊢
      obtain ⟨s1, s2, rfl, h1, h2⟩ := Spec.Src.split h0
      cases h2 with
      | text h2 =>
        cases h2
        rw [List.append_nil, List.append_assoc, ← List.map_append]
        have := Src.text (t := u ++ t) .nil
        rw [List.append_nil] at this
        exact h1.append this
    · rw [e, ← List.append_assoc]
      refine convertLoop_src ?_ h
      rw [List.reverse_cons]
      exact h0.append (by simpa using Src.text .nil)

theorem convert_src {ds : List Delim} {post pre s : List Sym} (h : SrcD post pre ds s) :
    Src (convertToInlineElems ds) s := by
  have := convertLoop_src (acc := []) .nil h
  simpa [convertToInlineElems] using this

theorem runChar_or (star : Bool) : runChar star = 42 ∨ runChar star = 95 := by
  cases star <;> simp [runChar]

/-- What is left of a run. -/
theorem keep_src {post pre : List Sym} {star l r : Bool} {n k : Nat}
    (hl : l = true → HeadOk post) (hr : r = true → LastOk pre) :
    SrcD post pre (keep ((Delim.run star l r (List.replicate n (runChar star))).shorten k))
      (List.replicate (n - k) (some (runChar star))) := by
  unfold keep
  simp only [Delim.shorten, Delim.text, List.take_replicate, List.length_replicate]
  have : min (n - k) n = n - k := by omega
  rw [this]
  by_cases h : n - k = 0
  · rw [h, List.replicate_zero, if_pos rfl]; exact .nil
  · rw [if_neg (by simp [h])]
    have := SrcD.run (post := post) (star := star) (l := l) (r := r) (n := n - k) (by omega)
      (by simpa using hl) hr .nil
    simpa using this

theorem runChar_solid (star : Bool) : Str.isWhite (runChar star) = false := by cases star <;> rfl

theorem headOk_run {star : Bool} {k : Nat} {s : List Sym} (hk : 0 < k) :
    HeadOk (List.replicate k (some (runChar star)) ++ s) := by
  cases k with
  | zero => omega
  | succ k => exact ⟨_, _, rfl, runChar_solid star⟩

theorem lastOk_run {star : Bool} {k : Nat} {s : List Sym} (hk : 0 < k) :
    LastOk (s ++ List.replicate k (some (runChar star))) := by
  cases k with
  | zero => omega
  | succ k =>
    refine ⟨runChar star, s ++ List.replicate k (some (runChar star)), ?_, runChar_solid star⟩
    rw [List.replicate_succ']; simp

theorem snug_of {b s t : List Sym} (h1 : HeadOk (b ++ s)) (h2 : LastOk (t ++ b)) : Snug b := by
  constructor
  · intro x hx hw
    obtain ⟨c, u, e, hc⟩ := h1
    cases b with
    | nil => cases hx
    | cons y b =>
      simp only [List.head?_cons, Option.some.injEq] at hx
      simp only [List.cons_append, List.cons.injEq] at e
      rw [← hx, e.1] at hw
      rw [hw c rfl] at hc; cases hc
  · intro x hx hw
    obtain ⟨c, u, e, hc⟩ := h2
    rcases List.eq_nil_or_concat b with rfl | ⟨b', y, rfl⟩
    · cases hx
    · rw [List.concat_eq_append, List.getLast?_append] at hx
      simp only [List.getLast?_singleton, Option.some_or, Option.some.injEq] at hx
      rw [List.concat_eq_append, ← List.append_assoc] at e
      have := List.append_inj_right' e rfl
      simp only [List.cons.injEq, and_true] at this
      rw [← hx, this] at hw
      rw [hw c rfl] at hc; cases hc

theorem isOpener_some {star : Bool} {d : Option Delim} (h : isOpener star d = true) :
    ∃ r t, d = some (.run star true r t) := by
  unfold isOpener at h
  split at h
  · rename_i s left _ _
    simp only [Bool.and_eq_true, beq_iff_eq] at h
    obtain ⟨rfl, rfl⟩ := h
    exact ⟨_, _, rfl⟩
  · cases h

theorem findOpener_opener {ds : List Delim} {star : Bool} {lo j : Nat} :
    ∀ {p : Nat}, findOpener ds star lo p = some j → isOpener star ds[j]? = true
  | 0, h => by simp [findOpener] at h
  | p + 1, h => by
    simp only [findOpener] at h
    split at h
    · split at h
      · cases h; assumption
      · exact findOpener_opener h
    · cases h

/-- Closing a span keeps the text. -/
theorem closeSpan_src {ds ds' : List Delim} {j pos j' : Nat} {star l r' : Bool}
    {t t' : List Byte} {post pre s : List Sym} (hj : ds[j]? = some (.run star true r' t'))
    (hp : ds[pos]? = some (.run star l true t)) (h : j < pos)
    (hc : closeSpan ds j pos (.run star true r' t') (.run star l true t) = some (ds', j'))
    (hs : SrcD post pre ds s) : SrcD post pre ds' s := by
  obtain ⟨a, b, c, rfl, rfl, rfl⟩ := split_two hj hp h
  rw [closeSpan_eq] at hc
  dsimp only at hc
  split at hc
  · cases hc
  · rename_i hn
    simp only [Option.some.injEq, Prod.mk.injEq] at hc
    obtain ⟨rfl, rfl⟩ := hc
    obtain ⟨s1, s2, rfl, ha, h2⟩ := SrcD.split hs
    cases h2 with
    | run hn1 hl1 hr1 h2 =>
      rename_i n1 s2
      obtain ⟨s3, s4, rfl, hb, h4⟩ := SrcD.split h2
      cases h4 with
      | run hn2 hl2 hr2 h4 =>
        rename_i n2 s4
        simp only [Delim.text, List.length_replicate] at hn ⊢
        have hcs := convert_src hb
        generalize hk : min (min n1 n2) 2 = k
        have hk0 : 0 < k := by omega
        have e1 : List.replicate n1 (some (runChar star)) =
            List.replicate (n1 - k) (some (runChar star)) ++ List.replicate k (some (runChar star)) := by
          rw [List.replicate_append_replicate]; congr 1; omega
        have e2 : List.replicate n2 (some (runChar star)) =
            List.replicate k (some (runChar star)) ++ List.replicate (n2 - k) (some (runChar star)) := by
          rw [List.replicate_append_replicate]; congr 1; omega
        have hd := runChar_or star
        have hsnug : Snug s3 := by
          have h1 := hl1 rfl
          rw [List.append_assoc] at h1
          exact snug_of h1 (hr2 rfl)
        have he : Src [if min n1 n2 ≥ 2 then Inline.strong (convertToInlineElems b)
            else Inline.emph (convertToInlineElems b)]
            (List.replicate k (some (runChar star)) ++ s3 ++ List.replicate k (some (runChar star))) := by
          by_cases h2 : min n1 n2 ≥ 2
          · rw [if_pos h2]
            have : k = 2 := by omega
            subst this
            have := Src.strong hd hsnug hcs .nil
            simpa using this
          · rw [if_neg h2]
            have : k = 1 := by omega
            subst this
            have := Src.emph hd hsnug hcs .nil
            simpa using this
        have hc1 := keep_src (post := s4 ++ post)
          (pre := pre ++ s1 ++ List.replicate (n1 - k) (some (runChar star)) ++
            (List.replicate k (some (runChar star)) ++ s3 ++ List.replicate k (some (runChar star))))
          (star := star) (l := l) (r := true) (n := n2) (k := k) hl2
          (by
            intro _
            have := lastOk_run (star := star) (k := k) (s := pre ++ s1 ++
              List.replicate (n1 - k) (some (runChar star)) ++
              (List.replicate k (some (runChar star)) ++ s3)) hk0
            simpa only [List.append_assoc] using this)
        have hc2 : SrcD post (pre ++ s1 ++ List.replicate (n1 - k) (some (runChar star)) ++
            (List.replicate k (some (runChar star)) ++ s3 ++ List.replicate k (some (runChar star))))
            (keep ((Delim.run star l true (List.replicate n2 (runChar star))).shorten k) ++ c)
            (List.replicate (n2 - k) (some (runChar star)) ++ s4) := by
          refine hc1.append ?_
          rw [e1, e2] at h4
          simpa only [List.append_assoc] using h4
        have hc3 := SrcD.elem he hc2
        have hc4 := (keep_src (post := (List.replicate k (some (runChar star)) ++ s3 ++
            List.replicate k (some (runChar star)) ++
            (List.replicate (n2 - k) (some (runChar star)) ++ s4)) ++ post)
          (pre := pre ++ s1) (star := star) (l := true) (r := r') (n := n1) (k := k)
          (by
            intro _
            have := headOk_run (star := star) (k := k) (s := s3 ++
              (List.replicate k (some (runChar star)) ++
              (List.replicate (n2 - k) (some (runChar star)) ++ s4)) ++ post) hk0
            simpa only [List.append_assoc] using this) hr1).append hc3
        rw [e1, e2, List.append_assoc a]
        refine SrcD.append ?_ ?_
        · rw [e1, e2] at ha
          simpa only [List.append_assoc] using ha
        · simpa only [List.append_assoc] using hc4

theorem processLoop_src {ds ds' : List Delim} {pos so uo : Nat} {post pre s : List Sym}
    (h : processLoop ds pos so uo = some ds') (hs : SrcD post pre ds s) : SrcD post pre ds' s := by
  fun_induction processLoop ds pos so uo with
  | case1 => cases h; exact hs
  | case2 => cases h
  | case3 ds pos so uo star left t hp j hj star' left' right' t' hd ds1 j1 hc ih =>
    have hop := findOpener_opener hj
    rw [hd] at hop
    obtain ⟨_, _, e⟩ := isOpener_some hop
    cases e
    exact ih h (closeSpan_src hd hp (findOpener_lt hj) hc hs)
  | case4 => cases h
  | case5 _ _ _ _ _ _ _ _ _ ih => exact ih h hs
  | case6 _ _ _ _ _ _ _ ih => exact ih h hs

theorem processEmphasis_src {ds : List Delim} {es : List Inline} {post pre s : List Sym}
    (h : processEmphasis ds = some es) (hs : SrcD post pre ds s) : Src es s := by
  unfold processEmphasis at h
  obtain ⟨ds', h1, rfl⟩ := Option.map_eq_some_iff.mp h
  exact convert_src (processLoop_src h1 hs)

theorem runLen_spec (c : Byte) : ∀ t : List Sym,
    t = List.replicate (runLen c t) (some c) ++ t.drop (runLen c t) ∧
      (t.drop (runLen c t)).head? ≠ some (some c)
  | [] => by simp [runLen]
  | none :: t => by simp [runLen]
  | some d :: t => by
    by_cases h : d = c
    · subst h
      have ih := runLen_spec d t
      rw [runLen, if_pos rfl]
      simp only [List.replicate_succ, List.cons_append, List.drop_succ_cons, List.cons.injEq, true_and]
      exact ih
    · rw [runLen, if_neg h]
      simp [h]

theorem validIndex_same {s s' : List Sym} (h : validIndex s = some (.sameLine, s')) : s = s' := by
  match s, h with
  | [], h => simp [validIndex] at h
  | some c :: s, h => simpa [validIndex] using h
  | none :: some c :: s, h => simp [validIndex] at h
  | [none], h => simp [validIndex] at h
  | none :: none :: s, h => simp [validIndex] at h

theorem validIndex_next {s s' : List Sym} (h : validIndex s = some (.nextLine, s')) :
    s = none :: s' := by
  match s, h with
  | [], h => simp [validIndex] at h
  | some c :: s, h => simp [validIndex] at h
  | none :: some c :: s, h => simpa [validIndex] using h
  | [none], h => simp [validIndex] at h
  | none :: none :: s, h => simp [validIndex] at h

theorem validIndex_cases {s t : List Sym} {v : Valid} {c : Byte}
    (h : validIndex s = some (v, some c :: t)) (hv : v ≠ .atEnd) :
    (v = .sameLine ∧ s = some c :: t) ∨ (v = .nextLine ∧ s = none :: some c :: t) := by
  cases v with
  | sameLine => exact Or.inl ⟨rfl, validIndex_same h⟩
  | nextLine => exact Or.inr ⟨rfl, validIndex_next h⟩
  | atEnd => exact absurd rfl hv

theorem stripSpan_spec {r : List Byte} :
    (∃ m, r = 32 :: (m ++ [32]) ∧ (∃ c ∈ m, c ≠ 32) ∧ stripSpan r = m) ∨
      (¬ (∃ m, r = 32 :: (m ++ [32]) ∧ (∃ c ∈ m, c ≠ 32)) ∧ stripSpan r = r) := by
  by_cases h : ∃ m, r = 32 :: (m ++ [32]) ∧ (∃ c ∈ m, c ≠ 32)
  · obtain ⟨m, rfl, hm⟩ := h
    refine Or.inl ⟨m, rfl, hm, ?_⟩
    unfold stripSpan
    rw [if_pos]
    · simp
    · refine ⟨rfl, ?_, ?_⟩
      · rw [← List.cons_append, List.getLast?_append]; rfl
      · obtain ⟨c, hc, hne⟩ := hm
        rw [List.any_eq_true]
        exact ⟨c, by simp [hc], by simpa using hne⟩
  · refine Or.inr ⟨h, ?_⟩
    unfold stripSpan
    rw [if_neg]
    rintro ⟨h1, h2, h3⟩
    apply h
    rcases r with _ | ⟨a, r⟩
    · cases h1
    simp only [List.head?_cons, Option.some.injEq] at h1
    subst h1
    rcases List.eq_nil_or_concat r with rfl | ⟨m, b, rfl⟩
    · simp at h3
    · rw [List.concat_eq_append, ← List.cons_append, List.getLast?_append] at h2
      simp only [List.getLast?_singleton, Option.some_or, Option.some.injEq] at h2
      subst h2
      refine ⟨m, by rw [List.concat_eq_append], ?_⟩
      rw [List.any_eq_true] at h3
      obtain ⟨c, hc, hne⟩ := h3
      refine ⟨c, ?_, by simpa using hne⟩
      have hne' : c ≠ 32 := by simpa using hne
      simpa [hne'] using hc

/-- What a code span that was found looks like in the text. -/
theorem getCodeSpan_src {k : Nat} {acc : List Byte} {s u : List Sym} {t : List Byte}
    (h : getCodeSpan k acc s = .ok t u) :
    ∃ b, s = b ++ List.replicate k (some 96) ++ u ∧ acc ++ b.map spaced ≠ [] ∧
      t = stripSpan (acc ++ b.map spaced) ∧ 0 < k := by
  fun_induction getCodeSpan k acc s with
  | case1 => cases h
  | case2 => cases h
  | case3 => cases h
  | case4 => cases h
  | case5 => cases h
  | case6 acc0 s0 v t0 hv acc1 n t1 hn hacc hvi _ =>
    injection h with h5 h6
    subst h5 h6
    obtain ⟨pre, rfl, e⟩ := codePre acc0 hvi hv
    refine ⟨pre, ?_, ?_, ?_, by omega⟩
    · rw [← hn, List.replicate_succ, List.append_assoc, List.cons_append,
        ← (runLen_spec 96 t0).1]
    · rw [← e]; exact hacc
    · rw [← e]
  | case7 acc0 s0 v t0 hv acc1 n t1 hn hvi _ _ ih =>
    obtain ⟨pre, rfl, e⟩ := codePre acc0 hvi hv
    obtain ⟨b, e1, e2, e3, e4⟩ := ih h
    have et : List.map spaced (List.replicate n (some 96)) = List.replicate n 96 := by
      rw [List.map_replicate]; rfl
    have ee : acc0 ++ List.map spaced (pre ++ List.replicate n (some 96) ++ b) =
        acc1 ++ List.replicate n 96 ++ List.map spaced b := by
      rw [List.map_append, List.map_append, et, ← List.append_assoc, ← List.append_assoc, ← e]
    refine ⟨pre ++ List.replicate n (some 96) ++ b, ?_, by rw [ee]; exact e2, by rw [ee]; exact e3, e4⟩
    have := (runLen_spec 96 t0).1
    rw [show t0.drop (runLen 96 t0) = t1 from rfl, e1] at this
    rw [this]
    simp [n, List.replicate_succ]
  | case8 acc0 s0 v c t0 hv hvi _ acc1 hc ih =>
    obtain ⟨pre, rfl, e⟩ := codePre acc0 hvi hv
    obtain ⟨b, rfl, e2, e3, e4⟩ := ih h
    have ee : acc0 ++ List.map spaced (pre ++ some c :: b) = acc1 ++ [c] ++ List.map spaced b := by
      rw [List.map_append, ← List.append_assoc, ← e]
      simp [spaced, acc1]
    exact ⟨pre ++ some c :: b, by simp, by rw [ee]; exact e2, by rw [ee]; exact e3, e4⟩
where
  codePre (acc : List Byte) {s t : List Sym} {v : Valid} {c : Byte}
      (h : validIndex s = some (v, some c :: t)) (hv : v = .atEnd → False) :
      ∃ pre, s = pre ++ some c :: t ∧
        (if _h : v = .nextLine then acc ++ [32] else acc) = acc ++ pre.map spaced := by
    rcases validIndex_cases h hv with ⟨rfl, rfl⟩ | ⟨rfl, rfl⟩
    · exact ⟨[], rfl, by simp⟩
    · exact ⟨[none], rfl, by simp [spaced]⟩

theorem skipLeading_src {s u : List Sym} {x : Unit} (h : skipLeading s = .ok x u) :
    ∃ w, s = w ++ u ∧ ∀ x ∈ w, WhiteSym x := by
  fun_induction skipLeading s with
  | case1 => cases h
  | case2 => cases h
  | case3 => cases h
  | case4 => cases h
  | case5 s v c t hv hvi _ hw ih =>
    obtain ⟨w, rfl, h1⟩ := ih h
    have hc : WhiteSym (some c) := by intro d hd; cases hd; exact hw
    have hn : WhiteSym none := by intro d hd; cases hd
    rcases validIndex_cases hvi hv with ⟨_, rfl⟩ | ⟨_, rfl⟩
    · refine ⟨some c :: w, rfl, ?_⟩
      intro x hx; rcases List.mem_cons.mp hx with rfl | hx
      · exact hc
      · exact h1 x hx
    · refine ⟨none :: some c :: w, rfl, ?_⟩
      intro x hx; rcases List.mem_cons.mp hx with rfl | hx
      · exact hn
      · rcases List.mem_cons.mp hx with rfl | hx
        · exact hc
        · exact h1 x hx
  | case6 s v c t hv hvi _ hw =>
    cases h
    have hn : WhiteSym none := by intro d hd; cases hd
    rcases validIndex_cases hvi hv with ⟨_, rfl⟩ | ⟨_, rfl⟩
    · exact ⟨[], rfl, by simp⟩
    · exact ⟨[none], rfl, by intro x hx; rw [List.mem_singleton.mp hx]; exact hn⟩

theorem skipTrailing_src {s u : List Sym} {x : Unit} (h : skipTrailing s = .ok x u) :
    ∃ w, s = w ++ some 41 :: u ∧ ∀ x ∈ w, WhiteSym x := by
  have hn : WhiteSym none := by intro d hd; cases hd
  fun_induction skipTrailing s with
  | case1 => cases h
  | case2 => cases h
  | case3 => cases h
  | case4 => cases h
  | case5 s v t hv hvi _ =>
    cases h
    rcases validIndex_cases hvi hv with ⟨_, rfl⟩ | ⟨_, rfl⟩
    · exact ⟨[], rfl, by simp⟩
    · exact ⟨[none], rfl, by intro x hx; rw [List.mem_singleton.mp hx]; exact hn⟩
  | case6 s v c t hv hvi _ _ hw ih =>
    obtain ⟨w, rfl, h1⟩ := ih h
    have hc : WhiteSym (some c) := by intro d hd; cases hd; exact hw
    rcases validIndex_cases hvi hv with ⟨_, rfl⟩ | ⟨_, rfl⟩
    · refine ⟨some c :: w, rfl, ?_⟩
      intro x hx; rcases List.mem_cons.mp hx with rfl | hx
      · exact hc
      · exact h1 x hx
    · refine ⟨none :: some c :: w, rfl, ?_⟩
      intro x hx; rcases List.mem_cons.mp hx with rfl | hx
      · exact hn
      · rcases List.mem_cons.mp hx with rfl | hx
        · exact hc
        · exact h1 x hx
  | case7 => cases h

theorem nesting_append : ∀ (a b : List Byte) (n m : Nat), nesting n a = some m →
    nesting n (a ++ b) = nesting m b
  | [], b, n, m, h => by cases h; rfl
  | c :: a, b, n, m, h => by
    rw [List.cons_append, nesting]
    rw [nesting] at h
    split
    · rename_i hc
      rw [if_pos hc] at h
      exact nesting_append a b _ m h
    · rename_i hc
      rw [if_neg hc] at h
      split
      · rename_i hc'
        rw [if_pos hc'] at h
        split
        · rename_i h0; rw [if_pos h0] at h; cases h
        · rename_i h0; rw [if_neg h0] at h; exact nesting_append a b _ m h
      · rename_i hc'
        rw [if_neg hc'] at h
        exact nesting_append a b _ m h

/-- What a link destination looks like in the text. -/
theorem destLoop_src {n : Nat} {acc : List Byte} {s u : List Sym} {t : List Byte} {m : Nat}
    (h : destLoop n acc s = .ok (t, m) u) :
    ∃ raw w, s = raw.map some ++ w ++ u ∧ (∀ x ∈ w, WhiteSym x) ∧ nesting n raw = some m ∧
      (92 ∉ raw → t = acc ++ raw ∧ ∀ c ∈ raw, 32 < c.toNat) := by
  have hn : WhiteSym none := by intro d hd; cases hd
  have hn1 : ∀ x ∈ [(none : Sym)], WhiteSym x := by
    intro x hx; rw [List.mem_singleton.mp hx]; exact hn
  have step : ∀ {n n' : Nat} {acc : List Byte} {d : Byte} {s u : List Sym} {t : List Byte} {m : Nat},
      d ≠ 92 → 32 < d.toNat → (∀ r, nesting n (d :: r) = nesting n' r) →
      (∃ raw w, s = raw.map some ++ w ++ u ∧ (∀ x ∈ w, WhiteSym x) ∧ nesting n' raw = some m ∧
        (92 ∉ raw → t = acc ++ [d] ++ raw ∧ ∀ c ∈ raw, 32 < c.toNat)) →
      ∃ raw w, some d :: s = raw.map some ++ w ++ u ∧ (∀ x ∈ w, WhiteSym x) ∧
        nesting n raw = some m ∧ (92 ∉ raw → t = acc ++ raw ∧ ∀ c ∈ raw, 32 < c.toNat) := by
    intro n n' acc d s u t m hd h32 hnest ⟨raw, w, e1, e2, e3, e4⟩
    refine ⟨d :: raw, w, by rw [e1]; simp, e2, by rw [hnest]; exact e3, ?_⟩
    intro hmem
    have hm' : 92 ∉ raw := fun hx => hmem (List.mem_cons_of_mem _ hx)
    obtain ⟨e5, e6⟩ := e4 hm'
    refine ⟨by rw [e5]; simp, ?_⟩
    intro c hc
    rcases List.mem_cons.mp hc with rfl | hc
    · exact h32
    · exact e6 c hc
  fun_induction destLoop n acc s with
  | case1 => cases h; exact ⟨[], [], rfl, by simp, rfl, by simp⟩
  | case2 => cases h; exact ⟨[], [none], rfl, hn1, rfl, by simp⟩
  | case3 => cases h
  | case4 => cases h; exact ⟨[92], [], rfl, by simp, rfl, by simp⟩
  | case5 => cases h; exact ⟨[92], [none], rfl, hn1, rfl, by simp⟩
  | case6 => cases h
  | case7 n acc d s ih =>
    obtain ⟨raw, w, e1, e2, e3, e4⟩ := ih h
    exact ⟨92 :: raw, w, by rw [e1]; simp, e2, by rw [← e3, nesting]; rfl, by simp⟩
  | case8 n acc s _ ih =>
    exact step (by decide) (by decide) (fun r => by rw [nesting, if_pos rfl]) (ih h)
  | case9 n acc s hn _ _ ih =>
    refine step (by decide) (by decide) (fun r => ?_) (ih h)
    rw [nesting, if_neg (by decide), if_pos rfl, if_neg (by omega)]
  | case10 => cases h; exact ⟨[], [], rfl, by simp, rfl, by simp⟩
  | case11 => cases h; exact ⟨[], [], rfl, by simp, rfl, by simp⟩
  | case12 n acc d s h1 h2 h3 h4 ih =>
    exact step h1 (by omega) (fun r => by rw [nesting, if_neg h2, if_neg h3]) (ih h)

theorem parseLink_src {s u : List Sym} {t : List Byte} (h : parseLinkDestination s = .ok t u) :
    ∃ w raw w', s = w ++ raw.map some ++ w' ++ some 41 :: u ∧ (∀ x ∈ w, WhiteSym x) ∧
      (∀ x ∈ w', WhiteSym x) ∧ LinkDest raw t := by
  unfold parseLinkDestination at h
  split at h <;> try cases h
  rename_i h1
  split at h <;> try cases h
  rename_i h2
  split at h <;> try cases h
  rename_i hnest
  split at h <;> try cases h
  rename_i h3
  obtain ⟨w, rfl, hw⟩ := skipLeading_src h1
  obtain ⟨raw, w1, rfl, hw1, hr, ht⟩ := destLoop_src h2
  obtain ⟨w2, rfl, hw2⟩ := skipTrailing_src h3
  refine ⟨w, raw, w1 ++ w2, by simp, hw, ?_, ?_, ?_⟩
  · intro x hx
    rcases List.mem_append.mp hx with hx | hx
    · exact hw1 x hx
    · exact hw2 x hx
  · rw [hr]; congr 1; omega
  · intro hmem; simpa using ht hmem

theorem flush_src {ds : List Delim} {p : List Byte} {post pre s : List Sym}
    (h : SrcD (p.map some ++ post) pre ds s) : SrcD post pre (flush ds p) (s ++ p.map some) := by
  unfold flush
  split
  · rename_i hp; subst hp; simpa using h
  · exact h.append (by simpa using SrcD.raw .nil)

/-- Adding one delimiter at the end. -/
theorem snoc_src {ds : List Delim} {d : Delim} {post pre s b : List Sym}
    (h : SrcD (b ++ post) pre ds s) (hd : SrcD post (pre ++ s) [d] b) :
    SrcD post pre (ds ++ [d]) (s ++ b) := h.append hd

theorem lastOpen_spec : ∀ {ds : List Delim} {i : Nat}, rfindOpen.lastOpen ds = some i →
    ∃ t, ds[i]? = some (.openLink t)
  | [], i, h => by simp [rfindOpen.lastOpen] at h
  | d :: ds, i, h => by
    rw [rfindOpen.lastOpen.eq_def] at h
    dsimp only at h
    split at h
    · rename_i j hj
      cases h
      obtain ⟨t, ht⟩ := lastOpen_spec hj
      exact ⟨t, by simpa using ht⟩
    · split at h
      · cases h; exact ⟨_, rfl⟩
      · cases h

theorem rfindOpen_spec {ds : List Delim} {i : Nat} (h : rfindOpen ds = some (some i)) :
    ∃ t, ds[i]? = some (.openLink t) := by
  unfold rfindOpen at h
  split at h
  · cases h
  · exact lastOpen_spec (Option.some.inj h)

/-- `prev` is the last character of what has been read. -/
def PrevOk (prev : Option Byte) (s : List Sym) : Prop := ∀ c, prev = some c → ∃ t, s = t ++ [some c]

theorem makeRun_src {post pre : List Sym} {star : Bool} {prev : Option Byte} {n : Nat} (hn : 0 < n)
    (hp : PrevOk prev pre) :
    SrcD post pre [makeRun star prev post.head?.join (List.replicate n (runChar star))]
      (List.replicate n (some (runChar star))) := by
  unfold makeRun
  rw [← List.append_nil (List.replicate n (some (runChar star)))]
  refine SrcD.run hn ?_ ?_ .nil
  · intro hl
    rw [List.nil_append]
    cases post with
    | nil => simp at hl
    | cons x post =>
      cases x with
      | none => simp at hl
      | some c =>
        refine ⟨c, post, rfl, ?_⟩
        cases hw : Str.isWhite c with
        | false => rfl
        | true => simp [hw] at hl
  · intro hr
    cases prev with
    | none => simp at hr
    | some c =>
      obtain ⟨t, ht⟩ := hp c rfl
      refine ⟨c, t, ht, ?_⟩
      cases hw : Str.isWhite c with
      | false => rfl
      | true => simp [hw] at hr

theorem prevOk_snoc (c : Byte) (s : List Sym) : PrevOk (some c) (s ++ [some c]) := by
  intro d hd; cases hd; exact ⟨s, rfl⟩

theorem prevOk_run (c : Byte) (k : Nat) (s : List Sym) :
    PrevOk (some c) (s ++ List.replicate (k + 1) (some c)) := by
  rw [List.replicate_succ', ← List.append_assoc]; exact prevOk_snoc c _

theorem prevOk_none (s : List Sym) : PrevOk none s := by intro c hc; cases hc

theorem expandLoop_src {ds ds' : List Delim} {pending : List Byte} {prev : Option Byte}
    {s s0 : List Sym} (h : expandLoop ds pending prev s = some ds')
    (hs : SrcD (pending.map some ++ s) [] ds s0) (hprev : PrevOk prev (s0 ++ pending.map some)) :
    SrcD [] [] ds' (s0 ++ pending.map some ++ s) := by
  have htick : ∀ (ds : List Delim) (pending : List Byte) (s s0 : List Sym),
      SrcD (pending.map some ++ some 96 :: s) [] ds s0 →
      SrcD (s.drop (runLen 96 s)) []
        (flush (flush ds pending) (List.replicate (runLen 96 s + 1) 96))
        (s0 ++ pending.map some ++ List.replicate (runLen 96 s + 1) (some 96)) := by
    intro ds pending s s0 hs
    have h1 : SrcD (List.map some (List.replicate (runLen 96 s + 1) 96) ++ s.drop (runLen 96 s)) []
        (flush ds pending) (s0 ++ pending.map some) := by
      refine flush_src ?_
      have e := (runLen_spec 96 s).1
      rw [List.map_replicate, List.replicate_succ, List.cons_append, ← e]
      exact hs
    have := flush_src h1
    rw [List.map_replicate] at this
    exact this
  fun_induction expandLoop ds pending prev s generalizing s0 with
  | case1 => cases h; rw [List.append_nil]; exact flush_src (by simpa using hs)
  | case2 ds pending prev c t ih =>
    have hf : SrcD (none :: some c :: t) [] (flush ds pending) _ := flush_src hs
    have := ih h (snoc_src (b := [none]) hf (by simpa using SrcD.elem (.soft .nil) .nil))
      (prevOk_none _)
    simpa using this
  | case3 => cases h
  | case4 => cases h
  | case5 ds pending prev s k t' _ code u hg _ hne =>
    rename_i ih
    obtain ⟨b, e1, e2, e3, hk⟩ := getCodeSpan_src hg
    rw [List.nil_append] at e2 e3
    have hct : CodeText b code := by
      refine ⟨fun hb => e2 (by rw [hb]; rfl), ?_⟩
      rcases stripSpan_spec (r := b.map spaced) with ⟨m, h1, h2, h3⟩ | ⟨h1, h2⟩
      · exact Or.inl ⟨m, h1, h2, by rw [e3, h3]⟩
      · exact Or.inr ⟨h1, by rw [e3, h2]⟩
    have hs' := (runLen_spec 96 s).1
    rw [show s.drop (runLen 96 s) = t' from rfl, e1] at hs'
    have hel : SrcD u ([] ++ (s0 ++ pending.map some)) [Delim.elem (.code code)]
        (List.replicate k (some 96) ++ b ++ List.replicate k (some 96)) := by
      have := SrcD.elem (post := u) (pre := [] ++ (s0 ++ pending.map some)) (.code hk hct .nil) .nil
      simpa using this
    have hf : SrcD (some 96 :: s) [] (flush ds pending) _ := flush_src hs
    have e : some 96 :: s = List.replicate k (some 96) ++ b ++ List.replicate k (some 96) ++ u := by
      rw [hs']; simp [k, List.replicate_succ]
    rw [e] at hf
    have := ih h (snoc_src hf hel) (by
      have := prevOk_run 96 (runLen 96 s) (s0 ++ pending.map some ++ (List.replicate k (some 96) ++ b))
      simpa only [List.append_assoc, List.map_nil, List.append_nil, k] using this)
    rw [e]
    simpa using this
  | case6 ds pending prev s k t' _ code u hg _ hne =>
    rename_i ih
    have := ih h (htick ds pending s s0 hs) (by simpa using prevOk_run 96 (runLen 96 s) (s0 ++ pending.map some))
    have hs' := (runLen_spec 96 s).1
    rw [show s.drop (runLen 96 s) = t' from rfl] at hs'
    rw [hs']
    simpa [k, List.replicate_succ] using this
  | case7 ds pending prev s k t' _ hg =>
    rename_i ih
    have := ih h (htick ds pending s s0 hs) (by simpa using prevOk_run 96 (runLen 96 s) (s0 ++ pending.map some))
    have hs' := (runLen_spec 96 s).1
    rw [show s.drop (runLen 96 s) = t' from rfl] at hs'
    rw [hs']
    simpa [k, List.replicate_succ] using this
  | case8 ds pending prev s k t' _ _ =>
    rename_i ih
    have hs' := (runLen_spec 42 s).1
    rw [show s.drop (runLen 42 s) = t' from rfl] at hs'
    have e : some 42 :: s = List.replicate k (some 42) ++ t' := by
      rw [List.replicate_succ, List.cons_append, ← hs']
    have hf : SrcD (some 42 :: s) [] (flush ds pending) _ := flush_src hs
    rw [e] at hf
    have := ih h (snoc_src hf (makeRun_src (star := true) (Nat.succ_pos _) (by simpa using hprev)))
      (by simpa using prevOk_run 42 (runLen 42 s) (s0 ++ pending.map some))
    rw [e]
    simpa [runChar] using this
  | case9 ds pending prev s k t' _ _ _ =>
    rename_i ih
    have hs' := (runLen_spec 95 s).1
    rw [show s.drop (runLen 95 s) = t' from rfl] at hs'
    have e : some 95 :: s = List.replicate k (some 95) ++ t' := by
      rw [List.replicate_succ, List.cons_append, ← hs']
    have hf : SrcD (some 95 :: s) [] (flush ds pending) _ := flush_src hs
    rw [e] at hf
    have := ih h (snoc_src hf (makeRun_src (star := false) (Nat.succ_pos _) (by simpa using hprev)))
      (by simpa using prevOk_run 95 (runLen 95 s) (s0 ++ pending.map some))
    rw [e]
    simpa [runChar] using this
  | case10 ds pending prev s _ _ _ ih =>
    have hf : SrcD (some 91 :: s) [] (flush ds pending) _ := flush_src hs
    have := ih h (snoc_src (b := [some 91]) hf (SrcD.openLink .nil))
      (by simpa using prevOk_snoc 91 (s0 ++ pending.map some))
    simpa using this
  | case11 => cases h
  | case12 ds pending prev s hh t' _ _ _ _ _ _ =>
    rename_i ih
    have hs' : s = some 40 :: t' := by
      cases s with
      | nil => cases hh
      | cons x s => simp only [List.head?_cons, Option.some.injEq] at hh; subst hh; rfl
    rw [hs'] at hs
    have := ih h (flush_src hs) (by have := prevOk_snoc 40 (s0 ++ pending.map some ++ [some 93]); simpa only [List.map_append, List.map_cons, List.map_nil, List.append_assoc, List.cons_append, List.nil_append] using this)
    rw [hs']
    simpa using this
  | case13 => cases h
  | case14 ds pending prev s hh t' _ _ _ _ _ _ _ _ =>
    rename_i ih
    have hs' : s = some 40 :: t' := by
      cases s with
      | nil => cases hh
      | cons x s => simp only [List.head?_cons, Option.some.injEq] at hh; subst hh; rfl
    rw [hs'] at hs
    have := ih h (flush_src hs) (by have := prevOk_snoc 40 (s0 ++ pending.map some ++ [some 93]); simpa only [List.map_append, List.map_cons, List.map_nil, List.append_assoc, List.cons_append, List.nil_append] using this)
    rw [hs']
    simpa using this
  | case15 => cases h
  | case16 ds pending prev s hh t' _ i hi dest u hl _ cs hcs _ _ _ _ =>
    rename_i ih
    have hs' : s = some 40 :: t' := by
      cases s with
      | nil => cases hh
      | cons x s => simp only [List.head?_cons, Option.some.injEq] at hh; subst hh; rfl
    obtain ⟨ot, hot⟩ := rfindOpen_spec hi
    obtain ⟨hlt, hget⟩ := List.getElem?_eq_some_iff.mp hot
    have hfl : SrcD (some 93 :: s) [] (flush ds pending) _ := flush_src hs
    have hsplit : flush ds pending = (flush ds pending).take i ++
        .openLink ot :: (flush ds pending).drop (i + 1) := by
      rw [← hget, ← List.drop_eq_getElem_cons hlt, List.take_append_drop]
    rw [hsplit] at hfl
    obtain ⟨s1, s2, e, h1, h2⟩ := SrcD.split hfl
    cases h2 with
    | openLink h2 =>
      rename_i s2
      have hb := processEmphasis_src hcs h2
      obtain ⟨w, raw, w', e1, hw, hw', hd⟩ := parseLink_src hl
      have hel : SrcD u ([] ++ s1) [Delim.elem (.link dest cs)] _ :=
        SrcD.elem (.link hb hw hw' hd .nil) .nil
      have e2 : (some 91 :: s2) ++ some 93 :: s = (some 91 :: (s2 ++ some 93 :: some 40 ::
          (w ++ raw.map some ++ w' ++ [some 41])) ++ []) ++ u := by
        rw [hs', e1]; simp
      rw [e2] at h1
      have := ih h (snoc_src h1 hel) (by
        have := prevOk_snoc 41 (s1 ++ some 91 :: (s2 ++ some 93 :: some 40 ::
          (w ++ raw.map some ++ w')))
        simpa using this)
      rw [hs', e, e1]
      simpa using this
  | case17 ds pending prev s _ _ _ _ _ ih =>
    have := ih h (flush_src hs) (by simpa using prevOk_snoc 93 (s0 ++ pending.map some))
    simpa using this
  | case18 ds pending prev c s _ _ _ _ _ ih =>
    have := ih h (by simpa using hs) (by simpa using prevOk_snoc c (s0 ++ pending.map some))
    simpa using this

theorem symsOf_eq : ∀ lines : List (List Byte), symsOf lines = textOf lines
  | [] => rfl
  | [l] => by simp [symsOf, textOf]
  | l :: l' :: ls => by
    rw [symsOf, textOf, if_neg (by simp), symsOf_eq (l' :: ls)]

theorem expandInline_src {lines : List (List Byte)} {es : List Inline}
    (h : expandInlineElements lines = some es) : Src es (textOf lines) := by
  unfold expandInlineElements at h
  split at h
  · cases h
  · cases h
  · split at h
    · cases h
    · rename_i ds hds
      have := expandLoop_src hds .nil (prevOk_none _)
      rw [symsOf_eq] at this
      exact processEmphasis_src h (by simpa using this)

end Verif.Markdown
