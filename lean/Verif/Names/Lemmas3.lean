import Verif.Names.Lemmas2
/-!
# Names — lemmas on resolving
-/
namespace Verif.Names
open Verif

theorem text_single {n : Name} (h : Spec.Valid n) : Spec.Text [n] n :=
  ⟨by simp, by simpa using h, rfl⟩

theorem text_dot {cs : List Name} {s n : Name} (h : Spec.Text cs s) (hn : Spec.Valid n) :
    Spec.Text (cs ++ [n]) (dot s n) := by
  obtain ⟨h1, h2, rfl⟩ := h
  refine ⟨by simp, ?_, ?_⟩
  · intro c hc
    rcases List.mem_append.1 hc with hc | hc
    · exact h2 c hc
    · simp at hc; subst hc; exact hn
  · cases cs with
    | nil => exact absurd rfl h1
    | cons c cs => rw [List.cons_append, join_eq, join_eq, dot]; simp [dotted]

theorem findTarget_text {W : Registry} {text : Name} {c : Name} {cs : List Name}
    (h : Spec.Text (c :: cs) text) :
    findTarget W text =
      match findRepo W c with
      | some r =>
        match cs with
        | [] => (none, [.isRepo])
        | [n] =>
          match targetImm W r n with
          | some t => (some t, [])
          | none => (none, [.cantFind])
        | _ => (none, [.tooMany])
      | none =>
        if cs ≠ [] then (none, [.tooMany])
        else decideOn ((allRepos W).foldl (pick fun r => targetImm W r c) (none, false)) := by
  unfold findTarget
  rw [(splitName_iff text (c :: cs) []).2 ⟨rfl, h⟩]
  simp only
  cases findRepo W c with
  | none => rfl
  | some r =>
    match cs with
    | [] => rfl
    | [n] => rfl
    | _ :: _ :: _ => rfl

theorem findTarget_bad {W : Registry} {text : Name} (h : ∀ cs, ¬ Spec.Text cs text) :
    findTarget W text = (none, [.invalid]) := by
  unfold findTarget
  rw [(splitName_none text [.invalid]).2 ⟨rfl, h⟩]

theorem text_or (text : Name) : (∃ c cs, Spec.Text (c :: cs) text) ∨ ∀ cs, ¬ Spec.Text cs text := by
  by_cases h : ∃ cs, Spec.Text cs text
  · obtain ⟨cs, h⟩ := h
    cases cs with
    | nil => exact absurd rfl h.1
    | cons c cs => exact .inl ⟨c, cs, h⟩
  · exact .inr fun cs hc => h ⟨cs, hc⟩

theorem called_name {W : Registry} {r : Nat} (hr : r < W.length) : Spec.Called W r (repoName W r) :=
  (called_iff hr _).1 rfl

theorem hasTarget_lt {W : Registry} {r : Nat} {n : Name} (h : Spec.HasTarget W r n) : r < W.length :=
  List.mem_range.1 (lt_of_hasTarget h)

theorem extern_lt {W : Registry} {e : Ext} {n : Name} (h : Spec.Extern W e n) : e.1 < W.length :=
  List.mem_range.1 (lt_of_extern h)

theorem provides_lt {W : Registry} {p : Nat × Nat} {e : Ext} {n : Name} (h : Spec.Provides W p e n) :
    p.1 < W.length :=
  List.mem_range.1 (lt_of_provides h)

theorem extName_eq {W : Registry} {e : Ext} {n : Name} (h : Spec.Extern W e n) : extName W e = n := by
  obtain ⟨R, hR, hn⟩ := h
  unfold extName
  rw [hR]
  simp [hn]

theorem extern_fun {W : Registry} {e : Ext} {n m : Name} (h : Spec.Extern W e n) (k : Spec.Extern W e m) :
    n = m := by
  rw [← extName_eq h, extName_eq k]

theorem inOther_iff {W : Registry} {r : Nat} {n : Name} :
    inOtherExterns W r n = true ↔ ∃ e : Ext, e.1 ≠ r ∧ Spec.Extern W e n := by
  unfold inOtherExterns
  rw [List.any_eq_true]
  constructor
  · rintro ⟨q, _, h⟩
    simp only [Bool.and_eq_true, bne_iff_ne, ne_eq] at h
    obtain ⟨e, he⟩ := Option.isSome_iff_exists.1 h.2
    obtain ⟨h1, h2⟩ := externImm_some he
    exact ⟨e, by rw [h1]; exact h.1, h2⟩
  · rintro ⟨e, h1, h2⟩
    refine ⟨e.1, lt_of_extern h2, ?_⟩
    have := (externImm_ne e.1 n).2 ⟨e, rfl, h2⟩
    simp only [Bool.and_eq_true, bne_iff_ne, ne_eq]
    exact ⟨h1, by rw [Option.isSome_iff_ne_none]; exact this⟩

/-- The only match of a search for externs. -/
theorem extern_only {W : Registry} (hd : Spec.ExternsDiffer W) (n : Name) (e : Ext) :
    (∃ r ∈ allRepos W, externImm W r n = some e ∧ ∀ q ∈ allRepos W, externImm W q n ≠ none → q = r) ↔
      Spec.Extern W e n ∧ ∀ f, Spec.Extern W f n → f = e := by
  constructor
  · rintro ⟨r, hr, he, hu⟩
    obtain ⟨h1, h2⟩ := externImm_some he
    refine ⟨h2, fun f hf => hd f e n hf h2 ?_⟩
    rw [h1]
    exact hu f.1 (lt_of_extern hf) ((externImm_ne f.1 n).2 ⟨f, rfl, hf⟩)
  · rintro ⟨h, hu⟩
    refine ⟨e.1, lt_of_extern h, (externImm_iff hd e.1 n e).2 ⟨rfl, h⟩, fun q _ hq => ?_⟩
    obtain ⟨f, h1, h2⟩ := (externImm_ne q n).1 hq
    rw [← h1, hu f h2]

theorem provider_only {W : Registry} (hd : Spec.ProvidersDiffer W) (e : Ext) (n : Name) (p : Nat × Nat) :
    (∃ r ∈ allRepos W, providerImm W r e n = some p ∧
        ∀ q ∈ allRepos W, providerImm W q e n ≠ none → q = r) ↔
      Spec.Provides W p e n ∧ ∀ f, Spec.Provides W f e n → f = p := by
  constructor
  · rintro ⟨r, hr, he, hu⟩
    obtain ⟨h1, h2⟩ := providerImm_some he
    refine ⟨h2, fun f hf => hd f p e n hf h2 ?_⟩
    rw [h1]
    exact hu f.1 (lt_of_provides hf) ((providerImm_ne f.1 e n).2 ⟨f, rfl, hf⟩)
  · rintro ⟨h, hu⟩
    refine ⟨p.1, lt_of_provides h, (providerImm_iff hd p.1 e n p).2 ⟨rfl, h⟩, fun q _ hq => ?_⟩
    obtain ⟨f, h1, h2⟩ := (providerImm_ne q e n).1 hq
    rw [← h1, hu f h2]

theorem internal_some {W : Registry} (hW : Spec.Good W) (hd : Spec.ExternsDiffer W) (comps : List Name)
    (e : Ext) (ms : List Msg) (rest : List Name) :
    findExternInternal W comps = some ((some e, ms), rest) ↔
      ms = [] ∧ ∃ cs, comps = cs ++ rest ∧ Spec.ExternName W cs e := by
  cases comps with
  | nil =>
    simp only [findExternInternal]
    constructor
    · intro h; cases h
    · rintro ⟨_, cs, h, k⟩
      cases k <;> simp at h
  | cons c cs =>
    simp only [findExternInternal]
    cases hr : findRepo W c with
    | some r =>
      have hc := (findRepo_iff hW c r).1 hr
      cases cs with
      | nil =>
        constructor
        · intro h; simp at h
        · rintro ⟨_, ds, h, k⟩
          cases k with
          | qualified _ _ => simp at h
          | plain h1 _ _ =>
            simp at h
            exact absurd hc (h.1 ▸ h1 r)
      | cons n more =>
        simp only
        cases he : externImm W r n with
        | some f =>
          obtain ⟨h1, h2⟩ := externImm_some he
          simp only [Option.some.injEq, Prod.mk.injEq]
          constructor
          · rintro ⟨⟨rfl, rfl⟩, rfl⟩
            exact ⟨rfl, [c, n], rfl, .qualified (h1 ▸ hc) h2⟩
          · rintro ⟨rfl, ds, h, k⟩
            cases k with
            | qualified k1 k2 =>
              simp at h
              obtain ⟨rfl, rfl, rfl⟩ := h
              have := hW.names _ _ _ hc k1
              exact ⟨⟨hd f e _ h2 k2 (by rw [h1, this]), rfl⟩, rfl⟩
            | plain k1 _ _ =>
              simp at h
              exact absurd hc (h.1 ▸ k1 r)
        | none =>
          have hne : ∀ f : Ext, f.1 = r → ¬ Spec.Extern W f n := by
            intro f h1 h2
            exact (externImm_ne r n).2 ⟨f, h1, h2⟩ he
          constructor
          · intro h
            simp only at h
            split at h <;> simp at h
          · rintro ⟨_, ds, h, k⟩
            cases k with
            | qualified k1 k2 =>
              simp at h
              obtain ⟨rfl, rfl, rfl⟩ := h
              exact absurd k2 (hne e (hW.names _ _ _ k1 hc))
            | plain k1 _ _ =>
              simp at h
              exact absurd hc (h.1 ▸ k1 r)
    | none =>
      have hn := (findRepo_none hW c).1 hr
      simp only [Option.some.injEq, Prod.mk.injEq]
      rw [decideOn_iff _ _ (allRepos_nodup W), extern_only hd]
      constructor
      · rintro ⟨⟨h1, h2, h3⟩, rfl⟩
        exact ⟨h1, [c], rfl, .plain hn h2 h3⟩
      · rintro ⟨h1, ds, h, k⟩
        cases k with
        | qualified k1 _ =>
          simp at h
          exact absurd k1 (h.1 ▸ hn _)
        | plain k1 k2 k3 =>
          simp at h
          obtain ⟨rfl, rfl⟩ := h
          exact ⟨⟨h1, k2, k3⟩, rfl⟩

theorem internal_none {W : Registry} (hW : Spec.Good W) (comps : List Name) (hv : ∀ c ∈ comps, Spec.Valid c) :
    findExternInternal W comps = none ↔
      comps = [] ∨ ∃ a n more r, comps = a :: n :: more ∧ Spec.Called W r a ∧ n.length = 1 ∧
        ∀ e : Ext, e.1 = r → ¬ Spec.Extern W e n := by
  cases comps with
  | nil => simp [findExternInternal]
  | cons c cs =>
    simp only [findExternInternal]
    cases hr : findRepo W c with
    | some r =>
      have hc := (findRepo_iff hW c r).1 hr
      cases cs with
      | nil => simp
      | cons n more =>
        simp only
        have hn : n ≠ [] := by intro h; subst h; exact hv [] (by simp)
        have hn1 : 1 ≤ n.length := List.length_pos_iff.2 hn
        cases he : externImm W r n with
        | some f =>
          constructor
          · intro h; simp at h
          · rintro (h | ⟨a, n', more', q, h, hq, _, hx⟩)
            · simp at h
            · simp at h
              obtain ⟨rfl, rfl, rfl⟩ := h
              obtain ⟨h1, h2⟩ := externImm_some he
              exact absurd h2 (hx f (by rw [h1, hW.names _ _ _ hc hq]))
        | none =>
          have hne : ∀ f : Ext, f.1 = r → ¬ Spec.Extern W f n := by
            intro f h1 h2
            exact (externImm_ne r n).2 ⟨f, h1, h2⟩ he
          constructor
          · intro h
            simp only at h
            split at h
            · exact .inr ⟨c, n, more, r, rfl, hc, by omega, hne⟩
            · simp at h
          · rintro (h | ⟨a, n', more', q, h, hq, hl, _⟩)
            · simp at h
            · simp at h
              obtain ⟨rfl, rfl, rfl⟩ := h
              rw [if_pos (by omega)]
    | none =>
      have hn := (findRepo_none hW c).1 hr
      constructor
      · intro h; simp at h
      · rintro (h | ⟨a, n', more', q, h, hq, _⟩)
        · simp at h
        · simp at h
          exact absurd hq (h.1 ▸ hn q)

end Verif.Names
