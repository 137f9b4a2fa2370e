import Verif.Names.Lemmas4
/-!
# Names of modules, externs and providers — theorems (C83)
-/
namespace Verif.Names
open Verif

/-- An example: the repo `aa` with the modules `x` and `m`, the extern `zz` and a provider `p` for it; the
repo `bb`, which depends on `aa`, with the modules `y` and `m`, the extern `ww`, a provider `q` for `zz` and a
provider `p` for `ww`. -/
def demo : Registry := [
  ⟨[97, 97], [[120], [109]], [[122, 122]], [⟨(0, 0), [112]⟩], []⟩,
  ⟨[98, 98], [[121], [109]], [[119, 119]], [⟨(0, 0), [113]⟩, ⟨(1, 0), [112]⟩], [0]⟩]

theorem demo_good : Spec.Good demo := good_of (by decide) (by decide)
theorem demo_externs : Spec.ExternsDiffer demo := externsDiffer_of (by decide)
theorem demo_providers : Spec.ProvidersDiffer demo := providersDiffer_of (by decide)

/-! ## Texts -/

/-- **C83.** A text is accepted as a name exactly if it consists of names joined by single dots, and it is
taken apart into exactly these. -/
theorem C83_split (text : Name) (cs : List Name) :
    splitName text = (some cs, []) ↔ Spec.Text cs text := by
  rw [splitName_iff]; simp

/-- **C83.** A text is either accepted without a message or refused with one. -/
theorem C83_split_refused (text : Name) :
    (∃ cs, splitName text = (some cs, [])) ∨
      (splitName text = (none, [.invalid]) ∧ ∀ cs, ¬ Spec.Text cs text) := by
  rcases text_or text with ⟨c, cs, h⟩ | h
  · exact .inl ⟨c :: cs, (C83_split text _).2 h⟩
  · exact .inr ⟨(splitName_none text _).2 ⟨rfl, h⟩, h⟩

example : splitName [97, 97, 46, 109, 45, 49] = (some [[97, 97], [109, 45, 49]], []) ∧
    splitName [97, 46] = (none, [.invalid]) ∧ splitName [97, 46, 46, 98] = (none, [.invalid]) ∧
    splitName [49, 97] = (none, [.invalid]) ∧ splitName [] = (none, [.invalid]) := by decide

/-! ## Modules on the command line -/

/-- **C83.** The name of a module is resolved to a module exactly if it means this module: the module
of the given repo, or the only module of this name in all repos, in which case no repo may bear the
name. -/
theorem C83_module {W : Registry} (hW : Spec.Good W) (text : Name) (t : Target) :
    findTarget W text = (some t, []) ↔ ∃ cs, Spec.Text cs text ∧ Spec.Module W cs t := by
  rcases text_or text with ⟨c, cs, h⟩ | h
  · rw [findTarget_text h]
    have ex : (∃ ds, Spec.Text ds text ∧ Spec.Module W ds t) ↔ Spec.Module W (c :: cs) t :=
      ⟨fun ⟨ds, h1, h2⟩ => text_unique h h1 ▸ h2, fun k => ⟨_, h, k⟩⟩
    rw [ex]
    cases hr : findRepo W c with
    | some r =>
      have hc := (findRepo_iff hW c r).1 hr
      match cs with
      | [] =>
        constructor
        · intro k; simp at k
        · intro k
          cases k with
          | plain h1 _ _ => exact absurd hc (h1 r)
      | [n] =>
        simp only
        cases ht : targetImm W r n with
        | some s =>
          obtain ⟨rfl, h2⟩ := (targetImm_iff r n s).1 ht
          simp only [Prod.mk.injEq, Option.some.injEq, and_true]
          constructor
          · rintro rfl
            exact .qualified hc h2
          · intro k
            cases k with
            | qualified k1 k2 => rw [hW.names _ _ _ hc k1]
        | none =>
          constructor
          · intro k; simp at k
          · intro k
            cases k with
            | qualified k1 k2 =>
              have := hW.names _ _ _ hc k1
              subst this
              exact absurd ht ((targetImm_ne _ _).2 k2)
      | _ :: _ :: _ =>
        constructor
        · intro k; simp at k
        · intro k; cases k
    | none =>
      have hn := (findRepo_none hW c).1 hr
      simp only
      cases cs with
      | cons d ds =>
        rw [if_pos (by simp)]
        constructor
        · intro k; simp at k
        · intro k
          cases k with
          | qualified k1 _ => exact absurd k1 (hn _)
      | nil =>
        rw [if_neg (by simp), decideOn_iff _ _ (allRepos_nodup W)]
        constructor
        · rintro ⟨_, r, hr, h1, h2⟩
          obtain ⟨rfl, h3⟩ := (targetImm_iff r c t).1 h1
          exact .plain hn h3 fun q hq => h2 q (lt_of_hasTarget hq) ((targetImm_ne q c).2 hq)
        · intro k
          cases k with
          | plain k1 k2 k3 =>
            exact ⟨rfl, _, lt_of_hasTarget k2, (targetImm_iff _ _ _).2 ⟨rfl, k2⟩,
              fun q _ hq => k3 q ((targetImm_ne q _).1 hq)⟩
  · rw [findTarget_bad h]
    constructor
    · intro k; simp at k
    · rintro ⟨cs, k, _⟩; exact absurd k (h cs)

/-- **C83.** Without a module there is exactly one message, with a module there is none. -/
theorem C83_module_reports (W : Registry) (text : Name) :
    (∃ t, findTarget W text = (some t, [])) ∨ ∃ m, findTarget W text = (none, [m]) := by
  rcases text_or text with ⟨c, cs, h⟩ | h
  · rw [findTarget_text h]
    cases findRepo W c with
    | some r =>
      match cs with
      | [] => exact .inr ⟨_, rfl⟩
      | [n] =>
        simp only
        cases targetImm W r n with
        | some t => exact .inl ⟨t, rfl⟩
        | none => exact .inr ⟨_, rfl⟩
      | _ :: _ :: _ => exact .inr ⟨_, rfl⟩
    | none =>
      simp only
      by_cases hc : cs ≠ []
      · rw [if_pos hc]; exact .inr ⟨_, rfl⟩
      · rw [if_neg hc, decideOn_cases]
        generalize (allRepos W).filterMap _ = l
        match l with
        | [] => exact .inr ⟨_, rfl⟩
        | [x] => exact .inl ⟨x, rfl⟩
        | _ :: _ :: _ => exact .inr ⟨_, rfl⟩
  · exact .inr ⟨_, findTarget_bad h⟩

example : findTarget demo [121] = (some (1, [121]), []) ∧ findTarget demo [109] = (none, [.multiple]) ∧
    findTarget demo [97, 97, 46, 109] = (some (0, [109]), []) ∧
    findTarget demo [97, 97] = (none, [.isRepo]) ∧
    findTarget demo [97, 97, 46, 109, 46, 109] = (none, [.tooMany]) := by decide

/-- **C83.** The fully qualified name of a module always leads back to the module. -/
theorem C83_module_full {W : Registry} (hW : Spec.Good W) (t : Target) (ht : Spec.HasTarget W t.1 t.2)
    (h1 : Spec.Valid (repoName W t.1)) (h2 : Spec.Valid t.2) :
    findTarget W (fullTarget W t) = (some t, []) :=
  (C83_module hW _ t).2 ⟨_, text_dot (text_single h1) h2, .qualified (called_name (hasTarget_lt ht)) ht⟩

example : findTarget demo (fullTarget demo (1, [109])) = (some (1, [109]), []) := by decide

/-- **C83.** The short name of a module leads back to the module only if another repo has an *extern* of
the same name, or no repo bears the name and no other repo has a module of the same name. -/
theorem C83_module_short_partial {W : Registry} (hW : Spec.Good W) (t : Target)
    (ht : Spec.HasTarget W t.1 t.2) (h1 : Spec.Valid (repoName W t.1)) (h2 : Spec.Valid t.2) :
    findTarget W (shortTarget W t) = (some t, []) ↔
      (∃ e : Ext, e.1 ≠ t.1 ∧ Spec.Extern W e t.2) ∨
        ((∀ q, ¬ Spec.Called W q t.2) ∧ ∀ q, Spec.HasTarget W q t.2 → q = t.1) := by
  obtain ⟨r, n⟩ := t
  simp only at ht h1 h2 ⊢
  unfold shortTarget
  simp only
  by_cases ho : inOtherExterns W r n = true
  · rw [if_pos ho, C83_module_full hW (r, n) ht h1 h2]
    simp only [true_iff]
    exact .inl (inOther_iff.1 ho)
  · rw [if_neg ho, C83_module hW]
    have hno := fun h => ho (inOther_iff.2 h)
    constructor
    · rintro ⟨cs, h, k⟩
      have := text_unique h (text_single h2)
      subst this
      cases k with
      | plain k1 _ k3 => exact .inr ⟨k1, k3⟩
    · rintro (h | ⟨k1, k3⟩)
      · exact absurd h hno
      · exact ⟨[n], text_single h2, .plain k1 ht k3⟩

/-- **C83** fails for short names of modules: the module `m`, which both repos define, has the same short
name in both, and this name is refused. -/
theorem C83_module_short_ambiguous :
    shortTarget demo (0, [109]) = shortTarget demo (1, [109]) ∧
      findTarget demo (shortTarget demo (0, [109])) = (none, [.multiple]) := by decide

/-! ## Externs on the command line -/

/-- **C83.** The name of an extern is resolved without a message exactly if it means this extern. -/
theorem C83_extern {W : Registry} (hW : Spec.Good W) (hd : Spec.ExternsDiffer W) (text : Name) (e : Ext) :
    findExtern W text = some (some e, []) ↔ ∃ cs, Spec.Text cs text ∧ Spec.ExternName W cs e := by
  unfold findExtern
  rcases text_or text with ⟨c, cs, h⟩ | h
  · rw [(splitName_iff text (c :: cs) []).2 ⟨rfl, h⟩]
    have ex : (∃ ds, Spec.Text ds text ∧ Spec.ExternName W ds e) ↔ Spec.ExternName W (c :: cs) e :=
      ⟨fun ⟨ds, h1, h2⟩ => text_unique h h1 ▸ h2, fun k => ⟨_, h, k⟩⟩
    rw [ex]
    simp only
    rcases hi : findExternInternal W (c :: cs) with _ | ⟨⟨_ | f, ms⟩, rest⟩
    · constructor
      · intro k; simp at k
      · intro k
        rw [(internal_some hW hd (c :: cs) e [] []).2 ⟨rfl, _, by simp, k⟩] at hi
        simp at hi
    · constructor
      · intro k; simp at k
      · intro k
        rw [(internal_some hW hd (c :: cs) e [] []).2 ⟨rfl, _, by simp, k⟩] at hi
        simp at hi
    · obtain ⟨rfl, ds, h1, h2⟩ := (internal_some hW hd _ _ _ _).1 hi
      simp only [Option.some.injEq, Prod.mk.injEq, List.nil_append]
      constructor
      · rintro ⟨rfl, k⟩
        have : rest = [] := by
          by_cases hr : rest = []
          · exact hr
          · simp [hr] at k
        subst this
        rw [List.append_nil] at h1
        rw [h1]; exact h2
      · intro k
        rw [(internal_some hW hd (c :: cs) e [] []).2 ⟨rfl, _, by simp, k⟩] at hi
        simp at hi
        simp [hi.1, ← hi.2]
  · rw [(splitName_none text [.invalid]).2 ⟨rfl, h⟩]
    constructor
    · intro k; simp at k
    · rintro ⟨cs, k, _⟩; exact absurd k (h cs)

/-- **C83** fails for superfluous components: they are reported, but the extern is returned all the same.
This and the preceding theorem are all the cases in which there is an extern. -/
theorem C83_extern_superfluous {W : Registry} (hW : Spec.Good W) (hd : Spec.ExternsDiffer W) (text : Name)
    (e : Ext) (ms : List Msg) :
    (findExtern W text = some (some e, ms) ∧ ms ≠ []) ↔
      ms = [.tooMany] ∧ ∃ cs more, more ≠ [] ∧ Spec.Text (cs ++ more) text ∧ Spec.ExternName W cs e := by
  unfold findExtern
  rcases text_or text with ⟨c, cs, h⟩ | h
  · rw [(splitName_iff text (c :: cs) []).2 ⟨rfl, h⟩]
    simp only
    have back : ∀ ds more, Spec.Text (ds ++ more) text → Spec.ExternName W ds e →
        findExternInternal W (c :: cs) = some ((some e, []), more) := fun ds more h1 h2 =>
      (internal_some hW hd (c :: cs) e [] more).2 ⟨rfl, ds, text_unique h h1, h2⟩
    rcases hi : findExternInternal W (c :: cs) with _ | ⟨⟨_ | f, m⟩, rest⟩
    · constructor
      · rintro ⟨k, _⟩; simp at k
      · rintro ⟨_, ds, more, _, h1, h2⟩
        rw [back ds more h1 h2] at hi; simp at hi
    · constructor
      · rintro ⟨k, k2⟩; simp at k
      · rintro ⟨_, ds, more, _, h1, h2⟩
        rw [back ds more h1 h2] at hi; simp at hi
    · obtain ⟨rfl, ds, h1, h2⟩ := (internal_some hW hd _ _ _ _).1 hi
      simp only [Option.some.injEq, Prod.mk.injEq, List.nil_append]
      constructor
      · rintro ⟨⟨rfl, k⟩, hne⟩
        by_cases hr : rest = []
        · simp [hr] at k; exact absurd k hne
        · simp [hr] at k
          exact ⟨k.symm, ds, rest, hr, h1 ▸ h, h2⟩
      · rintro ⟨rfl, es, more, hm, k1, k2⟩
        rw [back es more k1 k2] at hi
        simp at hi
        simp [hi.1, ← hi.2, hm]
  · rw [(splitName_none text [.invalid]).2 ⟨rfl, h⟩]
    constructor
    · rintro ⟨k, _⟩; simp at k
    · rintro ⟨_, cs, more, _, k, _⟩; exact absurd k (h _)

/-- **C83** fails by an assertion exactly for a name of one byte that the given repo does not define. -/
theorem C83_extern_asserts {W : Registry} (hW : Spec.Good W) (text : Name) :
    findExtern W text = none ↔ ∃ a n more r, Spec.Text (a :: n :: more) text ∧ Spec.Called W r a ∧
      n.length = 1 ∧ ∀ e : Ext, e.1 = r → ¬ Spec.Extern W e n := by
  unfold findExtern
  rcases text_or text with ⟨c, cs, h⟩ | h
  · rw [(splitName_iff text (c :: cs) []).2 ⟨rfl, h⟩]
    simp only
    have key := internal_none hW (c :: cs) h.2.1
    rcases hi : findExternInternal W (c :: cs) with _ | ⟨⟨_ | f, m⟩, rest⟩
    · simp only [true_iff]
      rcases key.1 hi with k | ⟨a, n, more, r, e, k⟩
      · simp at k
      · exact ⟨a, n, more, r, e ▸ h, k⟩
    all_goals
      constructor
      · intro k; simp at k
      · rintro ⟨a, n, more, r, h1, k⟩
        rw [key.2 (.inr ⟨a, n, more, r, text_unique h h1, k⟩)] at hi
        simp at hi
  · rw [(splitName_none text [.invalid]).2 ⟨rfl, h⟩]
    constructor
    · intro k; simp at k
    · rintro ⟨a, n, more, r, k, _⟩; exact absurd k (h _)

example : findExtern demo [122, 122] = some (some (0, 0), []) ∧
    findExtern demo [122, 122, 46, 120] = some (some (0, 0), [.tooMany]) ∧
    findExtern demo [97, 97, 46, 120] = none ∧
    findExtern demo [97, 97, 46, 120, 120] = some (none, [.cantFind]) := by decide

/-- **C83.** The fully qualified name of an extern always leads back to the extern. -/
theorem C83_extern_full {W : Registry} (hW : Spec.Good W) (hd : Spec.ExternsDiffer W) (e : Ext) (n : Name)
    (he : Spec.Extern W e n) (h1 : Spec.Valid (repoName W e.1)) (h2 : Spec.Valid n) :
    findExtern W (fullExtern W e) = some (some e, []) := by
  unfold fullExtern
  rw [extName_eq he]
  exact (C83_extern hW hd _ e).2
    ⟨_, text_dot (text_single h1) h2, .qualified (called_name (extern_lt he)) he⟩

/-- The names that the short name of an extern consists of. -/
theorem shortExtern_text {W : Registry} (hd : Spec.ExternsDiffer W) (e : Ext) (n : Name)
    (he : Spec.Extern W e n) (h1 : Spec.Valid (repoName W e.1)) (h2 : Spec.Valid n) :
    ∃ cs, Spec.Text cs (shortExtern W e) ∧ (cs.length ≤ 2) ∧ (cs = [n] ∨ cs = [repoName W e.1, n]) ∧
      (Spec.ExternName W cs e ↔ (∃ f : Ext, f.1 ≠ e.1 ∧ Spec.Extern W f n) ∨ ∀ q, ¬ Spec.Called W q n) := by
  unfold shortExtern
  rw [extName_eq he]
  by_cases ho : inOtherExterns W e.1 n = true
  · rw [if_pos ho]
    unfold fullExtern
    rw [extName_eq he]
    refine ⟨_, text_dot (text_single h1) h2, by simp, .inr rfl, ?_⟩
    constructor
    · intro _; exact .inl (inOther_iff.1 ho)
    · intro _; exact .qualified (called_name (extern_lt he)) he
  · rw [if_neg ho]
    refine ⟨_, text_single h2, by simp, .inl rfl, ?_⟩
    constructor
    · intro k
      cases k with
      | plain k1 _ _ => exact .inr k1
    · rintro (k | k)
      · exact absurd (inOther_iff.2 k) ho
      · refine .plain k he fun f hf => hd f e n hf he ?_
        by_cases hfe : f.1 = e.1
        · exact hfe
        · exact absurd (inOther_iff.2 ⟨f, hfe, hf⟩) ho

/-- **C83.** The short name of an extern leads back to the extern unless it is unqualified and a repo
bears it. -/
theorem C83_extern_short_partial {W : Registry} (hW : Spec.Good W) (hd : Spec.ExternsDiffer W) (e : Ext)
    (n : Name) (he : Spec.Extern W e n) (h1 : Spec.Valid (repoName W e.1)) (h2 : Spec.Valid n) :
    findExtern W (shortExtern W e) = some (some e, []) ↔
      (∃ f : Ext, f.1 ≠ e.1 ∧ Spec.Extern W f n) ∨ ∀ q, ¬ Spec.Called W q n := by
  obtain ⟨cs, h, _, _, k⟩ := shortExtern_text hd e n he h1 h2
  rw [C83_extern hW hd, ← k]
  exact ⟨fun ⟨ds, k1, k2⟩ => text_unique h k1 ▸ k2, fun k2 => ⟨cs, h, k2⟩⟩

example : Spec.Extern demo (1, 0) [119, 119] ∧
    findExtern demo (shortExtern demo (1, 0)) = some (some (1, 0), []) ∧
    findExtern demo (fullExtern demo (1, 0)) = some (some (1, 0), []) :=
  ⟨⟨_, rfl, rfl⟩, by decide, by decide⟩

/-- An example: the repo `aa` has an extern that is named like the repo itself. -/
def demoSame : Registry := [⟨[97, 97], [], [[97, 97]], [⟨(0, 0), [112]⟩], []⟩]

/-- **C83** fails for short names of externs that are named like a repo. -/
theorem C83_extern_short_repo :
    shortExtern demoSame (0, 0) = [97, 97] ∧
      findExtern demoSame (shortExtern demoSame (0, 0)) = some (none, [.isRepo]) := by decide

/-! ## Providers -/

/-- **C83.** The name of a provider is resolved to a provider exactly if it means this provider. -/
theorem C83_provider {W : Registry} (hW : Spec.Good W) (hd : Spec.ExternsDiffer W)
    (hp : Spec.ProvidersDiffer W) (text : Name) (p : Nat × Nat) :
    getExternProvider W text = some (some p, []) ↔
      ∃ cs, Spec.Text cs text ∧ Spec.ProviderName W cs p := by
  unfold getExternProvider
  rcases text_or text with ⟨c, cs, h⟩ | h
  · rw [(splitName_iff text (c :: cs) []).2 ⟨rfl, h⟩]
    have ex : (∃ ds, Spec.Text ds text ∧ Spec.ProviderName W ds p) ↔ Spec.ProviderName W (c :: cs) p :=
      ⟨fun ⟨ds, h1, h2⟩ => text_unique h h1 ▸ h2, fun k => ⟨_, h, k⟩⟩
    rw [ex]
    simp only
    -- every reading of the name begins with the extern that was found
    have inv : Spec.ProviderName W (c :: cs) p → ∃ e rest, findExternInternal W (c :: cs) =
        some ((some e, []), rest) ∧
        ((∃ a n, rest = [a, n] ∧ Spec.Called W p.1 a ∧ Spec.Provides W p e n) ∨
         (∃ n, rest = [n] ∧ (∀ q, ¬ Spec.Called W q n) ∧ Spec.Provides W p e n ∧
           ∀ q, Spec.Provides W q e n → q = p)) := by
      intro k
      generalize hl : c :: cs = l at k
      cases k with
      | qualified k1 k2 k3 =>
        exact ⟨_, _, (internal_some hW hd _ _ _ _).2 ⟨rfl, _, rfl, k1⟩, .inl ⟨_, _, rfl, k2, k3⟩⟩
      | plain k1 k2 k3 k4 =>
        exact ⟨_, _, (internal_some hW hd _ _ _ _).2 ⟨rfl, _, rfl, k1⟩, .inr ⟨_, rfl, k2, k3, k4⟩⟩
    rcases hi : findExternInternal W (c :: cs) with _ | ⟨⟨_ | e, ms⟩, rest⟩
    · constructor
      · intro k; simp at k
      · intro k
        obtain ⟨e, rest, h1, _⟩ := inv k
        rw [hi] at h1; simp at h1
    · constructor
      · intro k; simp at k
      · intro k
        obtain ⟨e, rest, h1, _⟩ := inv k
        rw [hi] at h1; simp at h1
    · obtain ⟨rfl, ds, h1, h2⟩ := (internal_some hW hd _ _ _ _).1 hi
      have inv' : Spec.ProviderName W (c :: cs) p →
          ((∃ a n, rest = [a, n] ∧ Spec.Called W p.1 a ∧ Spec.Provides W p e n) ∨
           (∃ n, rest = [n] ∧ (∀ q, ¬ Spec.Called W q n) ∧ Spec.Provides W p e n ∧
             ∀ q, Spec.Provides W q e n → q = p)) := by
        intro k
        obtain ⟨e', rest', h1, h2⟩ := inv k
        rw [hi] at h1
        simp at h1
        obtain ⟨rfl, rfl⟩ := h1
        exact h2
      rw [h1] at inv' ⊢
      cases rest with
      | nil =>
        constructor
        · intro k; simp at k
        · intro k
          rcases inv' k with ⟨_, _, e, _⟩ | ⟨_, e, _⟩ <;> simp at e
      | cons a as =>
        simp only
        cases hr : findRepo W a with
        | some r =>
          have hc := (findRepo_iff hW a r).1 hr
          cases as with
          | nil =>
            constructor
            · intro k; simp at k
            · intro k
              rcases inv' k with ⟨_, _, e, _⟩ | ⟨n, e, k1, _⟩
              · simp at e
              · simp at e; subst e; exact absurd hc (k1 r)
          | cons n more =>
            simp only
            cases hq : providerImm W r e n with
            | none =>
              constructor
              · intro k; simp at k
              · intro k
                rcases inv' k with ⟨_, _, e, k1, k2⟩ | ⟨n, e, k1, _⟩
                · simp at e
                  obtain ⟨rfl, rfl, rfl⟩ := e
                  exact absurd hq ((providerImm_ne r _ _).2 ⟨p, hW.names _ _ _ k1 hc, k2⟩)
                · simp at e
            | some s =>
              obtain ⟨h3, h4⟩ := providerImm_some hq
              simp only
              by_cases hm : more = []
              · subst hm
                rw [if_neg (by simp)]
                simp only [Option.some.injEq, Prod.mk.injEq, and_true]
                constructor
                · rintro rfl
                  exact .qualified h2 (h3 ▸ hc) h4
                · intro k
                  rcases inv' k with ⟨_, _, e, k1, k2⟩ | ⟨n, e, k1, _⟩
                  · simp at e
                    obtain ⟨rfl, rfl⟩ := e
                    exact hp s p _ _ h4 k2 (by rw [h3]; exact hW.names _ _ _ hc k1)
                  · simp at e
              · rw [if_pos hm]
                constructor
                · intro k; simp at k
                · intro k
                  rcases inv' k with ⟨_, _, e, k1, k2⟩ | ⟨n, e, k1, _⟩
                  · simp at e; exact absurd e.2.2 hm
                  · simp at e
        | none =>
          have hn := (findRepo_none hW a).1 hr
          simp only
          rcases hdc : decideOn ((allRepos W).foldl (pick fun r => providerImm W r e a) (none, false)) with
            ⟨_ | s, ms⟩
          · constructor
            · intro k; simp at k
            · intro k
              rcases inv' k with ⟨_, _, e, k1, _⟩ | ⟨n, e, k1, k2, k3⟩
              · simp at e; exact absurd k1 (e.1 ▸ hn _)
              · simp at e
                obtain ⟨rfl, rfl⟩ := e
                have := (decideOn_iff (fun r => providerImm W r e a) _ (allRepos_nodup W) p []).2
                  ⟨rfl, (provider_only hp e a p).2 ⟨k2, k3⟩⟩
                rw [this] at hdc
                simp at hdc
          · obtain ⟨rfl, h3⟩ := (decideOn_iff _ _ (allRepos_nodup W) _ _).1 hdc
            obtain ⟨h3, h4⟩ := (provider_only hp e a s).1 h3
            simp only
            by_cases hm : as = []
            · subst hm
              rw [if_neg (by simp)]
              simp only [Option.some.injEq, Prod.mk.injEq, and_true]
              constructor
              · rintro rfl
                exact .plain h2 hn h3 h4
              · intro k
                rcases inv' k with ⟨_, _, e, k1, k2⟩ | ⟨n, e, k1, k2, k3⟩
                · simp at e
                · simp at e
                  subst e
                  exact k3 s h3
            · rw [if_pos hm]
              constructor
              · intro k; simp at k
              · intro k
                rcases inv' k with ⟨_, _, e, k1, k2⟩ | ⟨n, e, k1, _⟩
                · simp at e; exact absurd k1 (e.1 ▸ hn _)
                · simp at e; exact absurd e.2 hm
  · rw [(splitName_none text [.invalid]).2 ⟨rfl, h⟩]
    constructor
    · intro k; simp at k
    · rintro ⟨cs, k, _⟩; exact absurd k (h cs)

/-- **C83** fails by an assertion exactly if the name of the extern cannot be reported
(`C83_extern_asserts`), or the text names an extern and no provider. -/
theorem C83_provider_asserts {W : Registry} (hW : Spec.Good W) (hd : Spec.ExternsDiffer W) (text : Name) :
    getExternProvider W text = none ↔ findExtern W text = none ∨
      ∃ cs e, Spec.Text cs text ∧ Spec.ExternName W cs e := by
  have other : (∃ cs e, Spec.Text cs text ∧ Spec.ExternName W cs e) ↔
      ∃ e, findExtern W text = some (some e, []) := by
    constructor
    · rintro ⟨cs, e, h1, h2⟩; exact ⟨e, (C83_extern hW hd _ e).2 ⟨cs, h1, h2⟩⟩
    · rintro ⟨e, h⟩
      obtain ⟨cs, h1, h2⟩ := (C83_extern hW hd _ e).1 h
      exact ⟨cs, e, h1, h2⟩
  rw [other]
  unfold getExternProvider findExtern
  rcases hs : splitName text with ⟨_ | comps, ms⟩
  · simp
  · simp only
    rcases hi : findExternInternal W comps with _ | ⟨⟨_ | e, ms⟩, rest⟩
    · simp
    · simp
    · cases rest with
      | nil =>
        have hm := (internal_some hW hd _ _ _ _).1 hi
        simp [hm.1]
      | cons a as =>
        simp only
        constructor
        · intro k
          exfalso
          revert k
          repeat' split
          all_goals simp
        · rintro (k | ⟨f, k⟩)
          · simp at k
          · simp at k

example : getExternProvider demo [122, 122, 46, 113] = some (some (1, 0), []) ∧
    getExternProvider demo [122, 122, 46, 97, 97, 46, 112] = some (some (0, 0), []) ∧
    getExternProvider demo [122, 122] = none ∧
    getExternProvider demo [122, 122, 46, 97, 97] = some (none, [.isRepo]) := by decide

/-- **C83.** The fully qualified name of a provider, under which the choice of a provider is stored in a
build folder, leads back to the provider exactly if it is of another repo than its extern, or no repo
bears its name and no other repo has a provider of the same name for the extern. -/
theorem C83_provider_full_partial {W : Registry} (hW : Spec.Good W) (hd : Spec.ExternsDiffer W)
    (hp : Spec.ProvidersDiffer W) (p : Nat × Nat) (e : Ext) (en n : Name) (he : Spec.Extern W e en)
    (hpr : Spec.Provides W p e n) (h1 : Spec.Valid (repoName W e.1)) (h2 : Spec.Valid en)
    (h3 : Spec.Valid (repoName W p.1)) (h4 : Spec.Valid n) :
    getExternProvider W (fullProvider W p.1 ⟨e, n⟩) = some (some p, []) ↔
      p.1 ≠ e.1 ∨ ((∀ q, ¬ Spec.Called W q n) ∧ ∀ q, Spec.Provides W q e n → q = p) := by
  rw [C83_provider hW hd hp]
  unfold fullProvider
  simp only
  rw [extName_eq he]
  have hen : Spec.ExternName W [repoName W e.1, en] e := .qualified (called_name (extern_lt he)) he
  by_cases hpe : p.1 = e.1
  · rw [if_pos hpe, hpe]
    have ht : Spec.Text ([repoName W e.1, en] ++ [n]) (dot (dot (repoName W e.1) en) n) :=
      text_dot (text_dot (text_single h1) h2) h4
    constructor
    · rintro ⟨cs, k1, k2⟩
      have := text_unique k1 ht
      subst this
      refine .inr ?_
      generalize hl : [repoName W e.1, en] ++ [n] = l at k2
      cases k2 with
      | qualified m1 m2 m3 =>
        rename_i f ens a m
        have hf := (internal_some hW hd (ens ++ [a, m]) f [] [a, m]).2 ⟨rfl, ens, rfl, m1⟩
        rw [← hl, (internal_some hW hd _ e [] [n]).2 ⟨rfl, _, rfl, hen⟩] at hf
        simp at hf
      | plain m1 m2 m3 m4 =>
        rename_i f ens m
        have hf := (internal_some hW hd (ens ++ [m]) f [] [m]).2 ⟨rfl, ens, rfl, m1⟩
        rw [← hl, (internal_some hW hd _ e [] [n]).2 ⟨rfl, _, rfl, hen⟩] at hf
        simp at hf
        obtain ⟨rfl, rfl⟩ := hf
        exact ⟨m2, m4⟩
    · rintro (k | ⟨k1, k2⟩)
      · exact absurd rfl k
      · exact ⟨_, ht, .plain hen k1 hpr k2⟩
  · rw [if_neg hpe]
    have ht := text_dot (text_dot (text_dot (text_single h1) h2) h3) h4
    constructor
    · intro _; exact .inl hpe
    · intro _
      refine ⟨_, ht, ?_⟩
      have := Spec.ProviderName.qualified hen (called_name (provides_lt hpr)) hpr
      simpa using this

example : getExternProvider demo (fullProvider demo 1 ⟨(0, 0), [113]⟩) = some (some (1, 0), []) ∧
    getExternProvider demo (fullProvider demo 1 ⟨(1, 0), [112]⟩) = some (some (1, 1), []) := by decide

/-- An example: both repos have a provider `p` for the extern `zz` of `aa`. -/
def demoTwo : Registry := [
  ⟨[97, 97], [], [[122, 122]], [⟨(0, 0), [112]⟩], []⟩,
  ⟨[98, 98], [], [], [⟨(0, 0), [112]⟩], [0]⟩]

/-- **C83** fails for fully qualified names of providers: `aa.zz.p`, which is the fully qualified name of
the provider of `aa` and which the message recommends, is refused as ambiguous. -/
theorem C83_provider_full_ambiguous :
    fullProvider demoTwo 0 ⟨(0, 0), [112]⟩ = [97, 97, 46, 122, 122, 46, 112] ∧
      getExternProvider demoTwo (fullProvider demoTwo 0 ⟨(0, 0), [112]⟩) = some (none, [.multiple]) ∧
      getExternProvider demoTwo (shortProvider demoTwo 0 ⟨(0, 0), [112]⟩) = some (some (0, 0), []) := by
  decide

/-- **C83.** The short name of a provider leads back to the provider exactly if the short name of its
extern does, and another repo has a provider of the same name or no repo bears its name. -/
theorem C83_provider_short_partial {W : Registry} (hW : Spec.Good W) (hd : Spec.ExternsDiffer W)
    (hp : Spec.ProvidersDiffer W) (p : Nat × Nat) (e : Ext) (en n : Name) (he : Spec.Extern W e en)
    (hpr : Spec.Provides W p e n) (h1 : Spec.Valid (repoName W e.1)) (h2 : Spec.Valid en)
    (h3 : Spec.Valid (repoName W p.1)) (h4 : Spec.Valid n)
    (hs : findExtern W (shortExtern W e) = some (some e, [])) :
    getExternProvider W (shortProvider W p.1 ⟨e, n⟩) = some (some p, []) ↔
      (∃ q : Nat × Nat, q.1 ≠ p.1 ∧ Spec.Provides W q e n) ∨ ∀ q, ¬ Spec.Called W q n := by
  rw [C83_provider hW hd hp]
  obtain ⟨cs, ht, hen⟩ := (C83_extern hW hd _ _).1 hs
  unfold shortProvider
  simp only
  have hany : ((allRepos W).any fun q => q != p.1 && (providerImm W q e n).isSome) = true ↔
      ∃ q : Nat × Nat, q.1 ≠ p.1 ∧ Spec.Provides W q e n := by
    rw [List.any_eq_true]
    constructor
    · rintro ⟨q, _, h⟩
      simp only [Bool.and_eq_true, bne_iff_ne, ne_eq] at h
      obtain ⟨f, hf⟩ := Option.isSome_iff_exists.1 h.2
      obtain ⟨k1, k2⟩ := providerImm_some hf
      exact ⟨f, by rw [k1]; exact h.1, k2⟩
    · rintro ⟨f, k1, k2⟩
      refine ⟨f.1, lt_of_provides k2, ?_⟩
      have := (providerImm_ne f.1 e n).2 ⟨f, rfl, k2⟩
      simp only [Bool.and_eq_true, bne_iff_ne, ne_eq]
      exact ⟨k1, by rw [Option.isSome_iff_ne_none]; exact this⟩
  by_cases ho : ((allRepos W).any fun q => q != p.1 && (providerImm W q e n).isSome) = true
  · rw [if_pos ho]
    constructor
    · intro _; exact .inl (hany.1 ho)
    · intro _
      refine ⟨_, text_dot (text_dot ht h3) h4, ?_⟩
      have := Spec.ProviderName.qualified hen (called_name (provides_lt hpr)) hpr
      simpa using this
  · rw [if_neg ho]
    have ht2 := text_dot ht h4
    constructor
    · rintro ⟨ds, k1, k2⟩
      have := text_unique k1 ht2
      subst this
      generalize hl : cs ++ [n] = l at k2
      cases k2 with
      | qualified m1 m2 m3 =>
        rename_i f ens a m
        have hf := (internal_some hW hd (ens ++ [a, m]) f [] [a, m]).2 ⟨rfl, ens, rfl, m1⟩
        rw [← hl, (internal_some hW hd _ e [] [n]).2 ⟨rfl, _, rfl, hen⟩] at hf
        simp at hf
      | plain m1 m2 m3 m4 =>
        rename_i f ens m
        have hf := (internal_some hW hd (ens ++ [m]) f [] [m]).2 ⟨rfl, ens, rfl, m1⟩
        rw [← hl, (internal_some hW hd _ e [] [n]).2 ⟨rfl, _, rfl, hen⟩] at hf
        simp at hf
        obtain ⟨rfl, rfl⟩ := hf
        exact .inr m2
    · rintro (k | k)
      · exact absurd (hany.2 k) ho
      · refine ⟨_, ht2, .plain hen k hpr fun q hq => hp q p e n hq hpr ?_⟩
        by_cases hqp : q.1 = p.1
        · exact hqp
        · exact absurd (hany.2 ⟨q, hqp, hq⟩) ho

example : findExtern demo (shortExtern demo (0, 0)) = some (some (0, 0), []) ∧
    getExternProvider demo (shortProvider demo 1 ⟨(0, 0), [113]⟩) = some (some (1, 0), []) := by decide

/-! ## Names in a repo -/

/-- **C83.** The visit of the repos that a repo depends on ends whatever the dependencies are, and the
name of a repo is found exactly if it is the name of the repo itself or of one that it depends on,
directly or not. -/
theorem C83_child {W : Registry} (hW : Spec.Good W) {r : Nat} (hr : r < W.length) (n : Name) :
    ∃ o, findChildRepo W r n = some o ∧ ∀ q, o = some q ↔ Spec.Reach W r q ∧ Spec.Called W q n :=
  findChildRepo_spec hW hr n

/-- Two repos that depend on each other, and a third one. -/
def demoCircle : Registry := [
  ⟨[97], [[120]], [], [], [1]⟩, ⟨[98], [[121]], [], [], [0, 1]⟩, ⟨[99], [[122]], [], [], [0]⟩]

example : findChildRepo demoCircle 0 [98] = some (some 1) ∧ findChildRepo demoCircle 1 [97] = some (some 0) ∧
    findChildRepo demoCircle 0 [99] = some none ∧ findChildRepo demoCircle 2 [98] = some (some 1) := by
  decide

/-- **C83.** A name that is given to `addTarget` in a repo means a module exactly if it does among the repo
and those that it depends on.  Superfluous components are not looked at. -/
theorem C83_in_module {W : Registry} (hW : Spec.Good W) {r : Nat} (hr : r < W.length) (text : Name)
    (t : Target) :
    depTarget W r text = some (some t, []) ↔ ∃ cs, Spec.Text cs text ∧ Spec.ModuleIn W r cs t := by
  unfold depTarget
  rcases text_or text with ⟨c, cs, h⟩ | h
  · rw [(splitName_iff text (c :: cs) []).2 ⟨rfl, h⟩]
    have ex : (∃ ds, Spec.Text ds text ∧ Spec.ModuleIn W r ds t) ↔ Spec.ModuleIn W r (c :: cs) t :=
      ⟨fun ⟨ds, h1, h2⟩ => text_unique h h1 ▸ h2, fun k => ⟨_, h, k⟩⟩
    rw [ex]
    simp only
    obtain ⟨o, ho, hq⟩ := findChildRepo_spec hW hr c
    rw [ho, Option.bind_some]
    cases o with
    | some q =>
      obtain ⟨hrq, hc⟩ := (hq q).1 rfl
      cases cs with
      | nil =>
        constructor
        · intro k; simp at k
        · intro k
          cases k with
          | plain k1 _ _ _ => exact absurd hc (k1 q hrq)
      | cons n more =>
        simp only
        cases ht : targetImm W q n with
        | none =>
          constructor
          · intro k; simp at k
          · intro k
            cases k with
            | qualified k1 k2 k3 =>
              have := hW.names _ _ _ hc k2
              subst this
              exact absurd ht ((targetImm_ne _ _).2 k3)
            | plain k1 _ _ _ => exact absurd hc (k1 q hrq)
        | some s =>
          obtain ⟨rfl, h2⟩ := (targetImm_iff q n s).1 ht
          simp only [Option.some.injEq, Prod.mk.injEq, and_true]
          constructor
          · rintro rfl
            exact .qualified hrq hc h2
          · intro k
            cases k with
            | qualified k1 k2 k3 => rw [hW.names _ _ _ hc k2]
            | plain k1 _ _ _ => exact absurd hc (k1 q hrq)
    | none =>
      have hn : ∀ p, Spec.Reach W r p → ¬ Spec.Called W p c := by
        intro p h1 h2
        have := (hq p).2 ⟨h1, h2⟩
        cases this
      simp only
      obtain ⟨o, ho, hx⟩ := recursive_spec hW hr (fun q => targetImm W q c)
      unfold targetRecursive
      rw [ho]
      have key : o = some t ↔ Spec.ModuleIn W r (c :: cs) t := by
        rw [hx]
        constructor
        · rintro ⟨q, h1, h2, h3⟩
          obtain ⟨rfl, h4⟩ := (targetImm_iff q c t).1 h2
          exact .plain hn h1 h4 fun p hp1 hp2 => h3 p hp1 ((targetImm_ne p c).2 hp2)
        · intro k
          cases k with
          | qualified k1 k2 k3 => exact absurd k2 (hn _ k1)
          | plain k1 k2 k3 k4 =>
            exact ⟨_, k2, (targetImm_iff _ _ _).2 ⟨rfl, k3⟩, fun p hp1 hp2 =>
              k4 p hp1 ((targetImm_ne p _).1 hp2)⟩
      rw [← key]
      cases o with
      | none => simp
      | some s => simp
  · rw [(splitName_none text [.invalid]).2 ⟨rfl, h⟩]
    constructor
    · intro k; simp at k
    · rintro ⟨cs, k, _⟩; exact absurd k (h cs)

/-- **C83.** The same for externs; here superfluous components are refused. -/
theorem C83_in_extern {W : Registry} (hW : Spec.Good W) (hd : Spec.ExternsDiffer W) {r : Nat}
    (hr : r < W.length) (text : Name) (e : Ext) :
    depExtern W r text = some (some e, []) ↔ ∃ cs, Spec.Text cs text ∧ Spec.ExternIn W r cs e := by
  unfold depExtern
  rcases text_or text with ⟨c, cs, h⟩ | h
  · rw [(splitName_iff text (c :: cs) []).2 ⟨rfl, h⟩]
    have ex : (∃ ds, Spec.Text ds text ∧ Spec.ExternIn W r ds e) ↔ Spec.ExternIn W r (c :: cs) e :=
      ⟨fun ⟨ds, h1, h2⟩ => text_unique h h1 ▸ h2, fun k => ⟨_, h, k⟩⟩
    rw [ex]
    simp only [findOrCreate]
    obtain ⟨o, ho, hq⟩ := findChildRepo_spec hW hr c
    rw [ho, Option.bind_some]
    cases o with
    | some q =>
      obtain ⟨hrq, hc⟩ := (hq q).1 rfl
      cases cs with
      | nil =>
        constructor
        · intro k; simp at k
        · intro k
          cases k with
          | plain k1 _ _ _ => exact absurd hc (k1 q hrq)
      | cons n more =>
        simp only
        cases ht : externImm W q n with
        | none =>
          constructor
          · intro k; simp at k
          · intro k
            cases k with
            | qualified k1 k2 k3 =>
              exact absurd ht ((externImm_ne _ _).2 ⟨e, hW.names _ _ _ k2 hc, k3⟩)
        | some s =>
          obtain ⟨h1, h2⟩ := externImm_some ht
          simp only [Option.map_some]
          by_cases hm : more = []
          · subst hm
            simp only [ne_eq, not_true_eq_false, if_false, Option.some.injEq, Prod.mk.injEq, and_true]
            constructor
            · rintro rfl
              exact .qualified (h1 ▸ hrq) (h1 ▸ hc) h2
            · intro k
              cases k with
              | qualified k1 k2 k3 =>
                exact hd s e n h2 k3 (by rw [h1]; exact hW.names _ _ _ hc k2)
          · rw [if_pos hm]
            constructor
            · intro k; simp at k
            · intro k
              cases k
              exact absurd rfl hm
    | none =>
      have hn : ∀ p, Spec.Reach W r p → ¬ Spec.Called W p c := by
        intro p h1 h2
        have := (hq p).2 ⟨h1, h2⟩
        cases this
      simp only
      obtain ⟨o, ho, hx⟩ := recursive_spec hW hr (fun q => externImm W q c)
      unfold externRecursive
      rw [ho, Option.bind_some]
      have key : (o = some e ∧ cs = []) ↔ Spec.ExternIn W r (c :: cs) e := by
        rw [hx]
        constructor
        · rintro ⟨⟨q, h1, h2, h3⟩, rfl⟩
          obtain ⟨h4, h5⟩ := externImm_some h2
          refine .plain hn (h4 ▸ h1) h5 fun f hf1 hf2 => hd f e c hf2 h5 ?_
          rw [h4]
          exact h3 f.1 hf1 ((externImm_ne f.1 c).2 ⟨f, rfl, hf2⟩)
        · intro k
          cases k with
          | qualified k1 k2 k3 => exact absurd k2 (hn _ k1)
          | plain k1 k2 k3 k4 =>
            refine ⟨⟨e.1, k2, (externImm_iff hd _ _ _).2 ⟨rfl, k3⟩, fun p hp1 hp2 => ?_⟩, rfl⟩
            obtain ⟨f, hf1, hf2⟩ := (externImm_ne p _).1 hp2
            rw [← hf1, k4 f (hf1 ▸ hp1) hf2]
      rw [← key]
      cases o with
      | none => simp
      | some s =>
        by_cases hm : cs = []
        · simp [hm]
        · simp [hm]
  · rw [(splitName_none text [.invalid]).2 ⟨rfl, h⟩]
    constructor
    · intro k; simp at k
    · rintro ⟨cs, k, _⟩; exact absurd k (h cs)

example : depTarget demo 1 [120] = some (some (0, [120]), []) ∧ depTarget demo 0 [121] = some (none, [.cantFind]) ∧
    depTarget demo 1 [109] = some (none, [.cantFind]) := ⟨by decide, by decide, by decide⟩

example : depTarget demo 0 [109] = some (some (0, [109]), []) ∧
    depTarget demo 1 [98, 98, 46, 109] = some (some (1, [109]), []) := by decide

example : depTarget demo 1 [120, 46, 120] = some (some (0, [120]), []) ∧
    depExtern demo 1 [122, 122] = some (some (0, 0), []) ∧
    depExtern demo 1 [122, 122, 46, 120] = some (none, [.tooMany]) := by decide

theorem reach_same {W V : Registry} {r : Nat} (h : ∀ q, Spec.Reach W r q → V[q]? = W[q]?) (q : Nat) :
    Spec.Reach V r q ↔ Spec.Reach W r q := by
  constructor
  · intro k
    induction k with
    | refl => exact .refl
    | step _ k1 k2 ih => exact .step ih (h _ ih ▸ k1) k2
  · intro k
    induction k with
    | refl => exact .refl
    | step k0 k1 k2 ih => exact .step ih ((h _ k0).trans k1) k2

/-- **C83.** What a name means in a repo depends only on the repo and on those that it depends on: other
repos may be added to the registry or changed. -/
theorem C83_scope {W V : Registry} (hW : Spec.Good W) (hV : Spec.Good V) {r : Nat} (hr : r < W.length)
    (h : ∀ q, Spec.Reach W r q → V[q]? = W[q]?) (text : Name) (t : Target) :
    depTarget V r text = some (some t, []) ↔ depTarget W r text = some (some t, []) := by
  have hr' : r < V.length := by
    have := h r .refl
    rw [List.getElem?_eq_getElem hr] at this
    exact (List.getElem?_eq_some_iff.1 this).1
  rw [C83_in_module hW hr, C83_in_module hV hr']
  have hc : ∀ q n, Spec.Reach W r q → (Spec.Called V q n ↔ Spec.Called W q n) := by
    intro q n hq; unfold Spec.Called; rw [h q hq]
  have ht : ∀ q n, Spec.Reach W r q → (Spec.HasTarget V q n ↔ Spec.HasTarget W q n) := by
    intro q n hq; unfold Spec.HasTarget; rw [h q hq]
  have hR := reach_same h
  constructor
  · rintro ⟨cs, k, m⟩
    refine ⟨cs, k, ?_⟩
    cases m with
    | qualified m1 m2 m3 =>
      have m1 := (hR _).1 m1
      exact .qualified m1 ((hc _ _ m1).1 m2) ((ht _ _ m1).1 m3)
    | plain m1 m2 m3 m4 =>
      have m2 := (hR _).1 m2
      exact .plain (fun p hp hp2 => m1 p ((hR p).2 hp) ((hc _ _ hp).2 hp2)) m2 ((ht _ _ m2).1 m3)
        (fun p hp hp2 => m4 p ((hR p).2 hp) ((ht _ _ hp).2 hp2))
  · rintro ⟨cs, k, m⟩
    refine ⟨cs, k, ?_⟩
    cases m with
    | qualified m1 m2 m3 =>
      exact .qualified ((hR _).2 m1) ((hc _ _ m1).2 m2) ((ht _ _ m1).2 m3)
    | plain m1 m2 m3 m4 =>
      exact .plain (fun p hp hp2 => m1 p ((hR p).1 hp) ((hc _ _ ((hR p).1 hp)).1 hp2)) ((hR _).2 m2)
        ((ht _ _ m2).2 m3) (fun p hp hp2 => m4 p ((hR p).1 hp) ((ht _ _ ((hR p).1 hp)).1 hp2))

/-- On the command line, in contrast, a further repo makes a name ambiguous. -/
example : depTarget (demo ++ [⟨[99, 99], [[121]], [], [], [0]⟩]) 1 [121] = some (some (1, [121]), []) ∧
    findTarget (demo ++ [⟨[99, 99], [[121]], [], [], [0]⟩]) [121] = (none, [.multiple]) := by decide

/-! ## Adding modules and providers -/

/-- **C83.** Adding a module ends the program if the repo has a module of this name already, and otherwise
adds it and changes nothing else. -/
theorem C83_add_module (W : Registry) (r : Nat) (hr : r < W.length) (n : Name) :
    (Spec.HasTarget W r n ∧ addTarget W r n = .exit) ∨
      (¬ Spec.HasTarget W r n ∧ ∃ V, addTarget W r n = .ok V ∧
        (∀ q m, Spec.HasTarget V q m ↔ Spec.HasTarget W q m ∨ (q = r ∧ m = n)) ∧
        (∀ q m, Spec.Called V q m ↔ Spec.Called W q m) ∧ (∀ e m, Spec.Extern V e m ↔ Spec.Extern W e m) ∧
        (∀ p e m, Spec.Provides V p e m ↔ Spec.Provides W p e m)) := by
  have hR : W[r]? = some W[r] := List.getElem?_eq_getElem hr
  unfold addTarget
  rw [hR]
  simp only
  by_cases h : n ∈ W[r].targets
  · rw [if_pos h]
    exact .inl ⟨⟨_, hR, h⟩, rfl⟩
  · rw [if_neg h]
    refine .inr ⟨fun ⟨R, h1, h2⟩ => ?_, _, rfl, ?_, ?_, ?_, ?_⟩
    · rw [hR] at h1
      cases h1
      exact h h2
    · intro q m
      unfold Spec.HasTarget
      rw [List.getElem?_set]
      by_cases hq : r = q
      · subst hq
        simp [hr]
      · have hq' : q ≠ r := fun e => hq e.symm
        simp [hq, hq']
    · intro q m
      unfold Spec.Called
      rw [List.getElem?_set]
      by_cases hq : r = q
      · subst hq
        simp [hr]
      · simp [hq]
    · intro q m
      unfold Spec.Extern
      rw [List.getElem?_set]
      by_cases hq : r = q.1
      · rw [← hq]
        simp [hr]
      · simp [hq]
    · intro q e m
      unfold Spec.Provides
      rw [List.getElem?_set]
      by_cases hq : r = q.1
      · rw [← hq]
        simp [hr]
      · simp [hq]

example : addTarget demo 0 [120] = .exit ∧ addTarget demo 0 [121] ≠ .exit := by decide

theorem findOrCreate_found {W : Registry} (hW : Spec.Good W) (hd : Spec.ExternsDiffer W) {r : Nat}
    (hr : r < W.length) (comps rest : List Name) (allow : Bool) (e : Ext) :
    findOrCreate W r comps allow = some (.found e, rest) ↔
      ∃ cs, comps = cs ++ rest ∧ Spec.ExternIn W r cs e := by
  cases comps with
  | nil =>
    simp only [findOrCreate]
    constructor
    · intro h; cases h
    · rintro ⟨cs, h, k⟩; cases k <;> simp at h
  | cons c cs =>
    simp only [findOrCreate]
    obtain ⟨o, ho, hq⟩ := findChildRepo_spec hW hr c
    rw [ho, Option.bind_some]
    cases o with
    | some q =>
      obtain ⟨hrq, hc⟩ := (hq q).1 rfl
      cases cs with
      | nil =>
        constructor
        · intro k; simp at k
        · rintro ⟨ds, h, k⟩
          cases k with
          | qualified _ _ _ => simp at h
          | plain k1 _ _ _ =>
            simp at h
            exact absurd hc (h.1 ▸ k1 q hrq)
      | cons n more =>
        simp only
        cases ht : externImm W q n with
        | none =>
          constructor
          · intro k
            simp only at k
            split at k <;> simp at k
          · rintro ⟨ds, h, k⟩
            cases k with
            | qualified k1 k2 k3 =>
              simp at h
              obtain ⟨rfl, rfl, rfl⟩ := h
              exact absurd ht ((externImm_ne _ _).2 ⟨e, hW.names _ _ _ k2 hc, k3⟩)
            | plain k1 _ _ _ =>
              simp at h
              exact absurd hc (h.1 ▸ k1 q hrq)
        | some s =>
          obtain ⟨h1, h2⟩ := externImm_some ht
          simp only [Option.some.injEq, Prod.mk.injEq, Found.found.injEq]
          constructor
          · rintro ⟨rfl, rfl⟩
            exact ⟨[c, n], rfl, .qualified (h1 ▸ hrq) (h1 ▸ hc) h2⟩
          · rintro ⟨ds, h, k⟩
            cases k with
            | qualified k1 k2 k3 =>
              simp at h
              obtain ⟨rfl, rfl, rfl⟩ := h
              exact ⟨hd s e _ h2 k3 (by rw [h1]; exact hW.names _ _ _ hc k2), rfl⟩
            | plain k1 _ _ _ =>
              simp at h
              exact absurd hc (h.1 ▸ k1 q hrq)
    | none =>
      have hn : ∀ p, Spec.Reach W r p → ¬ Spec.Called W p c := by
        intro p h1 h2
        have := (hq p).2 ⟨h1, h2⟩
        cases this
      simp only
      obtain ⟨o, ho, hx⟩ := recursive_spec hW hr (fun q => externImm W q c)
      unfold externRecursive
      rw [ho, Option.bind_some]
      have key : o = some e ↔ Spec.ExternIn W r [c] e := by
        rw [hx]
        constructor
        · rintro ⟨q, h1, h2, h3⟩
          obtain ⟨h4, h5⟩ := externImm_some h2
          refine .plain hn (h4 ▸ h1) h5 fun f hf1 hf2 => hd f e c hf2 h5 ?_
          rw [h4]
          exact h3 f.1 hf1 ((externImm_ne f.1 c).2 ⟨f, rfl, hf2⟩)
        · intro k
          cases k with
          | plain k1 k2 k3 k4 =>
            refine ⟨e.1, k2, (externImm_iff hd _ _ _).2 ⟨rfl, k3⟩, fun p hp1 hp2 => ?_⟩
            obtain ⟨f, hf1, hf2⟩ := (externImm_ne p _).1 hp2
            rw [← hf1, k4 f (hf1 ▸ hp1) hf2]
      have key2 : (∃ ds, c :: cs = ds ++ rest ∧ Spec.ExternIn W r ds e) ↔ o = some e ∧ cs = rest := by
        rw [key]
        constructor
        · rintro ⟨ds, h, k⟩
          cases k with
          | qualified k1 k2 k3 =>
            simp at h
            exact absurd k2 (h.1 ▸ hn _ k1)
          | plain k1 k2 k3 k4 =>
            simp at h
            obtain ⟨rfl, rfl⟩ := h
            exact ⟨.plain k1 k2 k3 k4, rfl⟩
        · rintro ⟨k, rfl⟩
          exact ⟨[c], rfl, k⟩
      rw [key2]
      cases o with
      | none =>
        constructor
        · intro k
          simp only at k
          split at k <;> simp at k
        · rintro ⟨k, _⟩; cases k
      | some s => simp

theorem findOrCreate_create {W : Registry} (hW : Spec.Good W) (hd : Spec.ExternsDiffer W) {r : Nat}
    (hr : r < W.length) (comps rest : List Name) (n : Name) :
    findOrCreate W r comps true = some (.create n, rest) ↔
      ∃ cs, comps = cs ++ rest ∧ Spec.NewIn W r cs n := by
  cases comps with
  | nil =>
    simp only [findOrCreate]
    constructor
    · intro h; cases h
    · rintro ⟨cs, h, k⟩; cases k <;> simp at h
  | cons c cs =>
    by_cases hf : ∃ e rest', findOrCreate W r (c :: cs) true = some (.found e, rest')
    · obtain ⟨e, rest', hf⟩ := hf
      constructor
      · intro h; rw [hf] at h; simp at h
      · rintro ⟨ds, h, k⟩
        obtain ⟨es, h', k'⟩ := (findOrCreate_found hW hd hr _ _ _ _).1 hf
        rw [h'] at h
        cases k with
        | qualified k1 k2 =>
          cases k' with
          | qualified m1 m2 m3 =>
            simp at h
            obtain ⟨rfl, rfl, rfl⟩ := h
            exact absurd m3 (k2 e (hW.names _ _ _ m2 k1))
          | plain m1 _ _ _ =>
            simp at h
            exact absurd k1 (h.1 ▸ m1 r .refl)
        | plain k1 k2 =>
          cases k' with
          | qualified m1 m2 m3 =>
            simp at h
            exact absurd m2 (h.1 ▸ k1 _ m1)
          | plain m1 m2 m3 m4 =>
            simp at h
            obtain ⟨rfl, rfl⟩ := h
            exact absurd (.plain m1 m2 m3 m4) (k2 e)
    · have hno : ∀ e ds rest', c :: cs = ds ++ rest' → ¬ Spec.ExternIn W r ds e := fun e ds rest' h k =>
        hf ⟨e, rest', (findOrCreate_found hW hd hr _ _ _ _).2 ⟨ds, h, k⟩⟩
      simp only [findOrCreate] at hf ⊢
      obtain ⟨o, ho, hq⟩ := findChildRepo_spec hW hr c
      rw [ho, Option.bind_some] at hf ⊢
      cases o with
      | some q =>
        obtain ⟨hrq, hc⟩ := (hq q).1 rfl
        cases cs with
        | nil =>
          constructor
          · intro k; simp at k
          · rintro ⟨ds, h, k⟩
            cases k with
            | qualified _ _ => simp at h
            | plain k1 _ =>
              simp at h
              exact absurd hc (h.1 ▸ k1 q hrq)
        | cons m more =>
          simp only at hf ⊢
          cases ht : externImm W q m with
          | some s => rw [ht] at hf; exact absurd ⟨s, more, rfl⟩ hf
          | none =>
            simp only
            by_cases hqr : q = r
            · subst hqr
              rw [if_pos (by simp)]
              simp only [Option.some.injEq, Prod.mk.injEq, Found.create.injEq]
              constructor
              · rintro ⟨rfl, rfl⟩
                refine ⟨[c, m], rfl, .qualified hc fun e h1 h2 => ?_⟩
                exact (externImm_ne _ _).2 ⟨e, h1, h2⟩ ht
              · rintro ⟨ds, h, k⟩
                cases k with
                | qualified k1 k2 => simp at h; exact ⟨h.2.1, h.2.2⟩
                | plain k1 _ =>
                  simp at h
                  exact absurd hc (h.1 ▸ k1 q hrq)
            · rw [if_neg (fun h => hqr h.1)]
              constructor
              · intro k; simp at k
              · rintro ⟨ds, h, k⟩
                cases k with
                | qualified k1 k2 =>
                  simp at h
                  exact absurd (hW.names _ _ _ hc (h.1 ▸ k1)) hqr
                | plain k1 _ =>
                  simp at h
                  exact absurd hc (h.1 ▸ k1 q hrq)
      | none =>
        have hn : ∀ p, Spec.Reach W r p → ¬ Spec.Called W p c := by
          intro p h1 h2
          have := (hq p).2 ⟨h1, h2⟩
          cases this
        simp only at hf ⊢
        rcases hx : externRecursive W r c with _ | _ | e
        · obtain ⟨o, ho, _⟩ := recursive_spec hW hr (fun q => externImm W q c)
          unfold externRecursive at hx
          rw [ho] at hx
          cases hx
        · rw [Option.bind_some]
          simp only [if_true, Option.some.injEq, Prod.mk.injEq, Found.create.injEq]
          constructor
          · rintro ⟨rfl, rfl⟩
            exact ⟨[c], rfl, .plain hn fun e => hno e [c] cs rfl⟩
          · rintro ⟨ds, h, k⟩
            cases k with
            | qualified k1 k2 =>
              simp at h
              exact absurd k1 (h.1 ▸ hn r .refl)
            | plain k1 _ => simp at h; exact h
        · rw [hx] at hf
          exact absurd ⟨e, cs, rfl⟩ hf

/-- **C83.** Adding a provider succeeds exactly if the name of the provider contains no dot and the name
of the extern means an extern in the repo — then the provider is for this extern — or one that does not
exist — then the extern is new.  Nothing else is changed. -/
theorem C83_add_provider {W : Registry} (hW : Spec.Good W) (hd : Spec.ExternsDiffer W) {r : Nat} {R : Repo}
    (hr : W[r]? = some R) (text n : Name) (V : Registry) :
    addProvider W r text n = some (.ok V) ↔ (46 : Byte) ∉ n ∧ ∃ cs, Spec.Text cs text ∧
      ((∃ e, Spec.ExternIn W r cs e ∧ V = W.set r { R with providers := R.providers ++ [⟨e, n⟩] }) ∨
       (∃ en, Spec.NewIn W r cs en ∧ V = W.set r { R with
          externs := R.externs ++ [en], providers := R.providers ++ [⟨(r, R.externs.length), n⟩] })) := by
  have hlt := (List.getElem?_eq_some_iff.1 hr).1
  unfold addProvider
  rcases text_or text with ⟨c, cs, h⟩ | h
  · rw [(splitName_iff text (c :: cs) []).2 ⟨rfl, h⟩]
    simp only
    rw [hr]
    have found := findOrCreate_found hW hd hlt (c :: cs)
    have create := findOrCreate_create hW hd hlt (c :: cs)
    -- every reading determines the outcome of the search
    have back : (∃ ds, Spec.Text ds text ∧
        ((∃ e, Spec.ExternIn W r ds e ∧ V = W.set r { R with providers := R.providers ++ [⟨e, n⟩] }) ∨
         (∃ en, Spec.NewIn W r ds en ∧ V = W.set r { R with
            externs := R.externs ++ [en], providers := R.providers ++ [⟨(r, R.externs.length), n⟩] }))) →
        (∃ e, findOrCreate W r (c :: cs) true = some (.found e, []) ∧
          V = W.set r { R with providers := R.providers ++ [⟨e, n⟩] }) ∨
        (∃ en, findOrCreate W r (c :: cs) true = some (.create en, []) ∧ V = W.set r { R with
          externs := R.externs ++ [en], providers := R.providers ++ [⟨(r, R.externs.length), n⟩] }) := by
      rintro ⟨ds, hds, ⟨e, k, rfl⟩ | ⟨en, k, rfl⟩⟩
      · exact .inl ⟨e, (found [] true e).2 ⟨ds, by rw [text_unique h hds]; simp, k⟩, rfl⟩
      · exact .inr ⟨en, (create [] en).2 ⟨ds, by rw [text_unique h hds]; simp, k⟩, rfl⟩
    rcases hf : findOrCreate W r (c :: cs) true with _ | ⟨e | en | m, rest⟩
    · constructor
      · intro k; simp at k
      · rintro ⟨_, k⟩
        rcases back k with ⟨e, k, _⟩ | ⟨e, k, _⟩ <;> rw [hf] at k <;> simp at k
    · obtain ⟨ds, h1, h2⟩ := (found _ _ _).1 hf
      simp only
      constructor
      · intro k
        split at k
        · simp at k
        · rename_i hne
          simp only [not_or, ne_eq, Decidable.not_not] at hne
          simp only [Option.some.injEq, Out.ok.injEq] at k
          refine ⟨hne.2, ds, ?_, .inl ⟨e, h2, k.symm⟩⟩
          rw [hne.1, List.append_nil] at h1
          exact h1 ▸ h
      · rintro ⟨hdot, k⟩
        rcases back k with ⟨e', k, hV⟩ | ⟨e', k, hV⟩
        · rw [hf] at k
          simp at k
          obtain ⟨rfl, rfl⟩ := k
          rw [if_neg (by simp [hdot]), hV]
        · rw [hf] at k; simp at k
    · obtain ⟨ds, h1, h2⟩ := (create _ _).1 hf
      have hen : en ≠ [] := by
        rintro rfl
        have : ([] : Name) ∈ c :: cs := by
          rw [h1]
          cases h2 <;> simp
        exact h.2.1 [] this
      simp only
      rw [if_neg hen]
      constructor
      · intro k
        split at k
        · simp at k
        · rename_i hne
          simp only [not_or, ne_eq, Decidable.not_not] at hne
          simp only [Option.some.injEq, Out.ok.injEq] at k
          refine ⟨hne.2, ds, ?_, .inr ⟨en, h2, k.symm⟩⟩
          rw [hne.1, List.append_nil] at h1
          exact h1 ▸ h
      · rintro ⟨hdot, k⟩
        rcases back k with ⟨e', k, hV⟩ | ⟨e', k, hV⟩
        · rw [hf] at k; simp at k
        · rw [hf] at k
          simp at k
          obtain ⟨rfl, rfl⟩ := k
          rw [if_neg (by simp [hdot]), hV]
    · constructor
      · intro k; simp at k
      · rintro ⟨_, k⟩
        rcases back k with ⟨e, k, _⟩ | ⟨e, k, _⟩ <;> rw [hf] at k <;> simp at k
  · rw [(splitName_none text [.invalid]).2 ⟨rfl, h⟩]
    constructor
    · intro k; simp at k
    · rintro ⟨_, cs, k, _⟩; exact absurd k (h cs)

example : addProvider demo 1 [122, 122] [115] = some (.ok (demo.set 1
      ⟨[98, 98], [[121], [109]], [[119, 119]], [⟨(0, 0), [113]⟩, ⟨(1, 0), [112]⟩, ⟨(0, 0), [115]⟩], [0]⟩)) ∧
    addProvider demo 0 [117] [115] = some (.ok (demo.set 0
      ⟨[97, 97], [[120], [109]], [[122, 122], [117]], [⟨(0, 0), [112]⟩, ⟨(0, 1), [115]⟩], []⟩)) ∧
    addProvider demo 0 [98, 98, 46, 119] [115] = some .exit := by decide

/-- Two repos, the second of which depends on the first; the first has an extern `zz`. -/
def demoDup : Registry := [⟨[97, 97], [], [[122, 122]], [], []⟩, ⟨[98, 98], [], [], [], [0]⟩]

/-- **C83** fails if a repo and one that it depends on both have an extern of a name: the repo adds a
provider `p` for its own extern `bb.zz` and a provider `q` for `zz`.  The second is silently for a *further*
extern `zz` of the same repo, which no name leads to: `q` cannot be selected. -/
theorem C83_extern_twice : ∃ V1 V2, addProvider demoDup 1 [98, 98, 46, 122, 122] [112] = some (.ok V1) ∧
    addProvider V1 1 [122, 122] [113] = some (.ok V2) ∧ ¬ Spec.ExternsDiffer V2 ∧
    getExternProvider V2 [98, 98, 46, 122, 122, 46, 112] = some (some (1, 0), []) ∧
    Spec.Provides V2 (1, 1) (1, 1) [113] ∧
    getExternProvider V2 (fullProvider V2 1 ⟨(1, 1), [113]⟩) = some (none, [.cantFind]) := by
  refine ⟨demoDup.set 1 ⟨[98, 98], [], [[122, 122]], [⟨(1, 0), [112]⟩], [0]⟩,
    demoDup.set 1 ⟨[98, 98], [], [[122, 122], [122, 122]], [⟨(1, 0), [112]⟩, ⟨(1, 1), [113]⟩], [0]⟩,
    by decide, by decide, ?_, by decide, ⟨_, rfl, rfl⟩, by decide⟩
  intro h
  have := h (1, 0) (1, 1) [122, 122] ⟨_, rfl, rfl⟩ ⟨_, rfl, rfl⟩ rfl
  simp at this

/-- **C83.** Otherwise no repo gets two externs of the same name: adding a provider keeps the externs of a
repo apart unless the name is unqualified, the repo has an extern of this name and another repo that it
depends on has one, too. -/
theorem C83_add_keeps {W : Registry} (hW : Spec.Good W) (hd : Spec.ExternsDiffer W) {r : Nat} {R : Repo}
    (hr : W[r]? = some R) (text n : Name) (V : Registry) (h : addProvider W r text n = some (.ok V)) :
    Spec.ExternsDiffer V ∨ ∃ i j : Ext, Spec.Extern W i text ∧ i.1 = r ∧ Spec.Extern W j text ∧
      j.1 ≠ r ∧ Spec.Reach W r j.1 := by
  have hlt := (List.getElem?_eq_some_iff.1 hr).1
  obtain ⟨hdot, cs, ht, k⟩ := (C83_add_provider hW hd hr text n V).1 h
  rcases k with ⟨e, k, rfl⟩ | ⟨en, k, rfl⟩
  · refine .inl ?_
    have same : ∀ (d : Ext) m, Spec.Extern (W.set r { R with providers := R.providers ++ [⟨e, n⟩] }) d m →
        Spec.Extern W d m := by
      rintro d m ⟨S, hS, hm⟩
      rw [List.getElem?_set] at hS
      by_cases hq : r = d.1
      · rw [if_pos hq, if_pos hlt] at hS
        cases hS
        exact ⟨R, hq ▸ hr, hm⟩
      · rw [if_neg hq] at hS
        exact ⟨S, hS, hm⟩
    intro a b m ha hb
    exact hd a b m (same a m ha) (same b m hb)
  · have split : ∀ (e : Ext) m, Spec.Extern (W.set r { R with
          externs := R.externs ++ [en], providers := R.providers ++ [⟨(r, R.externs.length), n⟩] }) e m →
        Spec.Extern W e m ∨ (e = (r, R.externs.length) ∧ m = en) := by
      rintro e m ⟨S, hS, hm⟩
      rw [List.getElem?_set] at hS
      by_cases hq : r = e.1
      · rw [if_pos hq, if_pos hlt] at hS
        cases hS
        simp only at hm
        by_cases hi : e.2 < R.externs.length
        · rw [List.getElem?_append_left hi] at hm
          exact .inl ⟨R, hq ▸ hr, hm⟩
        · rw [List.getElem?_append_right (by omega)] at hm
          have h0 : e.2 - R.externs.length = 0 := by
            cases hz : e.2 - R.externs.length with
            | zero => rfl
            | succ z => rw [hz] at hm; simp at hm
          rw [h0] at hm
          simp at hm
          exact .inr ⟨Prod.ext hq.symm (by simp; omega), hm.symm⟩
      · rw [if_neg hq] at hS
        exact .inl ⟨S, hS, hm⟩
    by_cases own : ∃ i : Ext, i.1 = r ∧ Spec.Extern W i en
    · obtain ⟨i, hi, hi2⟩ := own
      cases k with
      | qualified k1 k2 => exact absurd hi2 (k2 i hi)
      | plain k1 k2 =>
        have hte := ht.2.2
        simp only [Spec.join] at hte
        subst hte
        refine .inr ⟨i, ?_⟩
        by_cases hj : ∃ j : Ext, Spec.Extern W j text ∧ j.1 ≠ r ∧ Spec.Reach W r j.1
        · obtain ⟨j, hj⟩ := hj
          exact ⟨j, hi2, hi, hj⟩
        · exfalso
          refine k2 i (.plain k1 (hi ▸ .refl) hi2 fun f hf1 hf2 => hd f i text hf2 hi2 ?_)
          by_cases hfr : f.1 = r
          · rw [hfr, hi]
          · exact absurd ⟨f, hf2, hfr, hf1⟩ hj
    · refine .inl ?_
      intro a b m ha hb hab
      rcases split a m ha with ha' | ⟨ea, hm⟩ <;> rcases split b m hb with hb' | ⟨eb, hm'⟩
      · exact hd a b m ha' hb' hab
      · exact absurd ⟨a, by rw [hab, eb], hm' ▸ ha'⟩ own
      · exact absurd ⟨b, by rw [← hab, ea], hm ▸ hb'⟩ own
      · rw [ea, eb]

example : ∃ V, addProvider demo 0 [117] [115] = some (.ok V) ∧ Spec.ExternsDiffer V :=
  ⟨demo.set 0 ⟨[97, 97], [[120], [109]], [[122, 122], [117]], [⟨(0, 0), [112]⟩, ⟨(0, 1), [115]⟩], []⟩,
    by decide, externsDiffer_of (by decide)⟩

end Verif.Names
