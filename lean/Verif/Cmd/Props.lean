import Verif.Cmd.LemmasMain
/-!
# C88 — the command line of plytool: property theorems
-/
namespace Verif.Cmd
open Verif

theorem words_plain {args : List Word} (h : Solid args) : Plain (words args) := by
  intro w hw
  unfold words at hw
  rw [List.mem_filter] at hw
  refine ⟨?_, by simpa using hw.2⟩
  rintro rfl
  exact h hw.1

/-- **C88** — if no argument is empty, the outcome depends only on the words, in their order, and on the options, in
theirs: options may be written anywhere. -/
theorem C88_order {hf : Bool} {args args' : List Word} (h : Solid args) (h' : Solid args')
    (hw : words args = words args') (ho : options args = options args') : plytool hf args = plytool hf args' := by
  rw [plytool_flat h, plytool_flat h', hw, ho]

example : plytool true [word "--shared", word "ta", word "add", word "foo"] =
    plytool true [word "ta", word "add", word "foo", word "--shared"] :=
  C88_order (by decide) (by decide) (by decide) (by decide)

/-- **C88** — which command is carried out: exactly the one that the command line asks for.  Every word is the name or
an abbreviation of the name of the command, or what it is applied to, and every option is one of its options, given
once; nothing is left out and nothing is ignored.  And every command can be asked for in this way. -/
theorem C88_command_partial {hf : Bool} {args : List Word} (h : Solid args) (c : Command) :
    plytool hf args = .does c true ↔ c.Proper ∧ (c.needsFolder → hf = true) ∧ Asks args c := by
  rw [plytool_flat h]
  unfold flat Asks
  have hp := words_plain h
  constructor
  · intro hd
    split at hd
    · exact absurd hd finalize_usage
    rename_i w ws he
    rw [he] at hp ⊢
    rcases main_sound (fun x hx => hp x (List.mem_cons_of_mem _ hx)) hd with ⟨_, _, h3⟩ | ⟨_, h1, h2, h3, vs, h4, h5, h6⟩
    · cases h3
    · exact ⟨h1, h2, h3, w :: vs, by rw [h4]; rfl, h5, h6⟩
  · rintro ⟨h1, h2, h3, vs, h4, h5, h6⟩
    rw [h4]
    cases vs with
    | nil => cases c <;> exact h5.elim
    | cons w vs => exact main_complete h1 h2 ⟨h3, vs, rfl, h5, h6⟩

example : plytool false [word "ru", word "--nobuild", word "demo", word "--config=Debug", word "--shared", word "--add"] =
    .does (.run ⟨word "demo", word "Debug", true, false, true⟩ false) true := by
  refine (C88_command_partial (by decide) _).2 ⟨⟨by decide, by decide⟩, fun h => h.elim, Or.inl ?_, [word "ru"], by decide,
    ⟨⟨by decide, by decide⟩, trivial⟩, trivial⟩
  decide

/-- **C88** — the order of the options makes no difference to a command that is accepted. -/
theorem C88_options_order {hf : Bool} {args args' : List Word} (h : Solid args) (h' : Solid args')
    (hw : words args = words args') (ho : (options args').Perm (options args)) {c : Command}
    (hd : plytool hf args = .does c true) : plytool hf args' = .does c true := by
  obtain ⟨h1, h2, h3, h4⟩ := (C88_command_partial h c).1 hd
  refine (C88_command_partial h' c).2 ⟨h1, h2, ?_, by rwa [hw] at h4⟩
  rcases h3 with h3 | ⟨h3, h5⟩
  · exact Or.inl (ho.trans h3)
  · exact Or.inr ⟨h3, ho.trans h5⟩

example : plytool true [word "build", word "--add", word "--auto"] = .does (.build ⟨[], [], true, true, false⟩) true ∧
    plytool true [word "build", word "--auto", word "--add"] = .does (.build ⟨[], [], true, true, false⟩) true :=
  ⟨by decide, C88_options_order (args := [word "build", word "--add", word "--auto"]) (by decide) (by decide) (by decide)
    (by decide) (by decide)⟩

/-- **C88** — a command line asks for one command at most. -/
theorem C88_one {args : List Word} (h : Solid args) {c d : Command} (hc : c.Proper) (hd : d.Proper)
    (h1 : Asks args c) (h2 : Asks args d) : c = d := by
  have e1 := (C88_command_partial (hf := true) h c).2 ⟨hc, fun _ => rfl, h1⟩
  have e2 := (C88_command_partial (hf := true) h d).2 ⟨hd, fun _ => rfl, h2⟩
  rw [e1] at e2
  cases e2
  rfl

example : Asks [word "extern", word "inf", word "zlib"] (.externInfo (word "zlib")) :=
  ((C88_command_partial (hf := true) (by decide) _).1 (by decide)).2.2

/-- **C88** — an option that no command knows is never passed over. -/
theorem C88_unknown_option {hf : Bool} {args : List Word} (h : Solid args) {o : Word} (ho : o ∈ options args)
    (hk : o ∉ [word "--shared", word "--install", word "--add", word "--auto", word "--nobuild"])
    (hc : ¬ word "--config=" <+: o) (c : Command) : plytool hf args ≠ .does c true := by
  intro hd
  obtain ⟨-, -, h3, -⟩ := (C88_command_partial h c).1 hd
  have hcfg : ∀ {g : Word}, o ∈ configOption g → False := by
    intro g hg
    unfold configOption at hg
    split at hg
    · cases hg
    · rw [List.mem_singleton] at hg
      exact hc ⟨g, hg.symm⟩
  have hb : ∀ {p : BuildParams}, o ∈ p.options → False := by
    intro p hp
    unfold BuildParams.options at hp
    simp only [List.mem_append] at hp
    rcases hp with ((hp | hp) | hp) | hp
    · exact hcfg hp
    · exact hk (by rw [given_mem hp]; simp)
    · exact hk (by rw [given_mem hp]; simp)
    · exact hk (by rw [given_mem hp]; simp)
  have hm : o ∉ c.options := by
    intro hm
    unfold Command.options at hm
    split at hm
    · exact hk (by rw [given_mem hm]; simp)
    · exact hk (by rw [given_mem hm]; simp)
    · exact hcfg hm
    · exact hb hm
    · rcases List.mem_append.1 hm with hm | hm
      · exact hb hm
      · exact hk (by rw [given_mem hm]; simp)
    · cases hm
  rcases h3 with h3 | ⟨-, h3⟩
  · exact hm (h3.mem_iff.1 ho)
  · rcases List.mem_cons.1 (h3.mem_iff.1 ho) with rfl | ho'
    · exact hc (List.prefix_refl _)
    · exact hm ho'

example : plytool true [word "build", word "--verbose"] ≠ .does (.build ⟨[], [], false, false, false⟩) true :=
  C88_unknown_option (by decide) (o := word "--verbose") (by decide) (by decide) (by decide) _

/-- **C88** — an option that is given twice is never passed over either. -/
theorem C88_option_twice {hf : Bool} {args : List Word} (h : Solid args) {o : Word} (ho : 2 ≤ (options args).count o)
    (c : Command) : plytool hf args ≠ .does c true := by
  intro hd
  obtain ⟨-, -, h3, -⟩ := (C88_command_partial h c).1 hd
  have hg : ∀ (b : Bool) (f : Word), (given b f).count o ≤ if f = o then 1 else 0 := by
    intro b f
    cases b <;> simp [given, List.count_cons, List.count_nil]
  have hc : ∀ (g : Word), (configOption g).count o ≤ if word "--config=" <+: o ∧ o ≠ word "--config=" then 1 else 0 := by
    intro g
    unfold configOption
    split
    · simp
    · rename_i hne
      by_cases he : word "--config=" ++ g = o
      · rw [if_pos ⟨⟨g, he⟩, by
          rintro rfl
          exact hne (List.append_right_eq_self.1 he)⟩]
        simp [List.count_cons]
        split <;> omega
      · rw [List.count_eq_zero_of_not_mem (by simpa using fun hh => he hh.symm)]
        omega
  have hb : ∀ p : BuildParams, p.options.count o ≤
      (if word "--config=" <+: o ∧ o ≠ word "--config=" then 1 else 0) + (if word "--add" = o then 1 else 0) +
      (if word "--auto" = o then 1 else 0) + (if word "--shared" = o then 1 else 0) := by
    intro p
    unfold BuildParams.options
    simp only [List.count_append]
    have h1 := hc p.configName
    have h2 := hg p.doAdd (word "--add")
    have h3 := hg p.doAuto (word "--auto")
    have h4 := hg p.makeShared (word "--shared")
    omega
  have hr : (if word "--config=" <+: o ∧ o ≠ word "--config=" then 1 else 0) + (if word "--add" = o then 1 else 0) +
      (if word "--auto" = o then 1 else 0) + (if word "--shared" = o then 1 else 0) +
      (if word "--nobuild" = o then 1 else 0) + (if word "--config=" = o then 1 else 0) ≤ 1 := by
    by_cases e1 : word "--add" = o
    · subst e1; decide
    by_cases e2 : word "--auto" = o
    · subst e2; decide
    by_cases e3 : word "--shared" = o
    · subst e3; decide
    by_cases e4 : word "--nobuild" = o
    · subst e4; decide
    by_cases e5 : word "--config=" = o
    · subst e5; decide
    simp only [e1, e2, e3, e4, e5, if_false]
    split <;> omega
  have hall : c.options.count o ≤ 1 ∧ (c.noConfig → word "--config=" = o → c.options.count o = 0) := by
    unfold Command.options
    split
    · rename_i n s
      have := hg s (word "--shared")
      exact ⟨by split at this <;> omega, fun hh => hh.elim⟩
    · rename_i n s
      have := hg s (word "--install")
      exact ⟨by split at this <;> omega, fun hh => hh.elim⟩
    · rename_i g
      have h1 := hc g
      refine ⟨by omega, fun _ he => ?_⟩
      rw [if_pos he] at hr
      omega
    · rename_i p
      have h1 := hb p
      refine ⟨by omega, fun _ he => ?_⟩
      rw [if_pos he] at hr
      omega
    · rename_i p d
      have h1 := hb p
      have h3 := hg (!d) (word "--nobuild")
      rw [List.count_append]
      refine ⟨by omega, fun _ he => ?_⟩
      rw [if_pos he] at hr
      omega
    · rw [List.count_nil]
      exact ⟨by omega, fun _ _ => rfl⟩
  rcases h3 with h3 | ⟨hn, h3⟩
  · rw [h3.count_eq] at ho
    omega
  · rw [h3.count_eq, List.count_cons] at ho
    by_cases he : word "--config=" = o
    · have := hall.2 hn he
      split at ho <;> omega
    · rw [if_neg (by simpa using he)] at ho
      omega

example : plytool true [word "build", word "--add", word "demo", word "--add"] ≠
    .does (.build ⟨word "demo", [], true, false, false⟩) true :=
  C88_option_twice (by decide) (o := word "--add") (by decide) _

/-- **C88** — two letters of the name of a command are enough, and mean the same as the whole name. -/
theorem C88_abbreviation {hf : Bool} {w name : Word} {args : List Word} (h : Solid args)
    (hn : name ∈ [word "folder", word "target", word "module", word "extern", word "generate", word "build", word "run",
      word "open", word "codegen", word "bootstrap", word "cleanup"])
    (hw : Abbrev w name) : plytool hf (w :: args) = plytool hf (name :: args) := by
  have hne : ∀ {v : Word}, Abbrev v name → ¬ IsOpt v ∧ v ≠ [] := by
    intro v ⟨h1, h2⟩
    have hname : ¬ IsOpt name := by
      simp only [List.mem_cons, List.not_mem_nil, or_false] at hn
      rcases hn with rfl | rfl | rfl | rfl | rfl | rfl | rfl | rfl | rfl | rfl | rfl <;> decide
    cases v with
    | nil => simp at h1
    | cons x v =>
      obtain ⟨t, rfl⟩ := h2
      exact ⟨hname, by simp⟩
  have hfull : Abbrev name name := by
    refine ⟨?_, List.prefix_refl _⟩
    have := hw.2.length_le
    have := hw.1
    omega
  have key : ∀ {v : Word}, Abbrev v name → plytool hf (v :: args) = flatMain hf v (words args) (options args) := by
    intro v hv
    obtain ⟨h1, h2⟩ := hne hv
    rw [plytool_flat (by
      intro hm
      rcases List.mem_cons.1 hm with hm | hm
      · exact h2 hm.symm
      · exact h hm)]
    have e1 : words (v :: args) = v :: words args := by
      unfold words
      rw [List.filter_cons_of_pos (by simpa using h1)]
    have e2 : options (v :: args) = options args := by
      unfold options
      rw [List.filter_cons_of_neg (by simpa using h1)]
    rw [e1, e2]
    rfl
  rw [key hw, key hfull]
  simp only [List.mem_cons, List.not_mem_nil, or_false] at hn
  rcases hn with rfl | rfl | rfl | rfl | rfl | rfl | rfl | rfl | rfl | rfl | rfl
  · rw [main_folder hw, main_folder hfull]
  · rw [main_target hw, main_target hfull]
  · rw [main_module hw, main_module hfull]
  · rw [main_extern hw, main_extern hfull]
  · rw [main_generate hw, main_generate hfull]
  · rw [main_build hw, main_build hfull]
  · rw [main_run hw, main_run hfull]
  · rw [main_open hw, main_open hfull]
  · rw [main_codegen hw, main_codegen hfull]
  · rw [main_bootstrap hw, main_bootstrap hfull]
  · rw [main_cleanup hw, main_cleanup hfull]

example : plytool true [word "bo"] = .does .bootstrap true :=
  (C88_abbreviation (name := word "bootstrap") (by decide) (by decide) ⟨by decide, by decide⟩).trans (by decide)

/-- **C88** — a single letter is not enough. -/
theorem C88_one_letter {hf : Bool} {w : Word} {args : List Word} (h : w.length = 1) (hw : ¬ IsOpt w) :
    plytool hf (w :: args) = .fatal (.unrecognizedCommand w) := by
  have hp : ∀ name, prefixMatch w name = false := fun name => by unfold prefixMatch; rw [if_pos (by omega)]
  have h1 : w ≠ [] := by rintro rfl; cases h
  have h2 : w ≠ word "rpc" := by rintro rfl; cases h
  have h3 : readToken (w :: args) [] = (w, ⟨args, []⟩) := by
    unfold readToken
    rw [if_neg (fun hh => hw ((dash_iff w).1 hh))]
  unfold plytool
  rw [h3]
  simp [h1, h2, hp]

example : plytool true [word "b", word "demo"] = .fatal (.unrecognizedCommand (word "b")) :=
  C88_one_letter (by decide) (by decide)

/-- **C88** — where two names within `extern` begin alike the earlier one is taken, without a word of warning: `in`
means `info`, never `install`. -/
theorem C88_ambiguous (n : Word) (hn : n ≠ []) (ho : ¬ IsOpt n) :
    Abbrev (word "in") (word "install") ∧ Abbrev (word "in") (word "info") ∧
    plytool true [word "extern", word "in", n] = .does (.externInfo n) true := by
  refine ⟨⟨by decide, by decide⟩, ⟨by decide, by decide⟩, (C88_command_partial ?_ _).2
    ⟨⟨hn, ho⟩, fun _ => rfl, Or.inl ?_, [word "extern", word "in"], ?_,
      ⟨⟨by decide, by decide⟩, ⟨by decide, by decide⟩, trivial⟩, trivial⟩⟩
  · unfold Solid
    simp [word, hn.symm]
  · unfold options
    have h1 : ¬ IsOpt (word "extern") := by decide
    have h2 : ¬ IsOpt (word "in") := by decide
    simp [h1, h2, ho, Command.options]
  · unfold words
    have h1 : ¬ IsOpt (word "extern") := by decide
    have h2 : ¬ IsOpt (word "in") := by decide
    simp [h1, h2, ho, Command.operands]

example : plytool true [word "extern", word "in", word "zlib"] = .does (.externInfo (word "zlib")) true :=
  (C88_ambiguous _ (by decide) (by decide)).2.2

/-- **C88** — without any word there is only the overview; an option then is reported. -/
theorem C88_no_words {hf : Bool} {args : List Word} (h : words args = []) :
    plytool hf args = match args with
      | [] => .usage []
      | o :: _ => .fatal (.unrecognizedOption o) := by
  have hr := read_nil args [] h
  unfold plytool
  rw [hr]
  cases args with
  | nil => rfl
  | cons a args =>
    have ha : IsOpt a := by
      by_cases ha : IsOpt a
      · exact ha
      · unfold words at h
        rw [List.filter_cons_of_pos (by simpa using ha)] at h
        cases h
    simp [options, ha, finalize]

example : plytool true [word "--help"] = .fatal (.unrecognizedOption (word "--help")) := C88_no_words (by decide)

/-- **C88** — not so with an empty argument: it is taken for the end of the command line, and whatever follows it, words
and options alike, is ignored. -/
theorem C88_empty_ignores (hf : Bool) (n : Word) (hn : n ≠ []) (ho : ¬ IsOpt n) (rest : List Word) :
    plytool hf (word "cleanup" :: [] :: rest) = .does .cleanup true ∧
    plytool hf (word "folder" :: word "delete" :: n :: [] :: rest) = .does (.folderDelete n) true ∧
    plytool hf (word "build" :: n :: [] :: rest) = .does (.build ⟨n, [], false, false, false⟩) true ∧
    plytool hf ([] :: rest) = .usage [] := by
  have hd : Str.startsWith n (word "-") = false := by
    cases h : Str.startsWith n (word "-") with
    | false => rfl
    | true => exact absurd ((dash_iff n).1 h) ho
  have r1 : ∀ sk rest, readToken ([] :: rest) sk = ([], ⟨rest, sk⟩) := fun _ _ => rfl
  have rn : ∀ sk rest, readToken (n :: rest) sk = (n, ⟨rest, sk⟩) := by
    intro sk rest
    unfold readToken
    rw [hd]
    rfl
  refine ⟨rfl, ?_, ?_, rfl⟩
  · show named ⟨n :: [] :: rest, []⟩ (fun n cl => done cl (.does (.folderDelete n) true)) = _
    unfold named
    rw [rn]
    dsimp only
    rw [if_neg hn]
    rfl
  · show commandBuild ⟨n :: [] :: rest, []⟩ = _
    unfold commandBuild
    rw [rn]
    rfl

example : plytool true [word "build", word "demo", [], word "--config=Debug", word "junk"] =
    .does (.build ⟨word "demo", [], false, false, false⟩) true :=
  (C88_empty_ignores true _ (by decide) (by decide) _).2.2.1

/-- **C88** — and not so with `rpc`: the rest of the command line is never looked at, and the command line object is
destroyed without being finalized, which its destructor asserts. -/
theorem C88_rpc (hf : Bool) (args : List Word) : plytool hf (word "rpc" :: args) = .does .rpc false := rfl

example : plytool true [word "rpc", word "--bogus", word "x"] = .does .rpc false := C88_rpc _ _

/-- **C88** — every other command has finalized the command line. -/
theorem C88_finalized {hf : Bool} {args : List Word} (h : Solid args) {c : Command} {b : Bool}
    (hd : plytool hf args = .does c b) : b = true ∨ (c = .rpc ∧ (words args).head? = some (word "rpc")) := by
  rw [plytool_flat h] at hd
  have hp := words_plain h
  unfold flat at hd
  split at hd
  · exact absurd hd finalize_usage
  rename_i w ws he
  rw [he] at hp ⊢
  rcases main_sound (fun x hx => hp x (List.mem_cons_of_mem _ hx)) hd with ⟨h1, h2, _⟩ | ⟨h1, _⟩
  · exact Or.inr ⟨h1, by rw [h2]; rfl⟩
  · exact Or.inl h1

example : plytool true [word "open"] = .does .open true := by decide

/-- **C88** — `--shared` without `--add` or `--auto` is not understood by `build` and `run`, although `target add`
understands it alone. -/
theorem C88_shared_alone :
    plytool true [word "build", word "demo", word "--shared"] = .fatal (.unrecognizedOption (word "--shared")) ∧
    plytool true [word "run", word "demo", word "--shared"] = .fatal (.unrecognizedOption (word "--shared")) ∧
    plytool true [word "target", word "add", word "demo", word "--shared"] = .does (.targetAdd (word "demo") true) true := by
  decide

end Verif.Cmd
