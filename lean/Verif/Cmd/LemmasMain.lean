import Verif.Cmd.LemmasOpts
/-!
# The command line of plytool — which command is found
-/
namespace Verif.Cmd
open Verif

/-- What is left after the first word asks for the command. -/
def Rest (c : Command) (ws os : List Word) (first : Word) : Prop :=
  OptsFor c os ∧ ∃ vs, ws = vs ++ c.operands ∧ Stands (first :: vs) c.names ∧ Clear c (first :: vs)

theorem no_match {w a b : Word} (h : Abbrev w a) (hne : a.take 2 ≠ b.take 2) : prefixMatch w b = false := by
  cases hb : prefixMatch w b with
  | false => rfl
  | true =>
    have hb' := (prefix_iff _ _).1 hb
    obtain ⟨h1, t, rfl⟩ := h
    obtain ⟨_, u, rfl⟩ := hb'
    rw [List.take_append_of_le_length h1, List.take_append_of_le_length h1] at hne
    exact absurd rfl hne

theorem no_match' {w b : Word} (h : ¬ Abbrev w b) : prefixMatch w b = false := by
  cases hb : prefixMatch w b with
  | false => rfl
  | true => exact absurd ((prefix_iff _ _).1 hb) h

theorem opts_nil {os : List Word} (h : os.Perm []) : os = [] := h.eq_nil

/-- A word that can be the name of something. -/
def Plain (ws : List Word) : Prop := ∀ w ∈ ws, w ≠ [] ∧ ¬ IsOpt w

theorem rest_simple {c : Command} (ho : c.options = []) (hp : c.operands = []) {ws os : List Word} {first : Word}
    {vs : List Word} (h1 : ws = vs) (h2 : os = []) (h3 : Stands (first :: vs) c.names) (h4 : Clear c (first :: vs)) :
    Rest c ws os first := by
  subst h1 h2
  exact ⟨Or.inl (by rw [ho]), ws, by rw [hp, List.append_nil], h3, h4⟩

theorem rest_named {c : Command} {n : Word} (ho : c.options = []) (hp : c.operands = [n]) {ws os : List Word}
    {first w : Word} (h1 : ws = [w, n]) (h2 : os = []) (h3 : Stands [first, w] c.names) (h4 : Clear c [first, w]) :
    Rest c ws os first := by
  subst h1 h2
  exact ⟨Or.inl (by rw [ho]), [w], by rw [hp]; rfl, h3, h4⟩

theorem folder_sound {ws os : List Word} (hw : Plain ws) {c : Command} {b : Bool} {first : Word}
    (hf : Abbrev first (word "folder")) (h : flatFolder ws os = .does c b) :
    b = true ∧ c.Proper ∧ ¬ c.needsFolder ∧ Rest c ws os first := by
  unfold flatFolder at h
  split at h
  · exact absurd h finalize_usage
  rename_i w ws
  split at h
  · rename_i hm
    obtain ⟨rfl, rfl, rfl, rfl⟩ := fDone_does h
    exact ⟨rfl, trivial, not_false, rest_simple rfl rfl rfl rfl ⟨hf, (prefix_iff _ _).1 hm, trivial⟩ trivial⟩
  split at h
  · rename_i hm
    obtain ⟨n, ws', rfl, h⟩ := fNamed_does h
    obtain ⟨rfl, rfl, rfl, rfl⟩ := fDone_does h
    exact ⟨rfl, hw n (by simp), not_false, rest_named rfl rfl rfl rfl ⟨hf, (prefix_iff _ _).1 hm, trivial⟩ trivial⟩
  split at h
  · rename_i hm
    obtain ⟨n, ws', rfl, h⟩ := fNamed_does h
    obtain ⟨rfl, rfl, rfl, rfl⟩ := fDone_does h
    exact ⟨rfl, hw n (by simp), not_false, rest_named rfl rfl rfl rfl ⟨hf, (prefix_iff _ _).1 hm, trivial⟩ trivial⟩
  split at h
  · rename_i hm
    obtain ⟨n, ws', rfl, h⟩ := fNamed_does h
    obtain ⟨rfl, rfl, rfl, rfl⟩ := fDone_does h
    exact ⟨rfl, hw n (by simp), not_false, rest_named rfl rfl rfl rfl ⟨hf, (prefix_iff _ _).1 hm, trivial⟩ trivial⟩
  · cases h

theorem target_sound {hv : Bool} {ws os : List Word} (hw : Plain ws) {c : Command} {b : Bool} {first : Word}
    (hf : Abbrev first (word "target")) (h : flatTarget hv ws os = .does c b) :
    b = true ∧ c.Proper ∧ hv = true ∧ Rest c ws os first := by
  unfold flatTarget at h
  split at h
  · cases h
  rename_i hv'
  have hv' : hv = true := by simpa using hv'
  split at h
  · exact absurd h finalize_usage
  rename_i w ws
  split at h
  · rename_i hm
    obtain ⟨rfl, rfl, rfl, rfl⟩ := fDone_does h
    exact ⟨rfl, trivial, hv', rest_simple rfl rfl rfl rfl ⟨hf, (prefix_iff _ _).1 hm, trivial⟩ trivial⟩
  split at h
  · rename_i hm
    obtain ⟨n, ws', rfl, h'⟩ := fNamed_does h
    obtain ⟨rfl, h''⟩ := fTerm_does h'
    obtain ⟨hz, rfl, rfl⟩ := finalize_does h''
    have hp := flag_perm (f := word "--shared") (l := []) (by simp [word]) (os := os) (by rw [hz])
    rw [List.append_nil] at hp
    exact ⟨rfl, hw n (by simp), hv', Or.inl hp, [w], rfl, ⟨hf, (prefix_iff _ _).1 hm, trivial⟩, trivial⟩
  split at h
  · rename_i hm
    obtain ⟨n, ws', rfl, h⟩ := fNamed_does h
    obtain ⟨rfl, rfl, rfl, rfl⟩ := fDone_does h
    exact ⟨rfl, hw n (by simp), hv', rest_named rfl rfl rfl rfl ⟨hf, (prefix_iff _ _).1 hm, trivial⟩ trivial⟩
  split at h
  · rename_i hm
    obtain ⟨n, ws', rfl, h⟩ := fNamed_does h
    obtain ⟨rfl, rfl, rfl, rfl⟩ := fDone_does h
    exact ⟨rfl, hw n (by simp), hv', rest_named rfl rfl rfl rfl ⟨hf, (prefix_iff _ _).1 hm, trivial⟩ trivial⟩
  split at h
  · rename_i hm
    obtain ⟨rfl, rfl, rfl, rfl⟩ := fDone_does h
    exact ⟨rfl, trivial, hv', rest_simple rfl rfl rfl rfl ⟨hf, (prefix_iff _ _).1 hm, trivial⟩ trivial⟩
  · cases h

theorem module_sound {ws os : List Word} {c : Command} {b : Bool} {first : Word}
    (hf : Abbrev first (word "module")) (h : flatModule ws os = .does c b) :
    b = true ∧ c.Proper ∧ ¬ c.needsFolder ∧ Rest c ws os first := by
  unfold flatModule at h
  split at h
  · exact absurd h finalize_usage
  rename_i w ws
  split at h
  · rename_i hm
    obtain ⟨rfl, rfl, rfl, rfl⟩ := fDone_does h
    exact ⟨rfl, trivial, not_false, rest_simple rfl rfl rfl rfl ⟨hf, (prefix_iff _ _).1 hm, trivial⟩ trivial⟩
  split at h
  · rename_i hm
    obtain ⟨rfl, rfl, rfl, rfl⟩ := fDone_does h
    exact ⟨rfl, trivial, not_false, rest_simple rfl rfl rfl rfl ⟨hf, (prefix_iff _ _).1 hm, trivial⟩ trivial⟩
  · cases h

theorem extern_sound {hv : Bool} {ws os : List Word} (hw : Plain ws) {c : Command} {b : Bool} {first : Word}
    (hf : Abbrev first (word "extern")) (h : flatExtern hv ws os = .does c b) :
    b = true ∧ c.Proper ∧ hv = true ∧ Rest c ws os first := by
  unfold flatExtern at h
  split at h
  · cases h
  rename_i hv'
  have hv' : hv = true := by simpa using hv'
  split at h
  · exact absurd h finalize_usage
  rename_i w ws
  split at h
  · rename_i hm
    obtain ⟨rfl, rfl, rfl, rfl⟩ := fDone_does h
    exact ⟨rfl, trivial, hv', rest_simple rfl rfl rfl rfl ⟨hf, (prefix_iff _ _).1 hm, trivial⟩ trivial⟩
  split at h
  · rename_i hm
    obtain ⟨n, ws', rfl, h⟩ := fNamed_does h
    obtain ⟨rfl, rfl, rfl, rfl⟩ := fDone_does h
    exact ⟨rfl, hw n (by simp), hv', rest_named rfl rfl rfl rfl ⟨hf, (prefix_iff _ _).1 hm, trivial⟩ trivial⟩
  rename_i hinfo
  split at h
  · rename_i hm
    obtain ⟨n, ws', rfl, h'⟩ := fNamed_does h
    obtain ⟨rfl, h''⟩ := fTerm_does h'
    obtain ⟨hz, rfl, rfl⟩ := finalize_does h''
    have hp := flag_perm (f := word "--install") (l := []) (by simp [word]) (os := os) (by rw [hz])
    rw [List.append_nil] at hp
    exact ⟨rfl, hw n (by simp), hv', Or.inl hp, [w], rfl, ⟨hf, (prefix_iff _ _).1 hm, trivial⟩, trivial⟩
  rename_i hsel
  split at h
  · rename_i hm
    obtain ⟨rfl, rfl, rfl, rfl⟩ := fDone_does h
    exact ⟨rfl, trivial, hv', rest_simple rfl rfl rfl rfl ⟨hf, (prefix_iff _ _).1 hm, trivial⟩
      (fun ha => hsel ((prefix_iff _ _).2 ha))⟩
  split at h
  · rename_i hm
    obtain ⟨n, ws', rfl, h⟩ := fNamed_does h
    obtain ⟨rfl, rfl, rfl, rfl⟩ := fDone_does h
    exact ⟨rfl, hw n (by simp), hv', rest_named rfl rfl rfl rfl ⟨hf, (prefix_iff _ _).1 hm, trivial⟩
      (fun ha => hinfo ((prefix_iff _ _).2 ha))⟩
  · cases h

theorem generate_sound {hv : Bool} {ws os : List Word} {c : Command} {b : Bool} {first : Word}
    (hf : Abbrev first (word "generate")) (h : flatGenerate hv ws os = .does c b) :
    b = true ∧ c.Proper ∧ hv = true ∧ Rest c ws os first := by
  unfold flatGenerate at h
  split at h
  · cases h
  rename_i hv'
  have hv' : hv = true := by simpa using hv'
  obtain ⟨rfl, h'⟩ := fTerm_does h
  obtain ⟨hz, rfl, rfl⟩ := finalize_does h'
  have hp := config_perm (l := []) (os := os) (by rw [hz])
  rw [List.append_nil] at hp
  refine ⟨rfl, trivial, hv', ?_, [], rfl, ⟨hf, trivial⟩, trivial⟩
  rcases hp with hp | ⟨h1, hp⟩
  · exact Or.inl hp
  · refine Or.inr ⟨h1, ?_⟩
    rw [show (Command.generate (takeConfig os).1).options = [] by simp [Command.options, configOption, h1]]
    exact hp

theorem operand_words {ws : List Word} (hw : Plain ws) (h : ws.drop 1 = []) :
    ws = (if ws.headD [] = [] then [] else [ws.headD []]) ∧ ¬ IsOpt (ws.headD []) := by
  cases ws with
  | nil => exact ⟨rfl, by decide⟩
  | cons w ws =>
    simp only [List.drop_succ_cons, List.drop_zero] at h
    subst h
    have := hw w (by simp)
    refine ⟨?_, this.2⟩
    simp [this.1]

theorem build_sound {ws os : List Word} (hw : Plain ws) {c : Command} {b : Bool} {first : Word}
    (hf : Abbrev first (word "build")) (h : flatBuild ws os = .does c b) :
    b = true ∧ c.Proper ∧ ¬ c.needsFolder ∧ Rest c ws os first := by
  unfold flatBuild at h
  obtain ⟨hd, h'⟩ := fTerm_does h
  obtain ⟨hz, rfl, rfl⟩ := finalize_does h'
  obtain ⟨hp, ht, hs⟩ := extract_perm (t := ws.headD []) (l := []) (os := os) (by rw [hz])
  rw [List.append_nil] at hp
  obtain ⟨h1, h2⟩ := operand_words hw hd
  refine ⟨rfl, ⟨by rw [ht]; exact h2, hs⟩, not_false, ?_, [], ?_, ⟨hf, trivial⟩, trivial⟩
  · rcases hp with hp | hp
    · exact Or.inl hp
    · exact Or.inr hp
  · unfold Command.operands
    dsimp only
    rw [ht]
    exact h1

theorem run_sound {ws os : List Word} (hw : Plain ws) {c : Command} {b : Bool} {first : Word}
    (hf : Abbrev first (word "run")) (h : flatRun ws os = .does c b) :
    b = true ∧ c.Proper ∧ ¬ c.needsFolder ∧ Rest c ws os first := by
  unfold flatRun at h
  obtain ⟨hd, h'⟩ := fTerm_does h
  obtain ⟨hz, rfl, rfl⟩ := finalize_does h'
  have hn := flag_perm (f := word "--nobuild") (l := []) (os := (extractOptions (ws.headD []) os).2) (by simp [word])
    (by rw [hz])
  rw [List.append_nil] at hn
  obtain ⟨hp, ht, hs⟩ := extract_perm (t := ws.headD []) (os := os) hn
  obtain ⟨h1, h2⟩ := operand_words hw hd
  refine ⟨rfl, ⟨by rw [ht]; exact h2, hs⟩, not_false, ?_, [], ?_, ⟨hf, trivial⟩, trivial⟩
  · unfold OptsFor Command.options
    dsimp only
    rw [Bool.not_not]
    rcases hp with hp | hp
    · exact Or.inl hp
    · exact Or.inr hp
  · unfold Command.operands
    dsimp only
    rw [ht]
    exact h1

theorem main_sound {hv : Bool} {w : Word} {ws os : List Word} (hw : Plain ws) {c : Command} {b : Bool}
    (h : flatMain hv w ws os = .does c b) :
    (c = .rpc ∧ w = word "rpc" ∧ b = false) ∨ (b = true ∧ c.Proper ∧ (c.needsFolder → hv = true) ∧ Rest c ws os w) := by
  unfold flatMain at h
  by_cases hm : w = word "rpc"
  · rw [if_pos hm] at h
    cases h
    exact Or.inl ⟨rfl, hm, rfl⟩
  rw [if_neg hm] at h
  clear hm
  right
  by_cases hm : prefixMatch w (word "folder") = true
  · rw [if_pos hm] at h
    obtain ⟨h1, h2, h3, h4⟩ := folder_sound hw ((prefix_iff _ _).1 hm) h
    exact ⟨h1, h2, fun hn => absurd hn h3, h4⟩
  rw [if_neg hm] at h
  clear hm
  by_cases hm : prefixMatch w (word "target") = true
  · rw [if_pos hm] at h
    obtain ⟨h1, h2, h3, h4⟩ := target_sound hw ((prefix_iff _ _).1 hm) h
    exact ⟨h1, h2, fun _ => h3, h4⟩
  rw [if_neg hm] at h
  clear hm
  by_cases hm : prefixMatch w (word "module") = true
  · rw [if_pos hm] at h
    obtain ⟨h1, h2, h3, h4⟩ := module_sound ((prefix_iff _ _).1 hm) h
    exact ⟨h1, h2, fun hn => absurd hn h3, h4⟩
  rw [if_neg hm] at h
  clear hm
  by_cases hm : prefixMatch w (word "extern") = true
  · rw [if_pos hm] at h
    obtain ⟨h1, h2, h3, h4⟩ := extern_sound hw ((prefix_iff _ _).1 hm) h
    exact ⟨h1, h2, fun _ => h3, h4⟩
  rw [if_neg hm] at h
  clear hm
  by_cases hm : prefixMatch w (word "generate") = true
  · rw [if_pos hm] at h
    obtain ⟨h1, h2, h3, h4⟩ := generate_sound ((prefix_iff _ _).1 hm) h
    exact ⟨h1, h2, fun _ => h3, h4⟩
  rw [if_neg hm] at h
  clear hm
  by_cases hm : prefixMatch w (word "build") = true
  · rw [if_pos hm] at h
    obtain ⟨h1, h2, h3, h4⟩ := build_sound hw ((prefix_iff _ _).1 hm) h
    exact ⟨h1, h2, fun hn => absurd hn h3, h4⟩
  rw [if_neg hm] at h
  clear hm
  by_cases hm : prefixMatch w (word "run") = true
  · rw [if_pos hm] at h
    obtain ⟨h1, h2, h3, h4⟩ := run_sound hw ((prefix_iff _ _).1 hm) h
    exact ⟨h1, h2, fun hn => absurd hn h3, h4⟩
  rw [if_neg hm] at h
  clear hm
  by_cases hm : prefixMatch w (word "open") = true
  · rw [if_pos hm] at h
    obtain ⟨rfl, rfl, rfl, rfl⟩ := fDone_does h
    exact ⟨rfl, trivial, fun hn => hn.elim, rest_simple rfl rfl rfl rfl ⟨(prefix_iff _ _).1 hm, trivial⟩ trivial⟩
  rw [if_neg hm] at h
  clear hm
  by_cases hm : prefixMatch w (word "codegen") = true
  · rw [if_pos hm] at h
    obtain ⟨rfl, rfl, rfl, rfl⟩ := fDone_does h
    exact ⟨rfl, trivial, fun hn => hn.elim, rest_simple rfl rfl rfl rfl ⟨(prefix_iff _ _).1 hm, trivial⟩ trivial⟩
  rw [if_neg hm] at h
  clear hm
  by_cases hm : prefixMatch w (word "bootstrap") = true
  · rw [if_pos hm] at h
    obtain ⟨rfl, rfl, rfl, rfl⟩ := fDone_does h
    exact ⟨rfl, trivial, fun hn => hn.elim, rest_simple rfl rfl rfl rfl ⟨(prefix_iff _ _).1 hm, trivial⟩ trivial⟩
  rw [if_neg hm] at h
  clear hm
  by_cases hm : prefixMatch w (word "cleanup") = true
  · rw [if_pos hm] at h
    obtain ⟨rfl, rfl, rfl, rfl⟩ := fDone_does h
    exact ⟨rfl, trivial, fun hn => hn.elim, rest_simple rfl rfl rfl rfl ⟨(prefix_iff _ _).1 hm, trivial⟩ trivial⟩
  rw [if_neg hm] at h
  clear hm
  cases h

/-! ## The other way round -/

theorem not_rpc {w a : Word} (h : Abbrev w a) (hne : a.take 2 ≠ (word "rpc").take 2) : w ≠ word "rpc" := by
  rintro rfl
  have := no_match (b := word "rpc") h hne
  revert this
  decide

theorem yes_match {w a : Word} (h : Abbrev w a) : prefixMatch w a = true := (prefix_iff _ _).2 h

/-- The first word leads to its command. -/
theorem main_folder {hv : Bool} {w : Word} {ws os : List Word} (h : Abbrev w (word "folder")) :
    flatMain hv w ws os = flatFolder ws os := by
  unfold flatMain
  rw [if_neg (not_rpc h (by decide)), yes_match h]
  rfl

theorem main_target {hv : Bool} {w : Word} {ws os : List Word} (h : Abbrev w (word "target")) :
    flatMain hv w ws os = flatTarget hv ws os := by
  unfold flatMain
  rw [if_neg (not_rpc h (by decide)), yes_match h, no_match h (b := word "folder") (by decide)]
  rfl

theorem main_module {hv : Bool} {w : Word} {ws os : List Word} (h : Abbrev w (word "module")) :
    flatMain hv w ws os = flatModule ws os := by
  unfold flatMain
  rw [if_neg (not_rpc h (by decide)), yes_match h, no_match h (b := word "folder") (by decide),
    no_match h (b := word "target") (by decide)]
  rfl

theorem main_extern {hv : Bool} {w : Word} {ws os : List Word} (h : Abbrev w (word "extern")) :
    flatMain hv w ws os = flatExtern hv ws os := by
  unfold flatMain
  rw [if_neg (not_rpc h (by decide)), yes_match h, no_match h (b := word "folder") (by decide),
    no_match h (b := word "target") (by decide), no_match h (b := word "module") (by decide)]
  rfl

theorem main_generate {hv : Bool} {w : Word} {ws os : List Word} (h : Abbrev w (word "generate")) :
    flatMain hv w ws os = flatGenerate hv ws os := by
  unfold flatMain
  rw [if_neg (not_rpc h (by decide)), yes_match h, no_match h (b := word "folder") (by decide),
    no_match h (b := word "target") (by decide), no_match h (b := word "module") (by decide),
    no_match h (b := word "extern") (by decide)]
  rfl

theorem main_build {hv : Bool} {w : Word} {ws os : List Word} (h : Abbrev w (word "build")) :
    flatMain hv w ws os = flatBuild ws os := by
  unfold flatMain
  rw [if_neg (not_rpc h (by decide)), yes_match h, no_match h (b := word "folder") (by decide),
    no_match h (b := word "target") (by decide), no_match h (b := word "module") (by decide),
    no_match h (b := word "extern") (by decide), no_match h (b := word "generate") (by decide)]
  rfl

theorem main_run {hv : Bool} {w : Word} {ws os : List Word} (h : Abbrev w (word "run")) :
    flatMain hv w ws os = flatRun ws os := by
  unfold flatMain
  rw [if_neg (not_rpc h (by decide)), yes_match h, no_match h (b := word "folder") (by decide),
    no_match h (b := word "target") (by decide), no_match h (b := word "module") (by decide),
    no_match h (b := word "extern") (by decide), no_match h (b := word "generate") (by decide),
    no_match h (b := word "build") (by decide)]
  rfl

theorem main_open {hv : Bool} {w : Word} {ws os : List Word} (h : Abbrev w (word "open")) :
    flatMain hv w ws os = fDone ws os (.does .open true) := by
  unfold flatMain
  rw [if_neg (not_rpc h (by decide)), yes_match h, no_match h (b := word "folder") (by decide),
    no_match h (b := word "target") (by decide), no_match h (b := word "module") (by decide),
    no_match h (b := word "extern") (by decide), no_match h (b := word "generate") (by decide),
    no_match h (b := word "build") (by decide), no_match h (b := word "run") (by decide)]
  rfl

theorem main_codegen {hv : Bool} {w : Word} {ws os : List Word} (h : Abbrev w (word "codegen")) :
    flatMain hv w ws os = fDone ws os (.does .codegen true) := by
  unfold flatMain
  rw [if_neg (not_rpc h (by decide)), yes_match h, no_match h (b := word "folder") (by decide),
    no_match h (b := word "target") (by decide), no_match h (b := word "module") (by decide),
    no_match h (b := word "extern") (by decide), no_match h (b := word "generate") (by decide),
    no_match h (b := word "build") (by decide), no_match h (b := word "run") (by decide),
    no_match h (b := word "open") (by decide)]
  rfl

theorem main_bootstrap {hv : Bool} {w : Word} {ws os : List Word} (h : Abbrev w (word "bootstrap")) :
    flatMain hv w ws os = fDone ws os (.does .bootstrap true) := by
  unfold flatMain
  rw [if_neg (not_rpc h (by decide)), yes_match h, no_match h (b := word "folder") (by decide),
    no_match h (b := word "target") (by decide), no_match h (b := word "module") (by decide),
    no_match h (b := word "extern") (by decide), no_match h (b := word "generate") (by decide),
    no_match h (b := word "build") (by decide), no_match h (b := word "run") (by decide),
    no_match h (b := word "open") (by decide), no_match h (b := word "codegen") (by decide)]
  rfl

theorem main_cleanup {hv : Bool} {w : Word} {ws os : List Word} (h : Abbrev w (word "cleanup")) :
    flatMain hv w ws os = fDone ws os (.does .cleanup true) := by
  unfold flatMain
  rw [if_neg (not_rpc h (by decide)), yes_match h, no_match h (b := word "folder") (by decide),
    no_match h (b := word "target") (by decide), no_match h (b := word "module") (by decide),
    no_match h (b := word "extern") (by decide), no_match h (b := word "generate") (by decide),
    no_match h (b := word "build") (by decide), no_match h (b := word "run") (by decide),
    no_match h (b := word "open") (by decide), no_match h (b := word "codegen") (by decide),
    no_match h (b := word "bootstrap") (by decide)]
  rfl

theorem simple_opts {c : Command} {os : List Word} (h : OptsFor c os) (ho : c.options = []) (hn : ¬ c.noConfig) :
    os = [] := by
  rcases h with h | h
  · rw [ho] at h; exact h.eq_nil
  · exact absurd h.1 hn

theorem flag_opts {c : Command} {os : List Word} {b : Bool} {f : Word} (hf : f ≠ []) (h : OptsFor c os)
    (ho : c.options = given b f) (hn : ¬ c.noConfig) : checkFlag f os = (b, []) := by
  rcases h with h | h
  · rw [ho] at h
    rw [← List.append_nil (given b f)] at h
    obtain ⟨h1, h2⟩ := flag_rev hf h (by simp)
    exact Prod.ext h1 h2.eq_nil
  · exact absurd h.1 hn

theorem stands_one {first n : Word} {vs : List Word} (h : Stands (first :: vs) [n]) : Abbrev first n ∧ vs = [] := by
  cases vs with
  | nil => exact ⟨h.1, rfl⟩
  | cons v vs => exact h.2.elim

theorem stands_two {first n m : Word} {vs : List Word} (h : Stands (first :: vs) [n, m]) :
    Abbrev first n ∧ ∃ v, vs = [v] ∧ Abbrev v m := by
  obtain ⟨h1, h2⟩ := h
  cases vs with
  | nil => exact h2.elim
  | cons v vs => exact ⟨h1, v, by rw [(stands_one h2).2], (stands_one h2).1⟩

theorem head_operand (t : Word) : (if t = [] then [] else [t] : List Word).headD [] = t ∧
    (if t = [] then [] else [t] : List Word).drop 1 = [] := by
  by_cases h : t = []
  · subst h; exact ⟨rfl, rfl⟩
  · rw [if_neg h]; exact ⟨rfl, rfl⟩

theorem main_complete {hv : Bool} {w : Word} {ws os : List Word} {c : Command} (hp : c.Proper)
    (hn : c.needsFolder → hv = true) (h : Rest c ws os w) : flatMain hv w ws os = .does c true := by
  obtain ⟨ho, vs, rfl, hs, hc⟩ := h
  cases c with
  | rpc => exact hp.elim
  | folderList =>
    obtain ⟨h1, v, rfl, h2⟩ := stands_two hs
    rw [main_folder h1, simple_opts ho rfl not_false]
    simp only [Command.operands, flatFolder, List.append_nil, yes_match h2]
    rfl
  | folderCreate n =>
    obtain ⟨h1, v, rfl, h2⟩ := stands_two hs
    rw [main_folder h1, simple_opts ho rfl not_false]
    simp only [Command.operands, flatFolder, List.cons_append, List.nil_append, yes_match h2,
      no_match h2 (b := word "list") (by decide)]
    rfl
  | folderDelete n =>
    obtain ⟨h1, v, rfl, h2⟩ := stands_two hs
    rw [main_folder h1, simple_opts ho rfl not_false]
    simp only [Command.operands, flatFolder, List.cons_append, List.nil_append, yes_match h2,
      no_match h2 (b := word "list") (by decide), no_match h2 (b := word "create") (by decide)]
    rfl
  | folderSet n =>
    obtain ⟨h1, v, rfl, h2⟩ := stands_two hs
    rw [main_folder h1, simple_opts ho rfl not_false]
    simp only [Command.operands, flatFolder, List.cons_append, List.nil_append, yes_match h2,
      no_match h2 (b := word "list") (by decide), no_match h2 (b := word "create") (by decide),
      no_match h2 (b := word "delete") (by decide)]
    rfl
  | targetList =>
    obtain ⟨h1, v, rfl, h2⟩ := stands_two hs
    rw [main_target h1, simple_opts ho rfl not_false, hn trivial]
    simp only [Command.operands, flatTarget, List.append_nil, yes_match h2]
    rfl
  | targetAdd n s =>
    obtain ⟨h1, v, rfl, h2⟩ := stands_two hs
    rw [main_target h1, hn trivial]
    simp only [Command.operands, flatTarget, List.cons_append, List.nil_append, yes_match h2,
      no_match h2 (b := word "list") (by decide), fNamed, fTerm,
      flag_opts (f := word "--shared") (by simp [word]) ho rfl not_false]
    rfl
  | targetRemove n =>
    obtain ⟨h1, v, rfl, h2⟩ := stands_two hs
    rw [main_target h1, simple_opts ho rfl not_false, hn trivial]
    simp only [Command.operands, flatTarget, List.cons_append, List.nil_append, yes_match h2,
      no_match h2 (b := word "list") (by decide), no_match h2 (b := word "add") (by decide)]
    rfl
  | targetSet n =>
    obtain ⟨h1, v, rfl, h2⟩ := stands_two hs
    rw [main_target h1, simple_opts ho rfl not_false, hn trivial]
    simp only [Command.operands, flatTarget, List.cons_append, List.nil_append, yes_match h2,
      no_match h2 (b := word "list") (by decide), no_match h2 (b := word "add") (by decide),
      no_match h2 (b := word "remove") (by decide)]
    rfl
  | targetGraph =>
    obtain ⟨h1, v, rfl, h2⟩ := stands_two hs
    rw [main_target h1, simple_opts ho rfl not_false, hn trivial]
    simp only [Command.operands, flatTarget, List.append_nil, yes_match h2,
      no_match h2 (b := word "list") (by decide), no_match h2 (b := word "add") (by decide),
      no_match h2 (b := word "remove") (by decide), no_match h2 (b := word "set") (by decide)]
    rfl
  | moduleList =>
    obtain ⟨h1, v, rfl, h2⟩ := stands_two hs
    rw [main_module h1, simple_opts ho rfl not_false]
    simp only [Command.operands, flatModule, List.append_nil, yes_match h2]
    rfl
  | moduleUpdate =>
    obtain ⟨h1, v, rfl, h2⟩ := stands_two hs
    rw [main_module h1, simple_opts ho rfl not_false]
    simp only [Command.operands, flatModule, List.append_nil, yes_match h2,
      no_match h2 (b := word "list") (by decide)]
    rfl
  | externList =>
    obtain ⟨h1, v, rfl, h2⟩ := stands_two hs
    rw [main_extern h1, simple_opts ho rfl not_false, hn trivial]
    simp only [Command.operands, flatExtern, List.append_nil, yes_match h2]
    rfl
  | externInfo n =>
    obtain ⟨h1, v, rfl, h2⟩ := stands_two hs
    rw [main_extern h1, simple_opts ho rfl not_false, hn trivial]
    simp only [Command.operands, flatExtern, List.cons_append, List.nil_append, yes_match h2,
      no_match h2 (b := word "list") (by decide)]
    rfl
  | externSelect n s =>
    obtain ⟨h1, v, rfl, h2⟩ := stands_two hs
    rw [main_extern h1, hn trivial]
    simp only [Command.operands, flatExtern, List.cons_append, List.nil_append, yes_match h2,
      no_match h2 (b := word "list") (by decide), no_match h2 (b := word "info") (by decide), fNamed, fTerm,
      flag_opts (f := word "--install") (by simp [word]) ho rfl not_false]
    rfl
  | externSelected =>
    obtain ⟨h1, v, rfl, h2⟩ := stands_two hs
    rw [main_extern h1, simple_opts ho rfl not_false, hn trivial]
    simp only [Command.operands, flatExtern, List.append_nil, yes_match h2,
      no_match h2 (b := word "list") (by decide), no_match h2 (b := word "info") (by decide),
      no_match' (w := v) (b := word "select") hc]
    rfl
  | externInstall n =>
    obtain ⟨h1, v, rfl, h2⟩ := stands_two hs
    rw [main_extern h1, simple_opts ho rfl not_false, hn trivial]
    simp only [Command.operands, flatExtern, List.cons_append, List.nil_append, yes_match h2,
      no_match h2 (b := word "list") (by decide), no_match' (w := v) (b := word "info") hc,
      no_match h2 (b := word "select") (by decide), no_match h2 (b := word "selected") (by decide)]
    rfl
  | generate g =>
    obtain ⟨h1, rfl⟩ := stands_one hs
    rw [main_generate h1, hn trivial]
    have h0 : os.Perm (configOption g ++ []) ∨ (g = [] ∧ os.Perm (word "--config=" :: [])) := by
      rw [List.append_nil]
      rcases ho with h | ⟨h, h'⟩
      · exact Or.inl h
      · refine Or.inr ⟨h, ?_⟩
        have hg : (Command.generate g).options = [] := by
          have : g = [] := h
          simp [Command.options, configOption, this]
        rwa [hg] at h'
    obtain ⟨h2, h3⟩ := config_rev h0 (by simp)
    simp only [Command.operands, flatGenerate, List.append_nil, fTerm, h2, h3.eq_nil]
    rfl
  | build p =>
    obtain ⟨h1, rfl⟩ := stands_one hs
    rw [main_build h1]
    obtain ⟨h2, h3⟩ := extract_rev (l := []) hp.2 (by rw [List.append_nil]; exact ho) (by simp)
    unfold flatBuild
    simp only [Command.operands, List.nil_append, (head_operand p.targetName).1, (head_operand p.targetName).2, fTerm, h2,
      h3.eq_nil]
    rfl
  | run p d =>
    obtain ⟨h1, rfl⟩ := stands_one hs
    rw [main_run h1]
    obtain ⟨h2, h3⟩ := extract_rev (l := given (!d) (word "--nobuild")) hp.2 ho (fun o ho => given_mem ho)
    rw [← List.append_nil (given _ _)] at h3
    obtain ⟨h4, h5⟩ := flag_rev (f := word "--nobuild") (by simp [word]) h3 (by simp)
    unfold flatRun
    simp only [Command.operands, List.nil_append, (head_operand p.targetName).1, (head_operand p.targetName).2, fTerm, h2,
      h5.eq_nil, h4, Bool.not_not]
    rfl
  | «open» =>
    obtain ⟨h1, rfl⟩ := stands_one hs
    rw [main_open h1, simple_opts ho rfl not_false]
    rfl
  | codegen =>
    obtain ⟨h1, rfl⟩ := stands_one hs
    rw [main_codegen h1, simple_opts ho rfl not_false]
    rfl
  | bootstrap =>
    obtain ⟨h1, rfl⟩ := stands_one hs
    rw [main_bootstrap h1, simple_opts ho rfl not_false]
    rfl
  | cleanup =>
    obtain ⟨h1, rfl⟩ := stands_one hs
    rw [main_cleanup h1, simple_opts ho rfl not_false]
    rfl

end Verif.Cmd
