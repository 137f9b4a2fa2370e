import Verif.Cmd.Spec
/-!
# The command line of plytool — lemmas
-/
namespace Verif.Cmd
open Verif

theorem starts_iff (s o : Word) : Str.startsWith s o = true ↔ o <+: s := by
  unfold Str.startsWith
  constructor
  · intro h
    split at h
    · cases h
    · rw [← beq_iff_eq.1 h]; exact List.take_prefix _ _
  · rintro ⟨t, rfl⟩
    rw [if_neg (by simp), List.take_left, beq_self_eq_true]

theorem dash_iff (a : Word) : Str.startsWith a (word "-") = true ↔ IsOpt a := by
  rw [starts_iff]
  unfold IsOpt
  cases a with
  | nil => simp [word]
  | cons c cs =>
    rw [show word "-" = [45] by rfl, List.cons_prefix_cons]
    simp [eq_comm]

theorem prefix_iff (w name : Word) : prefixMatch w name = true ↔ Abbrev w name := by
  unfold prefixMatch Abbrev
  split
  · constructor
    · intro h; cases h
    · rintro ⟨h, _⟩; omega
  · rw [starts_iff]
    constructor
    · exact fun h => ⟨by omega, h⟩
    · exact fun h => h.2

/-- What is left of the command line: words, and options. -/
structure Rep (cl : CL) (ws os : List Word) : Prop where
  solid : Solid cl.rest
  ws : words cl.rest = ws
  os : cl.skipped ++ options cl.rest = os

theorem read_nil : ∀ (rest skipped : List Word), words rest = [] →
    readToken rest skipped = ([], ⟨[], skipped ++ options rest⟩) := by
  intro rest
  induction rest with
  | nil => intro sk _; simp [readToken, options]
  | cons a rest ih =>
    intro sk h
    unfold words at h
    have ha : IsOpt a := by
      by_cases ha : IsOpt a
      · exact ha
      · rw [List.filter_cons_of_pos (by simpa using ha)] at h; cases h
    rw [List.filter_cons_of_neg (by simpa using ha)] at h
    unfold readToken
    rw [if_pos ((dash_iff a).2 ha), ih _ h]
    unfold options
    rw [List.filter_cons_of_pos (by simpa using ha), List.append_assoc]
    rfl

theorem read_cons : ∀ (rest skipped : List Word) {w : Word} {ws os : List Word}, Rep ⟨rest, skipped⟩ (w :: ws) os →
    ∃ cl, readToken rest skipped = (w, cl) ∧ Rep cl ws os ∧ w ≠ [] := by
  intro rest
  induction rest with
  | nil => intro sk w ws os h; have := h.ws; simp [words] at this
  | cons a rest ih =>
    intro sk w ws os ⟨h1, h2, h3⟩
    dsimp only at h1 h2 h3
    have hs : Solid rest := fun h => h1 (List.mem_cons_of_mem _ h)
    unfold words at h2
    unfold options at h3
    unfold readToken
    by_cases ha : IsOpt a
    · rw [List.filter_cons_of_neg (by simpa using ha)] at h2
      rw [List.filter_cons_of_pos (by simpa using ha)] at h3
      rw [if_pos ((dash_iff a).2 ha)]
      exact ih _ ⟨hs, h2, by rw [← h3]; simp [options]⟩
    · rw [List.filter_cons_of_pos (by simpa using ha)] at h2
      rw [List.filter_cons_of_neg (by simpa using ha)] at h3
      obtain ⟨rfl, rfl⟩ := List.cons.inj h2
      rw [if_neg (fun h => ha ((dash_iff a).1 h))]
      refine ⟨_, rfl, ⟨hs, rfl, h3⟩, ?_⟩
      rintro rfl
      exact h1 List.mem_cons_self

theorem rep_init {args : List Word} (h : Solid args) : Rep ⟨args, []⟩ (words args) (options args) :=
  ⟨h, rfl, by simp⟩

theorem read_rep_nil {cl : CL} {os : List Word} (h : Rep cl [] os) : readToken cl.rest cl.skipped = ([], ⟨[], os⟩) := by
  rw [read_nil _ _ h.ws, h.os]

/-! ## The commands as functions of words and options

Helpers of the proofs: what the functions of the model come to when no argument is empty. -/

/-- Helper: `terminated` on words and options. -/
def fTerm (ws os : List Word) (next : List Word → Outcome) : Outcome :=
  match ws with
  | [] => next os
  | w :: _ => .fatal (.unexpectedToken w)

/-- Helper: `done` on words and options. -/
def fDone (ws os : List Word) (next : Outcome) : Outcome := fTerm ws os fun os => finalize os next

/-- Helper: `named` on words and options. -/
def fNamed (ws : List Word) (next : Word → List Word → Outcome) : Outcome :=
  match ws with
  | [] => .fatal .expectedName
  | n :: ws => next n ws

theorem term_flat {cl : CL} {ws os : List Word} (h : Rep cl ws os) (next : List Word → Outcome) :
    terminated cl next = fTerm ws os next := by
  unfold terminated
  cases ws with
  | nil => rw [read_rep_nil h]; rfl
  | cons w ws =>
    obtain ⟨cl', h1, h2, h3⟩ := read_cons cl.rest cl.skipped h
    rw [h1]
    dsimp only
    rw [if_pos h3]
    rfl

theorem done_flat {cl : CL} {ws os : List Word} (h : Rep cl ws os) (next : Outcome) :
    done cl next = fDone ws os next := term_flat h _

theorem named_flat {cl : CL} {ws os : List Word} (h : Rep cl ws os) {next : Word → CL → Outcome}
    {fnext : Word → List Word → Outcome} (hn : ∀ n cl ws, Rep cl ws os → next n cl = fnext n ws) :
    named cl next = fNamed ws fnext := by
  unfold named
  cases ws with
  | nil => rw [read_rep_nil h]; rfl
  | cons w ws =>
    obtain ⟨cl', h1, h2, h3⟩ := read_cons cl.rest cl.skipped h
    rw [h1]
    dsimp only
    rw [if_neg h3, hn _ _ _ h2]
    rfl

theorem named_done {cl : CL} {ws os : List Word} (h : Rep cl ws os) (g : Word → Outcome) :
    (named cl fun n cl => done cl (g n)) = fNamed ws fun n ws => fDone ws os (g n) :=
  named_flat h fun _ _ _ h => done_flat h _

theorem named_term {cl : CL} {ws os : List Word} (h : Rep cl ws os) (g : Word → List Word → Outcome) :
    (named cl fun n cl => terminated cl (g n)) = fNamed ws fun n ws => fTerm ws os (g n) :=
  named_flat h fun _ _ _ h => term_flat h _

/-- Helper: `commandFolder` on words and options. -/
def flatFolder (ws os : List Word) : Outcome :=
  match ws with
  | [] => finalize os (.usage (word "folder"))
  | w :: ws =>
    if prefixMatch w (word "list") then fDone ws os (.does .folderList true)
    else if prefixMatch w (word "create") then fNamed ws fun n ws => fDone ws os (.does (.folderCreate n) true)
    else if prefixMatch w (word "delete") then fNamed ws fun n ws => fDone ws os (.does (.folderDelete n) true)
    else if prefixMatch w (word "set") then fNamed ws fun n ws => fDone ws os (.does (.folderSet n) true)
    else .fatal (.unrecognizedSub w)

theorem folder_flat {cl : CL} {ws os : List Word} (h : Rep cl ws os) : commandFolder cl = flatFolder ws os := by
  unfold commandFolder flatFolder
  cases ws with
  | nil => rw [read_rep_nil h]; rfl
  | cons w ws =>
    obtain ⟨cl', h1, h2, h3⟩ := read_cons cl.rest cl.skipped h
    rw [h1]
    dsimp only
    rw [if_neg h3]
    rw [done_flat h2, named_done h2 fun n => .does (.folderCreate n) true,
      named_done h2 fun n => .does (.folderDelete n) true, named_done h2 fun n => .does (.folderSet n) true]

/-- Helper: `commandTarget` on words and options. -/
def flatTarget (hf : Bool) (ws os : List Word) : Outcome :=
  if hf = false then .fatal .noFolder
  else
  match ws with
  | [] => finalize os (.usage (word "target"))
  | w :: ws =>
    if prefixMatch w (word "list") then fDone ws os (.does .targetList true)
    else if prefixMatch w (word "add") then fNamed ws fun n ws => fTerm ws os fun os =>
      finalize (checkFlag (word "--shared") os).2 (.does (.targetAdd n (checkFlag (word "--shared") os).1) true)
    else if prefixMatch w (word "remove") then fNamed ws fun n ws => fDone ws os (.does (.targetRemove n) true)
    else if prefixMatch w (word "set") then fNamed ws fun n ws => fDone ws os (.does (.targetSet n) true)
    else if prefixMatch w (word "graph") then fDone ws os (.does .targetGraph true)
    else .fatal (.unrecognizedSub w)

theorem target_flat {cl : CL} {ws os : List Word} (h : Rep cl ws os) (hf : Bool) :
    commandTarget hf cl = flatTarget hf ws os := by
  unfold commandTarget flatTarget
  split
  · rfl
  cases ws with
  | nil => rw [read_rep_nil h]; rfl
  | cons w ws =>
    obtain ⟨cl', h1, h2, h3⟩ := read_cons cl.rest cl.skipped h
    rw [h1]
    dsimp only
    rw [if_neg h3]
    rw [done_flat h2, done_flat h2, named_term h2 fun n os => finalize (checkFlag (word "--shared") os).2
        (.does (.targetAdd n (checkFlag (word "--shared") os).1) true),
      named_done h2 fun n => .does (.targetRemove n) true, named_done h2 fun n => .does (.targetSet n) true]

/-- Helper: `commandModule` on words and options. -/
def flatModule (ws os : List Word) : Outcome :=
  match ws with
  | [] => finalize os (.usage (word "module"))
  | w :: ws =>
    if prefixMatch w (word "list") then fDone ws os (.does .moduleList true)
    else if prefixMatch w (word "update") then fDone ws os (.does .moduleUpdate true)
    else .fatal (.unrecognizedSub w)

theorem module_flat {cl : CL} {ws os : List Word} (h : Rep cl ws os) : commandModule cl = flatModule ws os := by
  unfold commandModule flatModule
  cases ws with
  | nil => rw [read_rep_nil h]; rfl
  | cons w ws =>
    obtain ⟨cl', h1, h2, h3⟩ := read_cons cl.rest cl.skipped h
    rw [h1]
    dsimp only
    rw [if_neg h3]
    simp only [done_flat h2]

/-- Helper: `commandExtern` on words and options. -/
def flatExtern (hf : Bool) (ws os : List Word) : Outcome :=
  if hf = false then .fatal .noFolder
  else
  match ws with
  | [] => finalize os (.usage (word "extern"))
  | w :: ws =>
    if prefixMatch w (word "list") then fDone ws os (.does .externList true)
    else if prefixMatch w (word "info") then fNamed ws fun n ws => fDone ws os (.does (.externInfo n) true)
    else if prefixMatch w (word "select") then fNamed ws fun n ws => fTerm ws os fun os =>
      finalize (checkFlag (word "--install") os).2 (.does (.externSelect n (checkFlag (word "--install") os).1) true)
    else if prefixMatch w (word "selected") then fDone ws os (.does .externSelected true)
    else if prefixMatch w (word "install") then fNamed ws fun n ws => fDone ws os (.does (.externInstall n) true)
    else .fatal (.unrecognizedSub w)

theorem extern_flat {cl : CL} {ws os : List Word} (h : Rep cl ws os) (hf : Bool) :
    commandExtern hf cl = flatExtern hf ws os := by
  unfold commandExtern flatExtern
  split
  · rfl
  cases ws with
  | nil => rw [read_rep_nil h]; rfl
  | cons w ws =>
    obtain ⟨cl', h1, h2, h3⟩ := read_cons cl.rest cl.skipped h
    rw [h1]
    dsimp only
    rw [if_neg h3]
    rw [done_flat h2, done_flat h2, named_term h2 fun n os => finalize (checkFlag (word "--install") os).2
        (.does (.externSelect n (checkFlag (word "--install") os).1) true),
      named_done h2 fun n => .does (.externInfo n) true, named_done h2 fun n => .does (.externInstall n) true]

/-- Helper: `commandGenerate` on words and options. -/
def flatGenerate (hf : Bool) (ws os : List Word) : Outcome :=
  if hf = false then .fatal .noFolder
  else fTerm ws os fun os => finalize (takeConfig os).2 (.does (.generate (takeConfig os).1) true)

theorem generate_flat {cl : CL} {ws os : List Word} (h : Rep cl ws os) (hf : Bool) :
    commandGenerate hf cl = flatGenerate hf ws os := by
  unfold commandGenerate flatGenerate
  rw [term_flat h]

/-- Helper: `commandBuild` on words and options. -/
def flatBuild (ws os : List Word) : Outcome :=
  fTerm (ws.drop 1) os fun os =>
    finalize (extractOptions (ws.headD []) os).2 (.does (.build (extractOptions (ws.headD []) os).1) true)

theorem build_flat {cl : CL} {ws os : List Word} (h : Rep cl ws os) : commandBuild cl = flatBuild ws os := by
  unfold commandBuild flatBuild
  cases ws with
  | nil => rw [read_rep_nil h]; rw [term_flat (ws := []) (os := os) ⟨by simp [Solid], rfl, by simp [options]⟩]; rfl
  | cons w ws =>
    obtain ⟨cl', h1, h2, h3⟩ := read_cons cl.rest cl.skipped h
    rw [h1]
    dsimp only
    rw [term_flat h2]
    rfl

/-- Helper: `commandRun` on words and options. -/
def flatRun (ws os : List Word) : Outcome :=
  fTerm (ws.drop 1) os fun os =>
    finalize (checkFlag (word "--nobuild") (extractOptions (ws.headD []) os).2).2
      (.does (.run (extractOptions (ws.headD []) os).1 !(checkFlag (word "--nobuild") (extractOptions (ws.headD []) os).2).1)
        true)

theorem run_flat {cl : CL} {ws os : List Word} (h : Rep cl ws os) : commandRun cl = flatRun ws os := by
  unfold commandRun flatRun
  cases ws with
  | nil => rw [read_rep_nil h]; rw [term_flat (ws := []) (os := os) ⟨by simp [Solid], rfl, by simp [options]⟩]; rfl
  | cons w ws =>
    obtain ⟨cl', h1, h2, h3⟩ := read_cons cl.rest cl.skipped h
    rw [h1]
    dsimp only
    rw [term_flat h2]
    rfl

/-- The first word decides. -/
def flatMain (hf : Bool) (w : Word) (ws os : List Word) : Outcome :=
  if w = word "rpc" then .does .rpc false
  else if prefixMatch w (word "folder") then flatFolder ws os
  else if prefixMatch w (word "target") then flatTarget hf ws os
  else if prefixMatch w (word "module") then flatModule ws os
  else if prefixMatch w (word "extern") then flatExtern hf ws os
  else if prefixMatch w (word "generate") then flatGenerate hf ws os
  else if prefixMatch w (word "build") then flatBuild ws os
  else if prefixMatch w (word "run") then flatRun ws os
  else if prefixMatch w (word "open") then fDone ws os (.does .open true)
  else if prefixMatch w (word "codegen") then fDone ws os (.does .codegen true)
  else if prefixMatch w (word "bootstrap") then fDone ws os (.does .bootstrap true)
  else if prefixMatch w (word "cleanup") then fDone ws os (.does .cleanup true)
  else .fatal (.unrecognizedCommand w)

/-- Helper: `plytool` on words and options. -/
def flat (hf : Bool) (ws os : List Word) : Outcome :=
  match ws with
  | [] => finalize os (.usage [])
  | w :: ws => flatMain hf w ws os

theorem plytool_flat {args : List Word} (h : Solid args) (hf : Bool) :
    plytool hf args = flat hf (words args) (options args) := by
  have hr := rep_init h
  unfold plytool flat
  cases hw : words args with
  | nil =>
    rw [hw] at hr
    have := read_rep_nil hr
    dsimp only at this
    rw [this]
    rfl
  | cons w ws =>
    rw [hw] at hr
    obtain ⟨cl', h1, h2, h3⟩ := read_cons args [] hr
    rw [h1]
    dsimp only
    rw [if_neg h3]
    simp only [folder_flat h2, target_flat h2, module_flat h2, extern_flat h2, generate_flat h2, build_flat h2, run_flat h2,
      done_flat h2]
    rfl

/-! ## Options -/

theorem checkFlag_eq {f : Word} (hf : f ≠ []) (os : List Word) : checkFlag f os = (decide (f ∈ os), os.erase f) := by
  unfold checkFlag
  induction os with
  | nil => rfl
  | cons o os ih =>
    unfold checkOpt
    by_cases h : o = f
    · subst h
      simp [hf]
    · rw [if_neg (by simpa using h)]
      have h1 := congrArg Prod.fst ih
      have h2 := congrArg Prod.snd ih
      dsimp only at h1 h2 ⊢
      rw [h2, List.erase_cons_tail (by simpa using h)]
      rw [h1]
      simp [Ne.symm h]

/-- Helper: an option for the configuration. -/
def isConfig (o : Word) : Bool := Str.startsWith o (word "--config=")

theorem takeConfig_none {os : List Word} (h : ∀ o ∈ os, isConfig o = false) : takeConfig os = ([], os) := by
  unfold takeConfig
  have : checkOpt (fun arg => Str.startsWith arg (word "--config=")) os = ([], os) := by
    induction os with
    | nil => rfl
    | cons o os ih =>
      unfold checkOpt
      have ho := h o List.mem_cons_self
      unfold isConfig at ho
      rw [ho, ih fun o ho => h o (List.mem_cons_of_mem _ ho)]
      rfl
  rw [this]
  rfl

theorem takeConfig_some {os : List Word} (h : ∃ o ∈ os, isConfig o = true) :
    ∃ c, word "--config=" ++ c ∈ os ∧ takeConfig os = (c, os.erase (word "--config=" ++ c)) := by
  unfold takeConfig
  have : ∃ c, word "--config=" ++ c ∈ os ∧ checkOpt (fun arg => Str.startsWith arg (word "--config=")) os =
      (word "--config=" ++ c, os.erase (word "--config=" ++ c)) := by
    induction os with
    | nil => obtain ⟨o, h, _⟩ := h; cases h
    | cons o os ih =>
      unfold checkOpt
      by_cases ho : isConfig o = true
      · obtain ⟨c, hc⟩ := (starts_iff _ _).1 ho
        refine ⟨c, by rw [hc]; exact List.mem_cons_self, ?_⟩
        have ho' := ho
        unfold isConfig at ho'
        rw [if_pos ho', hc, List.erase_cons_head]
      · obtain ⟨c, h1, h2⟩ := ih (by
          obtain ⟨x, hx, hx'⟩ := h
          rcases List.mem_cons.1 hx with rfl | hx
          · exact absurd hx' ho
          · exact ⟨x, hx, hx'⟩)
        refine ⟨c, List.mem_cons_of_mem _ h1, ?_⟩
        have ho' := ho
        unfold isConfig at ho'
        rw [if_neg ho', h2, List.erase_cons_tail]
        simp only [beq_iff_eq]
        rintro rfl
        exact ho ((starts_iff _ _).2 ⟨c, rfl⟩)
  obtain ⟨c, h1, h2⟩ := this
  refine ⟨c, h1, ?_⟩
  rw [h2]
  dsimp only
  rw [if_pos (by simp [word]), show (9 : Nat) = (word "--config=").length by rfl, List.drop_left]

theorem config_shape (o : Word) : isConfig o = true ↔ ∃ c, o = word "--config=" ++ c := by
  unfold isConfig
  rw [starts_iff]
  exact ⟨fun ⟨c, h⟩ => ⟨c, h.symm⟩, fun ⟨c, h⟩ => ⟨c, h.symm⟩⟩

end Verif.Cmd
