import Verif.Rm.LemmasTree
import Verif.Markdown.ModelHtml
/-!
# C86: removing a directory removes that directory and nothing else
-/
namespace Verif.Rm

open Spec
open Verif.Markdown (lit)
open Verif.Fs (Name Where FSResult)
open Verif.Path.Spec (OpenEnd)

/-! ## A disk for the examples

`/w/t` is to be removed; `/w/keep` is beside it and `/w/t/l` is a link to it. -/

def exDisk : Disk :=
  [([lit "w"], .dir), ([lit "w", lit "t"], .dir), ([lit "w", lit "t", lit "a"], .file), ([lit "w", lit "t", lit "s"], .dir),
    ([lit "w", lit "keep"], .dir), ([lit "w", lit "keep", lit "k"], .file), ([lit "w", lit "t", lit "s", lit "b"], .file),
    ([lit "w", lit "t", lit "l"], .link (lit "/w/keep"))]

def exTop : Where := [lit "w", lit "t"]

instance (n : Name) : Decidable (Fs.Walk.Spec.Plain n) := by unfold Fs.Walk.Spec.Plain; infer_instance

theorem exDisk_tree : Tree exDisk := by
  have h : ∀ e ∈ exDisk, e.1 = e.1.dropLast ++ [e.1.getLastD []] ∧ Fs.Walk.Spec.Plain (e.1.getLastD []) ∧
      (e.1.dropLast = [] ∨ (e.1.dropLast, Node.dir) ∈ exDisk) := by decide +kernel
  exact ⟨by decide +kernel, fun e he => ⟨_, _, h e he⟩⟩

/-- `t/`, from `/w`. -/
theorem exDisk_leads : LeadsTo exDisk [lit "w"] (lit "t/") exTop := by
  refine ⟨?_, by decide +kernel, by decide +kernel, by decide +kernel⟩
  have : ∀ n ∈ Path.Spec.names false (lit "t/"), n ≠ [46] ∧ n ≠ [46, 46] := by decide +kernel
  exact this

/-! ## The theorems -/

/-- **C86.** A path without `.` and `..` that leads through real directories to a directory: if every link in that
directory goes on leading to something whatever is removed from the directory, then removing the directory succeeds, and
the disk is what it was without the directory and all that is below.  Missing: paths with `..` and through links
(`C86_two_up`, `C86_top_link`) and links that do not lead anywhere when their turn comes (`C86_dangling`,
`C86_order`): the claim is false of them. -/
theorem C86_remove_partial {d : Disk} {cwd w : Where} {path : List Byte} (t : Tree d) (hl : LeadsTo d cwd path w)
    (hd : lookup d w = some .dir) (hk : LinksHold d w) {fuel : Nat} (hf : d.length ≤ fuel) :
    removeDirTree cwd fuel d path = (without d w, some .ok) := by
  have he := remove_ends (cwd := cwd) hk fuel d path w t hl hd (below_self w) (fun _ h => h) (fun _ _ => rfl)
    (Nat.le_trans (List.length_filter_le _ _) hf)
  have hc := remove_careful cwd fuel d path w t hl hd
  cases e : removeDirTree cwd fuel d path with
  | mk d' r =>
    rw [e] at he hc
    cases r with
    | none => exact absurd rfl he
    | some r =>
      obtain ⟨rfl, h2⟩ := hc.2 r rfl
      simp only at h2
      rw [h2]

/-- **C86.** Links that lead out of the directory, straight to a file or a directory that is there, do not hinder. -/
theorem C86_links_out {d : Disk} {w : Where}
    (h : ∀ v s, (v, Node.link s) ∈ d → Below w v → ¬ OpenEnd false s ∧
      ∃ u, LeadsTo d v.dropLast s u ∧ ¬ Below w u ∧ (lookup d u = some .file ∨ lookup d u = some .dir)) : LinksHold d w := by
  intro v s hv hb d' hag
  obtain ⟨ho, u, hl, hnb, hu⟩ := h v s hv hb
  have hl' : LeadsTo d' v.dropLast s u := by
    refine ⟨hl.plain, hl.some, hl.place, fun k hk => ?_⟩
    rw [hag, hl.dirs k hk]
    intro hb'
    apply hnb
    rw [hl.place]
    exact List.IsPrefix.trans hb' ((List.prefix_append_right_inj _).2 (List.take_prefix _ _))
  have hs : s ≠ [] := by
    rintro rfl
    exact hl.some rfl
  have hu' : lookup d' u = lookup d u := hag u hnb
  refine ⟨hs, u, ?_, by rw [hu']; rcases hu with hu | hu <;> simp [hu]⟩
  obtain ⟨ns, n, h1, h2, h3, h4, h5, _⟩ := leads_split hl'
  rw [comps_closed ho, resolveN, h1, follow_dirs [n] ns _ h4 h5, h2]
  refine follow_last (by simpa using h5 ns.length (Nat.le_refl _)) h3 (.inr ?_)
  intro s' e
  rw [← h2, hu'] at e
  rcases hu with hu | hu <;> rw [hu] at e <;> cases e

/-- The link of the example leads out of the directory. -/
theorem exDisk_links : LinksHold exDisk exTop := by
  apply C86_links_out
  intro v s hv _
  have h : ∀ e ∈ exDisk, ∀ s, e.2 = .link s → e.1 = [lit "w", lit "t", lit "l"] ∧ s = lit "/w/keep" := by
    intro e he s hs
    have h2 : ∀ e ∈ exDisk, e.2 = .file ∨ e.2 = .dir ∨ (e.1 = [lit "w", lit "t", lit "l"] ∧ e.2 = .link (lit "/w/keep")) := by
      decide +kernel
    rcases h2 e he with h | h | h
    · rw [hs] at h; cases h
    · rw [hs] at h; cases h
    · refine ⟨h.1, ?_⟩
      have := h.2
      rw [hs] at this
      cases this
      rfl
  obtain ⟨h1, rfl⟩ := h _ hv s rfl
  simp only at h1
  subst h1
  have hlast : (lit "/w/keep").getLast? = some 112 := by decide +kernel
  refine ⟨by unfold OpenEnd Path.Spec.Sep; rw [hlast]; decide, [lit "w", lit "keep"], ⟨?_, by decide +kernel, by decide +kernel, by decide +kernel⟩,
    by decide +kernel, by decide +kernel⟩
  have : ∀ n ∈ Path.Spec.names false (lit "/w/keep"), n ≠ [46] ∧ n ≠ [46, 46] := by decide +kernel
  exact this

/-- The directory is gone with its file, its subdirectory and its link; what the link led to is all there. -/
example : removeDirTree [lit "w"] 8 exDisk (lit "t/") =
    ([([lit "w"], .dir), ([lit "w", lit "keep"], .dir), ([lit "w", lit "keep", lit "k"], .file)], some .ok) := by
  rw [C86_remove_partial exDisk_tree exDisk_leads (by decide +kernel) exDisk_links (by decide +kernel)]
  decide +kernel

/-- **C86.** Whatever links there are in the directory, and however far removing gets: only things that are in the
directory are removed, nothing is added or changed, and what is left is a disk again.  If removing comes to its end then it
reports success, and nothing of the directory is left. -/
theorem C86_nothing_else {d : Disk} {cwd w : Where} {path : List Byte} (t : Tree d) (hl : LeadsTo d cwd path w)
    (hd : lookup d w = some .dir) (fuel : Nat) :
    (removeDirTree cwd fuel d path).1.Sublist d ∧ Tree (removeDirTree cwd fuel d path).1 ∧
    (∀ e ∈ d, ¬ Below w e.1 → e ∈ (removeDirTree cwd fuel d path).1) ∧
    (∀ r, (removeDirTree cwd fuel d path).2 = some r → r = .ok ∧ (removeDirTree cwd fuel d path).1 = without d w) := by
  have h := remove_careful cwd fuel d path w t hl hd
  refine ⟨?_, h.1.tree, h.1.kept, h.2⟩
  obtain ⟨f, hf⟩ := h.1.part
  rw [hf]
  exact List.filter_sublist

/-- Even with a link of the directory leading to the directory above. -/
example : let d := [([lit "w"], .dir), ([lit "w", lit "t"], .dir), ([lit "w", lit "t", lit "l"], .link (lit "..")),
      ([lit "w", lit "t", lit "a"], .file), ([lit "w", lit "k"], .file)]
    removeDirTree [] 5 d (lit "/w/t") = ([([lit "w"], .dir), ([lit "w", lit "k"], .file)], some .ok) := by
  decide +kernel

/-- **C86.** Removing a directory that is not there fails an assertion; nothing is removed. -/
theorem C86_missing {d : Disk} {cwd w : Where} {path : List Byte} (hl : LeadsTo d cwd path w) (hd : lookup d w = none) (fuel : Nat) :
    removeDirTree cwd fuel d path = (d, none) := by
  cases fuel with
  | zero => rfl
  | succ fuel =>
    have ho : opendir d cwd path = .error .noent := by
      obtain ⟨ns, n, h1, h2, h3, h4, h5, h6⟩ := leads_split hl
      have hc : lookup d (Fs.start cwd path ++ ns) = some .dir := by simpa using h5 ns.length (Nat.le_refl _)
      rw [opendir, resolve, if_neg h6, resolveN, Fs.comps, h1, List.append_assoc, follow_dirs _ ns _ h4 h5, List.singleton_append,
        follow, hc]
      simp only [next_plain h3]
      rw [← h2, hd]
      simp only
      by_cases hsl : path.getLast? = some 47
      · simp [hsl, follow, hd]
      · simp [hsl, follow, hd]
    rw [removeDirTree, ho]
    simp only [removeLoop]
    rw [rmdir_leads hl, hd]

/-- `/w/none`. -/
example : removeDirTree [] 9 exDisk (lit "/w/none") = (exDisk, none) := by
  refine C86_missing (w := [lit "w", lit "none"]) ⟨?_, by decide +kernel, by decide +kernel, by decide +kernel⟩ (by decide +kernel) 9
  have : ∀ n ∈ Path.Spec.names false (lit "/w/none"), n ≠ [46] ∧ n ≠ [46, 46] := by decide +kernel
  exact this

/-- **C86.** Deleting a file or a link removes that one thing: of a link not what it leads to.  Deleting a directory or
what is not there fails an assertion; nothing is removed. -/
theorem C86_delete {d : Disk} {cwd w : Where} {path : List Byte} (t : Tree d) (hl : LeadsTo d cwd path w) (ho : ¬ OpenEnd false path) :
    deleteFile cwd d path = if lookup d w = none ∨ lookup d w = some .dir then (d, none) else (without d w, some .ok) := by
  rw [deleteFile, unlink_leads hl ho]
  cases e : lookup d w with
  | none => simp
  | some x =>
    have key : x ≠ .dir → erase d w = without d w := fun hx =>
      erase_without (Did.refl t w) (nondir_children t (leads_ne hl) e hx)
    cases x with
    | dir => simp
    | file => simp [key]
    | link s => simp [key]

/-- The link `/w/t/l`, not the directory it leads to. -/
example : (deleteFile [] exDisk (lit "/w/t/l")).1.length = 7 ∧
    ([lit "w", lit "keep", lit "k"], .file) ∈ (deleteFile [] exDisk (lit "/w/t/l")).1 ∧
    lookup (deleteFile [] exDisk (lit "/w/t/l")).1 [lit "w", lit "t", lit "l"] = none := by
  decide +kernel

/-! ## Where the claim fails -/

/-- A directory with one link, leading nowhere. -/
def dangling : Disk := [([lit "t"], .dir), ([lit "t", lit "l"], .link (lit "gone"))]

/-- **C86 is false with a link that leads nowhere**: it is not removed, and removing the directory fails an assertion. -/
theorem C86_dangling (fuel : Nat) : removeDirTree [] (fuel + 1) dangling (lit "/t") = (dangling, none) := by
  have h1 : opendir dangling [] (lit "/t") = .ok [lit "t"] := by decide +kernel
  have h2 : readdir dangling [lit "t"] = [([46], .dir), ([46, 46], .dir), (lit "l", .link (lit "gone"))] := by decide +kernel
  have h3 : Path.joinAndNormalize false [lit "/t", lit "l"] = some (lit "/t/l") := by decide +kernel
  have h4 : stat dangling [] (lit "/t/l") = .error .noent := by decide +kernel
  have h5 : rmdir dangling [] (lit "/t") = .error .notempty := by decide +kernel
  rw [removeDirTree, h1]
  simp [h2, removeLoop, h3, h4, h5]

/-- **C86 is false with a link to a file of the same directory**, if the file is listed before the link: the file is
removed, then the link leads nowhere, and is not removed.  With the link listed first all is well. -/
theorem C86_order :
    removeDirTree [] 3 [([lit "t"], .dir), ([lit "t", lit "b"], .file), ([lit "t", lit "l"], .link (lit "b"))] (lit "/t") =
      ([([lit "t"], .dir), ([lit "t", lit "l"], .link (lit "b"))], none) ∧
    removeDirTree [] 3 [([lit "t"], .dir), ([lit "t", lit "l"], .link (lit "b")), ([lit "t", lit "b"], .file)] (lit "/t") =
      ([], some .ok) := by
  decide +kernel

/-- **C86 is false of a link to a directory**: what is in the directory that the link leads to is removed; then an
assertion fails, since the link is not a directory. -/
theorem C86_top_link :
    removeDirTree [] 3 [([lit "l"], .link (lit "b")), ([lit "b"], .dir), ([lit "b", lit "x"], .file)] (lit "/l") =
      ([([lit "l"], .link (lit "b")), ([lit "b"], .dir)], none) := by
  decide +kernel

/-- **C86 is false of a path that goes up twice**: from `/p/q` the path `../../t` leads to `/t`, which has a file `f`.
Removing it removes the file `/p/q/t/f` instead, and then an assertion fails. -/
theorem C86_two_up :
    let d : Disk := [([lit "t"], .dir), ([lit "t", lit "f"], .file), ([lit "p"], .dir), ([lit "p", lit "q"], .dir),
      ([lit "p", lit "q", lit "t"], .dir), ([lit "p", lit "q", lit "t", lit "f"], .file)]
    opendir d [lit "p", lit "q"] (lit "../../t") = .ok [lit "t"] ∧
    removeDirTree [lit "p", lit "q"] 6 d (lit "../../t") =
      ([([lit "t"], .dir), ([lit "t", lit "f"], .file), ([lit "p"], .dir), ([lit "p", lit "q"], .dir),
        ([lit "p", lit "q", lit "t"], .dir)], none) := by
  decide +kernel

end Verif.Rm
