import Verif.Web.LemmasFile
/-!
# C46: which files requests reach

`meaning` is the lexical location a path names (`Verif.Path.Spec`).  Symbolic links are outside the
model.
-/
namespace Verif.Web
open Verif Spec Verif.Path.Spec

/-- The location `u` directories above `root`, then down `d`. -/
def from_ (root : Loc) (u : Nat) (d : List (List Byte)) : Loc :=
  ⟨root.anchor, root.ups, root.down.take (root.down.length - u) ++ d⟩

/-- Climbing `u` directories and coming down `d` ends inside exactly if `d` repeats the directories
climbed. -/
theorem inside_from (root : Loc) (u : Nat) (d : List (List Byte)) (hu : u ≤ root.down.length) :
    Inside root (from_ root u d) ↔ root.down.drop (root.down.length - u) <+: d := by
  unfold Inside from_
  dsimp only
  simp only [true_and]
  have e := List.take_append_drop (root.down.length - u) root.down
  constructor
  · rintro ⟨t, ht⟩
    refine ⟨t, ?_⟩
    have h2 : root.down.take (root.down.length - u) ++ (root.down.drop (root.down.length - u) ++ t) =
        root.down.take (root.down.length - u) ++ d := by
      rw [← List.append_assoc, e, ht]
    exact List.append_cancel_left h2
  · rintro ⟨t, rfl⟩
    refine ⟨t, ?_⟩
    rw [← List.append_assoc, e]

theorem posix_anchor (root : List Byte) : ∀ c, (meaning false [root]).anchor ≠ .drive c := by
  intro c hc
  have hp : Path.Possible false (meaning false [root]).anchor := by
    rw [Path.meaning_gather, Path.foldl_stepT_fst, step_anchor]
    exact Path.gather_possible false _ _ (Path.possible_here false)
  have := (hp.1 c (Or.inl hc)).2
  cases this

/-- Where a joined path leads, and when that is inside. -/
theorem below_inside (win : Bool) (root rel p : List Byte) (hnd : NoDrive win [root, rel])
    (hp : (parse win rel).1 = none) (ht : tame win [root] = true)
    (hdr : ∀ c, (meaning win [root]).anchor ≠ .drive c)
    (hu : (meaning win [rel]).ups ≤ (meaning win [root]).down.length)
    (hj : Path.joinAndNormalize win [root, rel] = some p) :
    meaning win [p] = from_ (meaning win [root]) (meaning win [rel]).ups (meaning win [rel]).down ∧
    ((meaning win [rel]).ups = 0 → Inside (meaning win [root]) (meaning win [p])) ∧
    (Inside (meaning win [root]) (meaning win [p]) ↔
      (meaning win [root]).down.drop ((meaning win [root]).down.length - (meaning win [rel]).ups) <+:
        (meaning win [rel]).down) := by
  obtain ⟨p', h6, h7⟩ := join_below win root rel hnd hp ht hdr hu
  rw [hj] at h6
  cases h6
  have hin := inside_from (meaning win [root]) (meaning win [rel]).ups (meaning win [rel]).down hu
  rw [h7]
  refine ⟨rfl, fun h0 => ?_, hin⟩
  refine hin.mpr ?_
  rw [h0, Nat.sub_zero, List.drop_length]
  exact List.nil_prefix

/-! ## Static files -/

/-- A static file is looked for exactly if the last name of the request (up to the first `?`) has one
of the eight served extensions, counted from its first dot; nothing ever fails an assertion. -/
theorem C46_extensions (win : Bool) (root req : List Byte) :
    ∃ dir seps name, beforeQuery req = dir ++ seps ++ name ∧ (∀ c ∈ seps, Path.Spec.Sep win c) ∧
      (∀ c ∈ name, ¬ Path.Spec.Sep win c) ∧ (seps = [] → dir = []) ∧
      (Served name → ∃ p, fetch win root req = .load p) ∧
      (¬ Served name → fetch win root req = .notFound) := by
  obtain ⟨dir, name, h1, h2, h3⟩ := fetch_eq win root req
  obtain ⟨dir', seps, name', g1, g2, g3, g4, g5⟩ := Path.C24_split win (beforeQuery req)
  rw [h1] at g1
  cases g1
  by_cases hse : seps = []
  · rcases g5 with g5 | g5 | g5
    · exact ⟨dir, seps, name, g2, g3, g4, fun _ => g5.1, fun hs => ⟨_, (h2 hs).choose_spec.2⟩, h3⟩
    · obtain ⟨_, _, _, g, _⟩ := g5; exact absurd hse g
    · -- a root: its separator is the last byte
      obtain ⟨d2, s2, hd, hs2, hs2ne⟩ : ∃ d2 s2, dir = d2 ++ s2 ∧ (∀ c ∈ s2, Path.Spec.Sep win c) ∧ s2 ≠ [] := by
        unfold Path.IsRoot at g5
        rcases g5 with ⟨c, rfl, hc⟩ | ⟨l, c, _, _, hc, rfl⟩
        · exact ⟨[], [c], rfl, by simpa using hc, by simp⟩
        · exact ⟨[l, 58], [c], rfl, by simpa using hc, by simp⟩
      exact ⟨d2, s2, name, by rw [g2, hd, hse]; simp, hs2, g4, fun h => absurd h hs2ne,
        fun hs => ⟨_, (h2 hs).choose_spec.2⟩, h3⟩
  · exact ⟨dir, seps, name, g2, g3, g4, fun h => absurd h hse, fun hs => ⟨_, (h2 hs).choose_spec.2⟩, h3⟩

example : fetch false (Path.txt "/srv") (Path.txt "/static/a.css?v=2") = .load (Path.txt "/srv/static/a.css") ∧
    fetch false (Path.txt "/srv") (Path.txt "/static/a.min.css") = .notFound ∧
    fetch false (Path.txt "/srv") (Path.txt "/static/.css") = .notFound ∧
    fetch false (Path.txt "/srv") (Path.txt "/static/passwd?x.css") = .notFound := by decide +kernel

/-- **C46**, static files on POSIX, for every root that normalises faithfully and every request: the
file read, if any, is the one named by the request relative to the root, up to `u` directories above
it, where `u` is how far the request climbs above its own start; and it is inside the root exactly if
the request comes back down through the directories it climbed.  In particular a request that never
climbs stays inside.  Missing: requests that climb above `/` (they are then resolved against the
working directory, `C46_above_root`), and the confinement of climbing requests, which is false
(`C46_static_escape`). -/
theorem C46_static_partial (root req p : List Byte) (ht : tame false [root] = true)
    (hload : fetch false root req = .load p)
    (hu : (meaning false [(beforeQuery req).dropWhile (· == 47)]).ups ≤ (meaning false [root]).down.length) :
    let rel := meaning false [(beforeQuery req).dropWhile (· == 47)]
    meaning false [p] = from_ (meaning false [root]) rel.ups rel.down ∧
    (rel.ups = 0 → Inside (meaning false [root]) (meaning false [p])) ∧
    (Inside (meaning false [root]) (meaning false [p]) ↔
      (meaning false [root]).down.drop ((meaning false [root]).down.length - rel.ups) <+: rel.down) := by
  dsimp only
  obtain ⟨dir, name, h1, h2, h3⟩ := fetch_eq false root req
  by_cases hs : Served name
  · obtain ⟨p', h4, h5⟩ := h2 hs
    rw [hload] at h5
    cases h5
    exact below_inside false root _ p (Path.noDrive_posix _) (posix_plain (beforeQuery req)) ht
      (posix_anchor root) hu h4
  · rw [h3 hs] at hload
    cases hload

example : fetch false (Path.txt "/srv/www") (Path.txt "/static/x/../a.css") =
      .load (Path.txt "/srv/www/static/a.css") ∧
    Inside (meaning false [Path.txt "/srv/www"]) (meaning false [Path.txt "/srv/www/static/a.css"]) := by
  decide +kernel

/-- The same on Windows, if no name of the root or the request looks like a drive (`C:`), and the root
is not relative to a drive.  Missing besides: exactly those (`C46_windows_drive`). -/
theorem C46_static_windows_partial (root req p : List Byte) (ht : tame true [root] = true)
    (hnd : NoDrive true [root, (beforeQuery req).dropWhile (· == 47)])
    (hp : (parse true ((beforeQuery req).dropWhile (· == 47))).1 = none)
    (hdr : ∀ c, (meaning true [root]).anchor ≠ .drive c)
    (hload : fetch true root req = .load p)
    (hu : (meaning true [(beforeQuery req).dropWhile (· == 47)]).ups ≤ (meaning true [root]).down.length) :
    let rel := meaning true [(beforeQuery req).dropWhile (· == 47)]
    meaning true [p] = from_ (meaning true [root]) rel.ups rel.down ∧
    (rel.ups = 0 → Inside (meaning true [root]) (meaning true [p])) := by
  dsimp only
  obtain ⟨dir, name, h1, h2, h3⟩ := fetch_eq true root req
  by_cases hs : Served name
  · obtain ⟨p', h4, h5⟩ := h2 hs
    rw [hload] at h5
    cases h5
    obtain ⟨g1, g2, _⟩ := below_inside true root _ p hnd hp ht hdr hu h4
    exact ⟨g1, g2⟩
  · rw [h3 hs] at hload
    cases hload

example : fetch true (Path.txt "C:\\www") (Path.txt "/static/a.css") =
    .load (Path.txt "C:\\www\\static\\a.css") := by decide +kernel

/-- **C46** fails for static files: whatever (non-trivial) directory is served, some request to the
server reads a file outside it. -/
theorem C46_static_escape (root srcRoot : List Byte) (ht : tame false [root] = true)
    (hR : (meaning false [root]).down ≠ []) :
    ∃ req p, route false root srcRoot req = some (.load p) ∧
      ¬ Inside (meaning false [root]) (meaning false [p]) := by
  have key : ∀ req rel : List Byte, route false root srcRoot req = some (fetch false root req) →
      (beforeQuery req).dropWhile (· == 47) = rel →
      ∀ name dir, Path.split false (beforeQuery req) = some (dir, name) → Served name →
      (meaning false [rel]).ups = 1 →
      ¬ ((meaning false [root]).down.drop ((meaning false [root]).down.length - 1) <+:
        (meaning false [rel]).down) →
      ∃ req p, route false root srcRoot req = some (.load p) ∧
      ¬ Inside (meaning false [root]) (meaning false [p]) := by
    intro req rel h1 h2 name dir h3 h4 h5 h6
    obtain ⟨dir', name', g1, g2, g3⟩ := fetch_eq false root req
    rw [h3] at g1
    cases g1
    obtain ⟨p, g4, g5⟩ := g2 h4
    refine ⟨req, p, by rw [h1, g5], ?_⟩
    have hlen : (meaning false [root]).down.length ≥ 1 := List.length_pos_iff.mpr hR
    subst h2
    have := (C46_static_partial root req p ht g5 (by rw [h5]; exact hlen)).2.2
    rw [this, h5]
    exact h6
  by_cases hx : (meaning false [root]).down.drop ((meaning false [root]).down.length - 1) = [Path.txt "x.js"]
  · refine key (Path.txt "/static/../../y.js") _ ?_ rfl (Path.txt "y.js") (Path.txt "/static/../..") ?_ ?_ ?_ ?_
    · unfold route; rw [if_pos (by decide +kernel)]
    · decide +kernel
    · exact (served_iff _).mp ⟨0, by decide +kernel, by decide +kernel⟩
    · decide +kernel
    · rw [hx]; decide +kernel
  · refine key (Path.txt "/static/../../x.js") _ ?_ rfl (Path.txt "x.js") (Path.txt "/static/../..") ?_ ?_ ?_ ?_
    · unfold route; rw [if_pos (by decide +kernel)]
    · decide +kernel
    · exact (served_iff _).mp ⟨0, by decide +kernel, by decide +kernel⟩
    · decide +kernel
    · intro hpre
      rw [show (meaning false [(beforeQuery (Path.txt "/static/../../x.js")).dropWhile (· == 47)]).down =
        [Path.txt "x.js"] by decide +kernel] at hpre
      have h1 : ((meaning false [root]).down.drop ((meaning false [root]).down.length - 1)).length = 1 := by
        have := List.length_pos_iff.mpr hR
        rw [List.length_drop]; omega
      exact hx (hpre.eq_of_length (by rw [h1]; rfl))

example : route false (Path.txt "/srv/www") (Path.txt "/src") (Path.txt "/static/../../secret.js") =
    some (.load (Path.txt "/srv/secret.js")) := by decide +kernel

/-- Climbing above the root directory of the file system makes the path relative to the working
directory. -/
theorem C46_above_root :
    fetch false (Path.txt "/srv") (Path.txt "/static/../../../a.js") = .load (Path.txt "a.js") := by
  decide +kernel

/-- On Windows a request may name a drive, and then the root does not matter. -/
theorem C46_windows_drive (root : List Byte) :
    fetch true root (Path.txt "/C:/secret.js") = .load (Path.txt "C:\\secret.js") := by
  obtain ⟨dir, name, h1, h2, h3⟩ := fetch_eq true root (Path.txt "/C:/secret.js")
  have hsp : Path.split true (beforeQuery (Path.txt "/C:/secret.js")) =
      some (Path.txt "/C:", Path.txt "secret.js") := by decide +kernel
  rw [hsp] at h1
  cases h1
  obtain ⟨p, h4, h5⟩ := h2 ((served_iff _).mp ⟨5, by decide +kernel, by decide +kernel⟩)
  rw [h5]
  have := Path.C22_anchor_wins true [root] (Path.txt "C:/secret.js") [] (by decide +kernel)
  have e : (beforeQuery (Path.txt "/C:/secret.js")).dropWhile (fun c => c == 47) = Path.txt "C:/secret.js" := by
    decide +kernel
  rw [e] at h4
  rw [show ([root] ++ [Path.txt "C:/secret.js"] : List (List Byte)) = [root, Path.txt "C:/secret.js"] from rfl,
    h4] at this
  have e2 : Path.joinAndNormalize true [Path.txt "C:/secret.js"] = some (Path.txt "C:\\secret.js") := by
    decide +kernel
  rw [e2] at this
  cases this
  rfl

/-! ## Source files -/

theorem isSep_false (c : Byte) : Path.isSep false c = (c == 47) := by simp [Path.isSep]

/-- **C46**, source files on POSIX: for every request whatsoever the file opened is inside the root or
below the directory just above it; a request that does not climb stays inside.  Missing: the one
directory above (`C46_source_escape`). -/
theorem C46_source_partial (root req : List Byte) (ht : tame false [root] = true)
    (hR : (meaning false [root]).down ≠ []) :
    ∃ p u d, source false root req = .load p ∧ u ≤ 1 ∧
      meaning false [p] = from_ (meaning false [root]) u d ∧
      ((meaning false [req.dropWhile (· == 47)]).ups ≤ 1 →
        (⟨.here, u, d⟩ : Loc) = meaning false [req.dropWhile (· == 47)]) ∧
      (u = 0 → Inside (meaning false [root]) (meaning false [p])) := by
  have e : Str.trim (Path.isSep false) true false req = req.dropWhile (· == 47) := by
    rw [trim_left]
    congr 1
    funext c
    exact isSep_false c
  obtain ⟨norm, h1, h2, h3, h4, h5⟩ := norm_rel false (req.dropWhile (· == 47)) (Path.noDrive_posix _)
    (posix_plain req)
  obtain ⟨p, h6, _⟩ := Path.C22_total false [root, norm]
  have hlen : (meaning false [root]).down.length ≥ 1 := List.length_pos_iff.mpr hR
  obtain ⟨g1, g2, _⟩ := below_inside false root norm p (Path.noDrive_posix _) h2 ht (posix_anchor root)
    (by omega) h6
  refine ⟨p, _, _, ?_, h4, g1, fun hle => ?_, g2⟩
  · unfold source
    rw [e, h1]
    dsimp only
    rw [h6]
  · rw [← h5 hle]
    have : (meaning false [norm]).anchor = .here := by
      show (follow false _ norm).anchor = _
      unfold follow
      rw [(show Path.Plain false norm from h2).parse.2.2]
      exact step_anchor _ _
    rw [← this]

/-- Climbing far is harmless: `../../` is dropped. -/
example : source false (Path.txt "/w/src") (Path.txt "../../../etc/passwd") = .load (Path.txt "/w/etc/passwd") ∧
    source false (Path.txt "/w/src") (Path.txt "../../etc/passwd") = .load (Path.txt "/w/src/etc/passwd") := by
  decide +kernel

/-- **C46** fails for source files: every file and directory just above the root can be named. -/
theorem C46_source_escape (dataRoot root name : List Byte) (ht : tame false [root] = true)
    (hR : (meaning false [root]).down ≠ []) (hn : name ≠ []) (hs : 47 ∉ name)
    (hd : name ≠ [46] ∧ name ≠ [46, 46]) :
    ∃ p, route false dataRoot root (Path.txt "/file/../" ++ name) = some (.load p) ∧
      meaning false [p] = ⟨(meaning false [root]).anchor, (meaning false [root]).ups,
        (meaning false [root]).down.dropLast ++ [name]⟩ := by
  have hns : ∀ x ∈ name, ¬ Path.Spec.Sep false x := by
    intro x hx hsx
    rcases hsx with rfl | ⟨h, _⟩
    · exact hs hx
    · cases h
  have hdw : (Path.txt "../" ++ name).dropWhile (· == 47) = Path.txt "../" ++ name := rfl
  have hm : meaning false [Path.txt "../" ++ name] = ⟨.here, 1, [name]⟩ := by
    show follow false ⟨.here, 0, []⟩ (Path.txt "../" ++ name) = _
    unfold follow
    rw [show parse false (Path.txt "../" ++ name) = (none, Path.txt "../" ++ name) from rfl]
    dsimp only
    rw [show Path.txt "../" ++ name = [46, 46] ++ 47 :: name from rfl,
      Path.names_append (by simp) (by decide) (Or.inl rfl), Path.names_single hn hns]
    simp [Loc.step, Anchor.isRoot, hd.1, hd.2]
  obtain ⟨p, u, d, h1, h2, h3, h4, h5⟩ := C46_source_partial root (Path.txt "../" ++ name) ht hR
  rw [hdw, hm] at h4
  have h6 := h4 (Nat.le_refl _)
  injection h6 with _ h7 h8
  refine ⟨p, ?_, ?_⟩
  · unfold route
    rw [if_neg (by
      have : Str.startsWith (Path.txt "/file/../" ++ name) [47, 115, 116, 97, 116, 105, 99, 47] = false := by
        unfold Str.startsWith
        split
        · rfl
        · show (List.take 8 (Path.txt "/file/../" ++ name) == _) = false
          rw [List.take_append_of_le_length (by decide)]
          decide
      rw [this]; simp), if_pos (by
      unfold Str.startsWith
      rw [if_neg (by simp [Path.txt])]
      show (List.take 6 (Path.txt "/file/../" ++ name) == _) = true
      rw [List.take_append_of_le_length (by decide)]
      decide)]
    show some (source false root (Path.txt "../" ++ name)) = _
    rw [h1]
  · rw [h3, h7, h8]
    unfold from_
    rw [List.dropLast_eq_take]

example : route false (Path.txt "/srv") (Path.txt "/home/me/src") (Path.txt "/file/../.netrc") =
    some (.load (Path.txt "/home/me/.netrc")) := by decide +kernel

/-! ## Virtual file systems -/

/-- **C46**, virtual file systems on POSIX: an absolute path fails an assertion, any other path is
resolved relative to the root, and stays inside if it does not climb.  Missing: paths that climb
(`C46_virtual_escape`; the code says so itself, rt/filesystem/impl/FileSystem_Virtual.cpp:18). -/
theorem C46_virtual_partial (root path : List Byte) (ht : tame false [root] = true) :
    ((parse false path).1 ≠ none → virtualPath false root path = none) ∧
    ((parse false path).1 = none → ∃ p, virtualPath false root path = some p ∧
      ((meaning false [path]).ups ≤ (meaning false [root]).down.length →
        meaning false [p] = from_ (meaning false [root]) (meaning false [path]).ups (meaning false [path]).down ∧
        ((meaning false [path]).ups = 0 → Inside (meaning false [root]) (meaning false [p])))) := by
  constructor
  · intro h
    unfold virtualPath
    rcases Path.parse_cases false path with ⟨c, r, hw, _⟩ | ⟨c, r, hw, _⟩ | ⟨_, _, h3, e⟩ | ⟨_, h3, e⟩
    · cases hw
    · cases hw
    · rw [if_pos h3]
    · rw [e] at h; exact absurd rfl h
  · intro h
    obtain ⟨p, h1, _⟩ := Path.C22_total false [root, path]
    have h2 := (show Path.Plain false path from h).parse.2.1
    refine ⟨p, ?_, fun hu => ?_⟩
    · unfold virtualPath
      rw [if_neg (by rw [h2]; simp), show Path.convert false false path = path from by simp [Path.convert], h1]
    · obtain ⟨g1, g2, _⟩ := below_inside false root path p (Path.noDrive_posix _) h ht (posix_anchor root) hu h1
      exact ⟨g1, g2⟩

example : virtualPath false (Path.txt "/v") (Path.txt "a/../b") = some (Path.txt "/v/b") ∧
    virtualPath false (Path.txt "/v") (Path.txt "/a") = none := by decide +kernel

/-- **C46** fails for virtual file systems. -/
theorem C46_virtual_escape :
    virtualPath false (Path.txt "/v/w") (Path.txt "../a") = some (Path.txt "/v/a") ∧
    ¬ Inside (meaning false [Path.txt "/v/w"]) (meaning false [Path.txt "/v/a"]) := by decide +kernel

end Verif.Web
