import Verif.Fs.Lemmas
/-!
# Saving files — property C44
-/
namespace Verif.Fs
open Spec

/-- **C44**: making directories, for a path that does not end with a slash and has no file in its way:
afterwards all places on the way are directories and nothing else has changed. -/
theorem C44_makeDirs {d : Disk} (ht : Tree d) (cwd : Where) (path : List Byte) (past : List Disk)
    (hne : path ≠ []) (hl : path.getLast? ≠ some 47) (hs : d (start cwd path) = some .dir)
    (hf : Free d (passed (start cwd path) (way path) ++ [target (start cwd path) (way path)])) :
    ∃ r res, makeDirs cwd (path.length + 1) ⟨d, past⟩ path = (r, some res) ∧
      (res = .ok ∨ res = .alreadyExists) ∧
      ∀ v, r.disk v = if v ∈ passed (start cwd path) (way path) ∨ v = target (start cwd path) (way path)
        then some .dir else d v := by
  obtain ⟨r, res, h1, h2, h3, -⟩ := makeDirs_spec ht cwd (path.length + 1) path ⟨d, past⟩ (by omega) hne
    (.inl hl) rfl hs hf
  refine ⟨r, res, h1, h2, fun v => ?_⟩
  rw [h3]
  unfold withDirs
  simp only [List.mem_append, List.mem_singleton]

/-- **C44**: making directories fails an assertion if the path ends with a slash and the directory
before does not exist. -/
theorem C44_makeDirs_slash : (makeDirs [] 10 ⟨fun w => if w = [] then some .dir else none, []⟩
    [97, 47, 98, 47]).2 = none := by decide +kernel

/-- **C44**: making directories fails an assertion, and does not report `AccessDenied`, if a file is in
the way. -/
theorem C44_makeDirs_file : (makeDirs [] 10
    ⟨fun w => if w = [] then some .dir else if w = [[97]] then some (.file []) else none, []⟩
    [97, 47, 98]).2 = none := by decide +kernel

/-- A disk with some more directories, and otherwise as it was. -/
def Grown (d d' : Disk) : Prop := ∀ v, d' v = d v ∨ (d v = none ∧ d' v = some .dir)

theorem Grown.trans {a b c : Disk} (h1 : Grown a b) (h2 : Grown b c) : Grown a c := fun v => by
  rcases h1 v with e1 | ⟨e1, e1'⟩ <;> rcases h2 v with e2 | ⟨e2, e2'⟩
  · exact .inl (e2.trans e1)
  · exact .inr ⟨e1 ▸ e2, e2'⟩
  · exact .inr ⟨e1, e2.trans e1'⟩
  · rw [e1'] at e2; cases e2

theorem makeDir_grows (r : Run) (cwd : Where) (path : List Byte) {r' : Run} {res : Option FSResult}
    (h : makeDir r cwd path = (r', res)) :
    Grown r.disk r'.disk ∧ (res = some .ok → stat r'.disk cwd path = .ok .dir) ∧
      ∀ x, res = some x → (x = .ok ∨ x = .alreadyExists) ∧
        ∃ w e, follow r'.disk (start cwd path) (way path) = .ok w ∧ r'.disk w = some e := by
  unfold makeDir mkdir at h
  by_cases hne : path = []
  · rw [if_pos hne] at h
    cases h
    exact ⟨fun v => .inl rfl, by simp, by simp⟩
  rw [if_neg hne] at h
  have hfol : ∀ (d : Disk) (ns : List Name) (cur w : Where), follow d cur ns = .ok w → d w = none →
      (∀ v ∈ passed cur ns, d v = some .dir) ∧ w = target cur ns := by
    intro d ns cur w hw hn
    rcases follow_cases d ns cur with ⟨f1, f2⟩ | ⟨f1, -⟩ | ⟨f1, -⟩
    · rw [f2] at hw; cases hw; exact ⟨f1, rfl⟩
    · rw [f1] at hw; cases hw
    · rw [f1] at hw; cases hw
  cases hf : follow r.disk (start cwd path) (Path.Spec.names false path) with
  | error e =>
    rw [hf] at h
    have hx : e = .noent ∨ e = .notdir := by
      rcases follow_cases r.disk (Path.Spec.names false path) (start cwd path) with ⟨-, f2⟩ | ⟨f1, -⟩ | ⟨f1, -⟩
      · rw [f2] at hf; cases hf
      · rw [f1] at hf; cases hf; exact .inl rfl
      · rw [f1] at hf; cases hf; exact .inr rfl
    rcases hx with rfl | rfl <;> (cases h; exact ⟨fun v => .inl rfl, by simp, by simp⟩)
  | ok w =>
    rw [hf] at h
    dsimp only at h
    cases hw : r.disk w with
    | some e =>
      rw [hw] at h
      cases h
      exact ⟨fun v => .inl rfl, by simp, fun x hx => ⟨.inr (by cases hx; rfl), w, e, hf, hw⟩⟩
    | none =>
      rw [hw] at h
      cases h
      obtain ⟨hp, hw'⟩ := hfol _ _ _ _ hf hw
      have hfol' : follow (r.disk.set w .dir) (start cwd path) (way path) = .ok w := by
        rw [hw']
        refine follow_ok _ _ _ fun v hv => ?_
        unfold Disk.set
        split
        · rfl
        · exact hp v hv
      have hset : (r.disk.set w .dir) w = some .dir := by unfold Disk.set; rw [if_pos rfl]
      refine ⟨fun v => ?_, fun _ => ?_, fun x hx => ⟨.inl (by cases hx; rfl), w, .dir, hfol', hset⟩⟩
      · show (r.disk.set w .dir) v = _ ∨ _ ∧ (r.disk.set w .dir) v = _
        unfold Disk.set
        by_cases hv : v = w
        · rw [if_pos hv, hv]; exact .inr ⟨hw, rfl⟩
        · rw [if_neg hv]; exact .inl rfl
      · show stat (r.disk.set w .dir) cwd path = _
        have hres : resolve (r.disk.set w .dir) cwd path = .ok w := by
          unfold resolve comps
          rw [if_neg hne]
          by_cases hl : path.getLast? = some 47
          · rw [if_pos hl, follow_ok]
            · rw [target_snoc, ← hw']; rfl
            · intro v hv
              rw [passed_snoc] at hv
              rcases List.mem_append.mp hv with hv | hv
              · unfold Disk.set
                split
                · rfl
                · exact hp v hv
              · rw [List.mem_singleton] at hv
                rw [hv, ← hw']; exact hset
          · rw [if_neg hl, List.append_nil]; exact hfol'
        unfold stat
        rw [hres]
        dsimp only
        rw [hset]

/-- **C44**: making directories, whatever the path and whatever is on the disk, never changes or removes
anything that exists: all it can do is add directories. -/
theorem C44_makeDirs_adds (cwd : Where) : ∀ (fuel : Nat) (r : Run) (path : List Byte) (r' : Run)
    (res : Option FSResult), makeDirs cwd fuel r path = (r', res) → Grown r.disk r'.disk
  | 0, r, path, r', res, h => by rw [makeDirs] at h; cases h; exact fun v => .inl rfl
  | fuel + 1, r, path, r', res, h => by
    rw [makeDirs] at h
    by_cases hp : path = Path.getDriveLetter false path
    · rw [if_pos hp] at h; cases h; exact fun v => .inl rfl
    rw [if_neg hp] at h
    cases he : exists_ r.disk cwd path with
    | none => rw [he] at h; cases h; exact fun v => .inl rfl
    | some x =>
      rw [he] at h
      cases x with
      | directory => cases h; exact fun v => .inl rfl
      | file => cases h; exact fun v => .inl rfl
      | notFound =>
        dsimp only at h
        cases hs : Path.split false path with
        | none => rw [hs] at h; cases h; exact fun v => .inl rfl
        | some q =>
          obtain ⟨first, second⟩ := q
          rw [hs] at h
          dsimp only at h
          by_cases hq : first ≠ [] ∧ second ≠ []
          · rw [if_pos hq] at h
            cases hm : makeDirs cwd fuel r first with
            | mk r1 x =>
              have ih := C44_makeDirs_adds cwd fuel r first r1 x hm
              rw [hm] at h
              split at h
              · next e => cases e; exact ih.trans (makeDir_grows _ _ _ h).1
              · next e => cases e; exact ih.trans (makeDir_grows _ _ _ h).1
              · next e => cases e; cases h; exact ih
          · rw [if_neg hq] at h
            exact (makeDir_grows _ _ _ h).1

/-- **C44**: when making directories reports that a directory was made, the path leads to a directory;
when it reports that there was one already, the path leads to something. -/
theorem C44_makeDirs_tells (cwd : Where) (fuel : Nat) (r r' : Run) (path : List Byte) (hne : path ≠ [])
    (res : FSResult) (h : makeDirs cwd fuel r path = (r', some res)) :
    (res = .ok → stat r'.disk cwd path = .ok .dir) ∧
    (res = .alreadyExists → ∃ w e, follow r'.disk (start cwd path) (way path) = .ok w ∧
      r'.disk w = some e) := by
  cases fuel with
  | zero => rw [makeDirs] at h; cases h
  | succ fuel =>
    rw [makeDirs, if_neg (by unfold Path.getDriveLetter Path.hasDriveLetter; simpa using hne)] at h
    have hmk : ∀ r1 : Run, makeDir r1 cwd path = (r', some res) →
        (res = .ok → stat r'.disk cwd path = .ok .dir) ∧
        (res = .alreadyExists → ∃ w e, follow r'.disk (start cwd path) (way path) = .ok w ∧
          r'.disk w = some e) := fun r1 h1 => by
      obtain ⟨-, h2, h3⟩ := makeDir_grows _ _ _ h1
      exact ⟨fun e => h2 (by rw [e]), fun _ => (h3 res rfl).2⟩
    cases he : exists_ r.disk cwd path with
    | none => rw [he] at h; cases h
    | some x =>
      rw [he] at h
      cases x with
      | file => cases h; exact ⟨by simp, by simp⟩
      | directory =>
        cases h
        refine ⟨by simp, fun _ => ?_⟩
        have hst : stat r.disk cwd path = .ok .dir := by
          unfold exists_ at he
          split at he
          · next e => exact e
          all_goals cases he
        unfold stat resolve at hst
        rw [if_neg hne] at hst
        unfold comps at hst
        by_cases hl : path.getLast? = some 47
        · rw [if_pos hl] at hst
          rcases follow_cases r.disk (way path ++ [[46]]) (start cwd path) with ⟨f1, f2⟩ | ⟨f1, -⟩ | ⟨f1, -⟩
          · refine ⟨_, .dir, follow_ok _ _ _ fun w hw => f1 w ?_, f1 _ ?_⟩
            · rw [passed_snoc]; exact List.mem_append_left _ hw
            · rw [passed_snoc]; simp
          · rw [f1] at hst; cases hst
          · rw [f1] at hst; cases hst
        · rw [if_neg hl, List.append_nil] at hst
          cases hf : follow r.disk (start cwd path) (Path.Spec.names false path) with
          | error e => rw [hf] at hst; cases hst
          | ok w =>
            rw [hf] at hst
            dsimp only at hst
            cases hw : r.disk w with
            | none => rw [hw] at hst; cases hst
            | some e => exact ⟨w, e, rfl, hw⟩
      | notFound =>
        dsimp only at h
        cases hs : Path.split false path with
        | none => rw [hs] at h; cases h
        | some q =>
          obtain ⟨first, second⟩ := q
          rw [hs] at h
          dsimp only at h
          by_cases hq : first ≠ [] ∧ second ≠ []
          · rw [if_pos hq] at h
            split at h
            · exact hmk _ h
            · exact hmk _ h
            · next n1 n2 _ =>
              cases h
              exact ⟨fun e => by subst e; exact (n1 rfl).elim, fun e => by subst e; exact (n2 rfl).elim⟩
          · rw [if_neg hq] at h
            exact hmk _ h

/-- **C44**: making directories reports `AccessDenied`, and changes nothing, if the path leads to a
file. -/
theorem C44_makeDirs_denied (d : Disk) (cwd : Where) (path : List Byte) (past : List Disk) (c : List Byte)
    (fuel : Nat) (hne : path ≠ []) (h : stat d cwd path = .ok (.file c)) :
    makeDirs cwd (fuel + 1) ⟨d, past⟩ path = (⟨d, past⟩, some .accessDenied) := by
  rw [makeDirs, if_neg (by unfold Path.getDriveLetter Path.hasDriveLetter; simpa using hne)]
  unfold exists_
  rw [h]

/-- **C44**: it is not true that making directories reports `AlreadyExists` only for a directory: with a
file `f` and no `a`, for the path `a/../f` it does so (and makes a directory `a`). -/
theorem C44_makeDirs_exists_false :
    let d : Disk := fun w => if w = [] then some .dir else if w = [[102]] then some (.file []) else none
    (makeDirs [] 10 ⟨d, []⟩ [97, 47, 46, 46, 47, 102]).2 = some .alreadyExists ∧
    (makeDirs [] 10 ⟨d, []⟩ [97, 47, 46, 46, 47, 102]).1.disk [[102]] = some (.file []) ∧
    (makeDirs [] 10 ⟨d, []⟩ [97, 47, 46, 46, 47, 102]).1.disk [[97]] = some .dir := by
  decide +kernel

theorem writeLoop_success (w : Where) : ∀ (sent : List Nat) (bs : List Byte) (r : Run),
    Transfers bs.length sent → (writeLoop w r bs sent).2 = true
  | sent, [], r, _ => by cases sent <;> rfl
  | [], b :: bs, r, ⟨k, _, h⟩ => by simp at h
  | n :: sent, b :: bs, r, ⟨k, h1, h2⟩ => by
    cases k with
    | zero => simp at h2
    | succ k =>
      rw [List.take_succ_cons] at h1 h2
      rw [writeLoop, if_neg (h1 n (by simp))]
      refine writeLoop_success w sent _ _ ⟨k, fun x hx => h1 x (by simp [hx]), ?_⟩
      rw [List.length_drop]
      rw [List.sum_cons] at h2
      omega

/-- What loading finds. -/
theorem load_spec {d : Disk} {cwd : Where} {path : List Byte} (h : Savable d cwd path)
    (hsmall : ∀ c, d (target (start cwd path) (way path)) = some (.file c) → c.length < 2 ^ 32) :
    (∃ c, d (target (start cwd path) (way path)) = some (.file c) ∧
      (∀ w ∈ passed (start cwd path) (way path), d w = some .dir) ∧ loadBinary d cwd path = some (.ok, c)) ∨
    ((d (target (start cwd path) (way path)) = none ∨
      ∃ w ∈ passed (start cwd path) (way path), d w = none) ∧ loadBinary d cwd path = some (.notFound, [])) := by
  unfold loadBinary openRead stat resolve
  rw [if_neg h.nonempty, comps_good h.noSlash]
  rcases follow_cases d (way path) (start cwd path) with ⟨f1, f2⟩ | ⟨f1, f2⟩ | ⟨f1, w, f2, c, f3⟩
  · rw [f2]
    dsimp only
    cases ht : d (target (start cwd path) (way path)) with
    | none => exact .inr ⟨.inl rfl, rfl⟩
    | some e =>
      cases e with
      | dir => exact absurd ht h.notDir
      | file c =>
        dsimp only
        rw [if_pos (hsmall c ht)]
        exact .inl ⟨c, rfl, f1, rfl⟩
  · rw [f1]
    exact .inr ⟨.inr f2, rfl⟩
  · exact absurd f3 (h.free w f2 c)

/-- Everything about a save that finds something else. -/
theorem save_spec {d : Disk} {cwd : Where} {path : List Byte} (h : Savable d cwd path) (past : List Disk)
    (hsmall : ∀ c, d (target (start cwd path) (way path)) = some (.file c) → c.length < 2 ^ 32)
    (view : List Byte) (sent : List Nat)
    (hdiff : ¬ ((∀ w ∈ passed (start cwd path) (way path), d w = some .dir) ∧
      d (target (start cwd path) (way path)) = some (.file view))) :
    ∃ r k, save ⟨d, past⟩ cwd path view sent = (r, some .ok) ∧ k ≤ view.length ∧
      r.disk = (withDirs d (passed (start cwd path) (way path))).set (target (start cwd path) (way path))
        (.file (view.take k)) ∧
      (Transfers view.length sent → k = view.length) ∧
      ∃ l1 l2, r.past = past ++ l1 ++
          (withDirs d (passed (start cwd path) (way path))).set (target (start cwd path) (way path)) (.file []) :: l2 ∧
        (∀ x ∈ l1, ∃ vs, (∀ v ∈ vs, v ∈ passed (start cwd path) (way path)) ∧ x = withDirs d vs) ∧
        (∀ x ∈ l2, ∃ j, j ≤ view.length ∧ x = (withDirs d (passed (start cwd path) (way path))).set
          (target (start cwd path) (way path)) (.file (view.take j))) := by
  obtain ⟨dir, name, e1, e2, e3, e4, e5⟩ := split_good path h.nonempty h.noSlash cwd
  -- what making directories does
  have hmake : ∃ r1 res, makeDirs cwd (dir.length + 1) ⟨d, past⟩ dir = (r1, some res) ∧
      (res = .ok ∨ res = .alreadyExists) ∧ r1.disk = withDirs d (passed (start cwd path) (way path)) ∧
      Steps d (passed (start cwd path) (way path)) past r1.past := by
    rcases e5 with ⟨rfl, hcwd⟩ | ⟨hd, hsd, hdg⟩
    · refine ⟨⟨d, past⟩, .ok, rfl, .inl rfl, ?_, Steps.nil _ _ _⟩
      have : way path = [name] := e4
      refine (withDirs_same ?_).symm
      rw [this]
      intro w hw
      simp only [passed, List.mem_singleton] at hw
      rw [hw]; exact h.starts
    · have hp : passed (start cwd path) (way path) = passed (start cwd dir) (way dir) ++
          [target (start cwd dir) (way dir)] := by
        rw [hsd]; show passed _ (Path.Spec.names false path) = _; rw [e4, passed_snoc]
      obtain ⟨r1, res, m1, m2, m3, m4⟩ := makeDirs_spec h.tree cwd (dir.length + 1) dir ⟨d, past⟩ (by omega)
        hd hdg rfl (by rw [hsd]; exact h.starts) (by rw [← hp]; exact h.free)
      rw [← hp] at m3 m4
      exact ⟨r1, res, m1, m2, m3, m4⟩
  obtain ⟨r1, res, m1, m2, m3, l, m4, m5⟩ := hmake
  have hopen : openWrite r1.disk cwd path = .ok (r1.disk.set (target (start cwd path) (way path)) (.file []),
      target (start cwd path) (way path)) := by
    unfold openWrite resolve
    rw [if_neg h.nonempty, comps_good h.noSlash, m3, follow_ok _ _ _ (by
      intro w hw; unfold withDirs; rw [if_pos hw])]
    dsimp only
    have hw : withDirs d (passed (start cwd path) (way path)) (target (start cwd path) (way path)) =
        d (target (start cwd path) (way path)) := by
      unfold withDirs; rw [if_neg h.apart]
    cases ht : withDirs d (passed (start cwd path) (way path)) (target (start cwd path) (way path)) with
    | none => rfl
    | some e =>
      cases e with
      | dir => rw [ht] at hw; exact absurd hw.symm h.notDir
      | file c => rfl
  have hrest : (match makeDirs cwd (dir.length + 1) ⟨d, past⟩ dir with
        | (r1, none) => (r1, none)
        | (r1, some res) =>
          if res ≠ .ok ∧ res ≠ .alreadyExists then (r1, some res)
          else
            match openWrite r1.disk cwd path with
            | .error .noent => (r1, some .notFound)
            | .error _ => (r1, none)
            | .ok (d, w) => ((writeLoop w (r1.put d) view sent).1, some .ok)) =
      ((writeLoop (target (start cwd path) (way path))
        (r1.put (r1.disk.set (target (start cwd path) (way path)) (.file []))) view sent).1, some .ok) := by
    rw [m1]
    dsimp only
    rw [if_neg (by rcases m2 with rfl | rfl <;> simp), hopen]
  have hsave : save ⟨d, past⟩ cwd path view sent =
      ((writeLoop (target (start cwd path) (way path))
        (r1.put (r1.disk.set (target (start cwd path) (way path)) (.file []))) view sent).1, some .ok) := by
    unfold save
    rcases load_spec h hsmall with ⟨c, g1, g2, g3⟩ | ⟨-, g3⟩
    · rw [g3]
      dsimp only
      rw [if_neg (fun hh => hdiff ⟨g2, by rw [g1, hh.2]⟩), if_neg (by simp), e1]
      exact hrest
    · rw [g3]
      dsimp only
      rw [if_neg (by simp), if_neg (by simp), e1]
      exact hrest
  obtain ⟨k, l2, k1, k2, k3, k4, k5⟩ := writeLoop_spec r1.disk (target (start cwd path) (way path)) sent view []
    (r1.put (r1.disk.set (target (start cwd path) (way path)) (.file []))) rfl
  refine ⟨_, k, hsave, k1, ?_, ?_, l, l2, ?_, m5, ?_⟩
  · rw [k2, m3]; rfl
  · intro ht
    exact k3.mp (writeLoop_success _ _ _ _ ht)
  · rw [k4]
    show (r1.past ++ [_]) ++ l2 = _
    rw [m4, m3, List.append_assoc, List.append_assoc, List.append_assoc]; rfl
  · intro x hx
    obtain ⟨j, j1, j2⟩ := k5 x hx
    exact ⟨j, j1, by rw [j2, m3]; rfl⟩

/-- **C44**: `Unchanged` is reported, and nothing touched, exactly when the file was there with these
contents. -/
theorem C44_unchanged {d : Disk} {cwd : Where} {path : List Byte} (h : Savable d cwd path)
    (hsmall : ∀ c, d (target (start cwd path) (way path)) = some (.file c) → c.length < 2 ^ 32)
    (past : List Disk) (view : List Byte) (sent : List Nat) :
    ((save ⟨d, past⟩ cwd path view sent).2 = some .unchanged ↔
      (∀ w ∈ passed (start cwd path) (way path), d w = some .dir) ∧
      d (target (start cwd path) (way path)) = some (.file view)) ∧
    ((save ⟨d, past⟩ cwd path view sent).2 = some .unchanged →
      (save ⟨d, past⟩ cwd path view sent).1 = ⟨d, past⟩) := by
  by_cases hd : (∀ w ∈ passed (start cwd path) (way path), d w = some .dir) ∧
      d (target (start cwd path) (way path)) = some (.file view)
  · have : save ⟨d, past⟩ cwd path view sent = (⟨d, past⟩, some .unchanged) := by
      unfold save
      rcases load_spec h hsmall with ⟨c, g1, g2, g3⟩ | ⟨g1 | ⟨w, g1, g2⟩, g3⟩
      · rw [g3]
        dsimp only
        rw [hd.2] at g1
        cases g1
        rw [if_pos ⟨rfl, rfl⟩]
      · rw [hd.2] at g1; cases g1
      · rw [hd.1 w g1] at g2; cases g2
    rw [this]
    exact ⟨⟨fun _ => hd, fun _ => rfl⟩, fun _ => rfl⟩
  · obtain ⟨r, k, h1, -⟩ := save_spec h past hsmall view sent hd
    rw [h1]
    exact ⟨⟨fun hh => (by cases hh), fun hh => absurd hh hd⟩, fun hh => (by cases hh)⟩

/-- **C44**: otherwise, if the calls of `write` transfer all bytes, `OK` is reported and afterwards the
file has exactly these contents, the places on the way are directories, and nothing else has
changed. -/
theorem C44_saved {d : Disk} {cwd : Where} {path : List Byte} (h : Savable d cwd path)
    (hsmall : ∀ c, d (target (start cwd path) (way path)) = some (.file c) → c.length < 2 ^ 32)
    (past : List Disk) (view : List Byte) (sent : List Nat) (hsent : Transfers view.length sent)
    (hres : (save ⟨d, past⟩ cwd path view sent).2 ≠ some .unchanged) :
    (save ⟨d, past⟩ cwd path view sent).2 = some .ok ∧
    ∀ v, (save ⟨d, past⟩ cwd path view sent).1.disk v =
      if v = target (start cwd path) (way path) then some (.file view)
      else if v ∈ passed (start cwd path) (way path) then some .dir
      else d v := by
  have hd := fun hh => hres ((C44_unchanged h hsmall past view sent).1.mpr hh)
  obtain ⟨r, k, h1, -, h3, h4, -⟩ := save_spec h past hsmall view sent hd
  rw [h1]
  refine ⟨rfl, fun v => ?_⟩
  rw [h3, h4 hsent, List.take_length]
  rfl

/-- **C44**, what remains of it when the process is killed: the file holds what it did or some initial
part of the new contents; any other place is as before, or a directory made on the way. -/
theorem C44_crash_partial {d : Disk} {cwd : Where} {path : List Byte} (h : Savable d cwd path)
    (hsmall : ∀ c, d (target (start cwd path) (way path)) = some (.file c) → c.length < 2 ^ 32)
    (view : List Byte) (sent : List Nat) (x : Disk) (hx : x ∈ (save ⟨d, [d]⟩ cwd path view sent).1.past) :
    (x (target (start cwd path) (way path)) = d (target (start cwd path) (way path)) ∨
      ∃ j, x (target (start cwd path) (way path)) = some (.file (view.take j))) ∧
    ∀ v, v ≠ target (start cwd path) (way path) → x v = d v ∨
      (v ∈ passed (start cwd path) (way path) ∧ x v = some .dir) := by
  have hwith : ∀ vs : List Where, (∀ v ∈ vs, v ∈ passed (start cwd path) (way path)) →
      withDirs d vs (target (start cwd path) (way path)) = d (target (start cwd path) (way path)) ∧
      ∀ v, withDirs d vs v = d v ∨ (v ∈ passed (start cwd path) (way path) ∧ withDirs d vs v = some .dir) := by
    intro vs hvs
    unfold withDirs
    refine ⟨if_neg (fun hh => h.apart (hvs _ hh)), fun v => ?_⟩
    by_cases hv : v ∈ vs
    · exact .inr ⟨hvs v hv, by rw [if_pos hv]⟩
    · exact .inl (by rw [if_neg hv])
  have hset : ∀ j, (((withDirs d (passed (start cwd path) (way path))).set
        (target (start cwd path) (way path)) (.file (view.take j))) (target (start cwd path) (way path)) =
        some (.file (view.take j))) ∧
      ∀ v, v ≠ target (start cwd path) (way path) →
        ((withDirs d (passed (start cwd path) (way path))).set
          (target (start cwd path) (way path)) (.file (view.take j))) v = d v ∨
        (v ∈ passed (start cwd path) (way path) ∧ ((withDirs d (passed (start cwd path) (way path))).set
          (target (start cwd path) (way path)) (.file (view.take j))) v = some .dir) := by
    intro j
    refine ⟨set_same _ _ _, fun v hv => ?_⟩
    unfold Disk.set
    rw [if_neg hv]
    exact (hwith _ (fun v hv => hv)).2 v
  by_cases hd : (∀ w ∈ passed (start cwd path) (way path), d w = some .dir) ∧
      d (target (start cwd path) (way path)) = some (.file view)
  · obtain ⟨u1, u2⟩ := C44_unchanged h hsmall [d] view sent
    rw [u2 (u1.mpr hd), List.mem_singleton] at hx
    subst hx
    exact ⟨.inl rfl, fun v _ => .inl rfl⟩
  · obtain ⟨r, k, h1, -, -, -, l1, l2, h5, h6, h7⟩ := save_spec h [d] hsmall view sent hd
    rw [h1] at hx
    change x ∈ r.past at hx
    rw [h5] at hx
    rcases List.mem_append.mp hx with hx | hx
    · rcases List.mem_append.mp hx with hx | hx
      · rw [List.mem_singleton] at hx
        subst hx
        exact ⟨.inl rfl, fun v _ => .inl rfl⟩
      · obtain ⟨vs, v1, rfl⟩ := h6 x hx
        exact ⟨.inl (hwith vs v1).1, fun v _ => (hwith vs v1).2 v⟩
    · rcases List.mem_cons.mp hx with rfl | hx
      · exact ⟨.inr ⟨0, (hset 0).1⟩, (hset 0).2⟩
      · obtain ⟨j, -, rfl⟩ := h7 x hx
        exact ⟨.inr ⟨j, (hset j).1⟩, (hset j).2⟩

/-- **C44** is false across crashes: whenever a file with other contents is replaced, there is a moment
at which the old contents are gone and the file is empty. -/
theorem C44_crash_loses {d : Disk} {cwd : Where} {path : List Byte} (h : Savable d cwd path)
    (hsmall : ∀ c, d (target (start cwd path) (way path)) = some (.file c) → c.length < 2 ^ 32)
    (old view : List Byte) (sent : List Nat) (hold : d (target (start cwd path) (way path)) = some (.file old))
    (hne : old ≠ view) :
    ∃ x ∈ (save ⟨d, [d]⟩ cwd path view sent).1.past, x (target (start cwd path) (way path)) = some (.file []) := by
  obtain ⟨r, k, h1, -, -, -, l1, l2, h5, -⟩ := save_spec h [d] hsmall view sent
    (fun hh => hne (by have := hh.2; rw [hold] at this; cases this; rfl))
  refine ⟨(withDirs d (passed (start cwd path) (way path))).set (target (start cwd path) (way path)) (.file []),
    ?_, set_same _ _ _⟩
  rw [h1, h5]
  simp

/-- **C44**: a failed `write` is not reported: the result is `OK` although only part of the contents
is there. -/
theorem C44_short_write : ∃ d cwd path view sent, Savable d cwd path ∧
    (save ⟨d, []⟩ cwd path view sent).2 = some .ok ∧
    (save ⟨d, []⟩ cwd path view sent).1.disk [[97]] = some (.file [1]) ∧ view = [1, 2] :=
  ⟨fun w => if w = [] then some .dir else none, [], [97], [1, 2], [1, 0],
    ⟨⟨rfl, fun w n hw => by simp at hw⟩, by decide, by decide, rfl, by
      intro w hw c; rw [show passed (start [] [97]) (way [97]) = [[]] from by decide, List.mem_singleton] at hw
      rw [hw]; simp, by decide, by decide⟩, by decide +kernel, by decide +kernel, rfl⟩

/-- **C44**: a file in the way, or a directory in place of the file, fails an assertion, with nothing
touched. -/
theorem C44_blocked {d : Disk} {cwd : Where} {path : List Byte} (hne : path ≠ [])
    (hl : path.getLast? ≠ some 47) (past : List Disk) (view : List Byte) (sent : List Nat)
    (pre : List Name) (n : Name) (post : List Name) (hw : way path = pre ++ n :: post)
    (hpre : ∀ w ∈ passed (start cwd path) pre, d w = some .dir)
    (hblock : (post ≠ [] ∧ d (target (start cwd path) (pre ++ [n])) ≠ none ∧
        d (target (start cwd path) (pre ++ [n])) ≠ some .dir ∧ d (target (start cwd path) pre) = some .dir) ∨
      (post = [] ∧ d (target (start cwd path) pre) = some .dir ∧
        d (target (start cwd path) (pre ++ [n])) = some .dir)) :
    save ⟨d, past⟩ cwd path view sent = (⟨d, past⟩, none) := by
  have hfol : ∀ (a b : List Name) (cur : Where), (∀ w ∈ passed cur a, d w = some .dir) →
      follow d cur (a ++ b) = follow d (target cur a) b := by
    intro a
    induction a with
    | nil => intros; rfl
    | cons x a ih =>
      intro b cur h
      rw [List.cons_append, follow, h cur (by simp [passed])]
      exact ih b (next cur x) (fun w hw => h w (by simp [passed, hw]))
  have hload : loadBinary d cwd path = none := by
    unfold loadBinary openRead stat resolve
    rw [if_neg hne, comps_good hl]
    change (match (match follow d (start cwd path) (way path) with
      | .error e => .error e
      | .ok w => match d w with
        | none => .error .noent
        | some e => .ok e : Except Errno Ent) with
      | .error .noent => some (FSResult.notFound, ([] : List Byte))
      | .error _ => none
      | .ok .dir => none
      | .ok (.file c) => if c.length < 2 ^ 32 then some (.ok, c) else none) = none
    rw [hw, hfol pre (n :: post) _ hpre]
    rcases hblock with ⟨h1, h2, h3, h4⟩ | ⟨rfl, h2, h3⟩
    · rw [follow, h4]
      dsimp only
      rw [target_snoc] at h2 h3
      cases post with
      | nil => exact absurd rfl h1
      | cons p post =>
        rw [follow]
        cases hd : d (next (target (start cwd path) pre) n) with
        | none => exact absurd hd h2
        | some e =>
          cases e with
          | dir => exact absurd hd h3
          | file c => rfl
    · rw [follow, h2]
      dsimp only
      rw [follow]
      dsimp only
      rw [target_snoc] at h3
      rw [h3]
  unfold save
  rw [hload]

/-! ## Concrete cases -/

/-- A disk with a directory `a` and a file `a/f`. -/
def exDisk : Disk := fun w =>
  if w = [] then some .dir else if w = [[97]] then some .dir
  else if w = [[97], [102]] then some (.file [7, 7]) else none

/-- `a/b/c` in the root directory, and the replacement of `a/f`. -/
example : Savable exDisk [] [97, 47, 98, 47, 99] ∧ Savable exDisk [] [97, 47, 102] := by
  have ht : Tree exDisk := ⟨rfl, fun w n h => by
    unfold exDisk at h
    by_cases h1 : w ++ [n] = [[97]]
    · have : w = [] := by
        rw [show ([[97]] : Where) = [] ++ [[97]] from rfl] at h1
        exact (List.append_inj' h1 rfl).1
      rw [this]; rfl
    · by_cases h2 : w ++ [n] = [[97], [102]]
      · have : w = [[97]] := by
          rw [show ([[97], [102]] : Where) = [[97]] ++ [[102]] from rfl] at h2
          exact (List.append_inj' h2 rfl).1
        rw [this]; rfl
      · simp [h1, h2] at h⟩
  refine ⟨⟨ht, by decide, by decide, rfl, ?_, by decide, by decide⟩, ⟨ht, by decide, by decide, rfl, ?_, by decide, by decide⟩⟩
  · intro w hw c
    rw [show passed (start [] [97, 47, 98, 47, 99]) (way [97, 47, 98, 47, 99]) = [[], [[97]], [[97], [98]]] from by decide] at hw
    simp only [List.mem_cons, List.not_mem_nil, or_false] at hw
    rcases hw with rfl | rfl | rfl <;> simp [exDisk]
  · intro w hw c
    rw [show passed (start [] [97, 47, 102]) (way [97, 47, 102]) = [[], [[97]]] from by decide] at hw
    simp only [List.mem_cons, List.not_mem_nil, or_false] at hw
    rcases hw with rfl | rfl <;> simp [exDisk]

/-- Saving `a/b/c` in two pieces makes the directory `a/b`. -/
example : (save ⟨exDisk, []⟩ [] [97, 47, 98, 47, 99] [1, 2, 3] [2, 1]).2 = some .ok ∧
    (save ⟨exDisk, []⟩ [] [97, 47, 98, 47, 99] [1, 2, 3] [2, 1]).1.disk [[97], [98]] = some .dir ∧
    (save ⟨exDisk, []⟩ [] [97, 47, 98, 47, 99] [1, 2, 3] [2, 1]).1.disk [[97], [98], [99]] = some (.file [1, 2, 3]) := by
  decide +kernel

example : Transfers 3 [2, 1] := ⟨2, by decide, by decide⟩

/-- `a/f/x`: a file is in the way. -/
example : save ⟨exDisk, []⟩ [] [97, 47, 102, 47, 120] [1] [1] = (⟨exDisk, []⟩, none) :=
  C44_blocked (by decide) (by decide) [] [1] [1] [[97]] [102] [[120]] (by decide)
    (by intro w hw; simp only [passed, List.mem_singleton] at hw; rw [hw]; rfl)
    (.inl ⟨by decide, by decide, by decide, by decide⟩)

end Verif.Fs
