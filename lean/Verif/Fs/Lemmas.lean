import Verif.Fs.Model
import Verif.Fs.Spec
import Verif.Path.PropsB
/-!
# Saving files — lemmas
-/
namespace Verif.Fs
open Spec

theorem fields_app (A B : List Byte) (c : Byte) (hc : Path.Spec.Sep false c) :
    Path.Spec.fields false (A ++ c :: B) = Path.Spec.fields false A ++ Path.Spec.fields false B := by
  induction A with
  | nil => rw [List.nil_append, Path.fields_sep hc]; rfl
  | cons a A ih =>
    rw [List.cons_append, Path.Spec.fields, Path.Spec.fields.eq_2]
    split
    · rw [ih]; rfl
    · rw [ih]
      cases h : Path.Spec.fields false A with
      | nil =>
        exfalso
        cases A with
        | nil => simp [Path.Spec.fields] at h
        | cons x xs =>
          rw [Path.Spec.fields] at h
          split at h
          · cases h
          · split at h <;> cases h
      | cons f fs => rfl

theorem names_app (A B : List Byte) (c : Byte) (hc : Path.Spec.Sep false c) :
    Path.Spec.names false (A ++ c :: B) = Path.Spec.names false A ++ Path.Spec.names false B := by
  unfold Path.Spec.names
  rw [fields_app A B c hc, List.filter_append]

theorem names_app_seps (A B S : List Byte) (hS : ∀ c ∈ S, Path.Spec.Sep false c) (hne : S ≠ []) :
    Path.Spec.names false (A ++ S ++ B) = Path.Spec.names false A ++ Path.Spec.names false B := by
  cases S with
  | nil => exact absurd rfl hne
  | cons c S =>
    rw [List.append_assoc, List.cons_append, names_app _ _ _ (hS c (by simp)),
      Path.names_seps (fun x hx => hS x (by simp [hx]))]

theorem sep_iff (c : Byte) : Path.Spec.Sep false c ↔ c = 47 := by
  unfold Path.Spec.Sep; simp

/-- Splitting a path that does not end with a slash. -/
theorem split_good (path : List Byte) (hne : path ≠ []) (hl : path.getLast? ≠ some 47) (cwd : Where) :
    ∃ dir name, Path.split false path = some (dir, name) ∧ name ≠ [] ∧ dir.length < path.length ∧
      Path.Spec.names false path = Path.Spec.names false dir ++ [name] ∧
      ((dir = [] ∧ start cwd path = cwd) ∨
       (dir ≠ [] ∧ start cwd dir = start cwd path ∧ (dir.getLast? ≠ some 47 ∨ dir = [47]))) := by
  obtain ⟨dir, seps, name, h1, h2, h3, h4, h5⟩ := Path.C24_split false path
  have hname : name ≠ [] := by
    rintro rfl
    rw [List.append_nil] at h2
    cases hs : seps.getLast? with
    | none =>
      have : seps = [] := List.getLast?_eq_none_iff.mp hs
      subst this
      rw [List.append_nil] at h2
      subst h2
      rcases h5 with ⟨rfl, -⟩ | ⟨l, -, -, h, -⟩ | ⟨c, rfl, hc⟩ | ⟨_, _, hw, _⟩
      · exact hne rfl
      · exact h rfl
      · rw [sep_iff] at hc; subst hc; exact hl rfl
      · cases hw
    | some c =>
      have hc := h3 c (List.mem_of_getLast? hs)
      rw [sep_iff] at hc
      refine hl ?_
      rw [h2, List.getLast?_append, hs, hc]; rfl
  have hnn : Path.Spec.names false name = [name] := Path.names_single hname h4
  have hlen : dir.length < path.length := by
    have := List.length_pos_iff.mpr hname
    rw [h2, List.length_append, List.length_append]; omega
  refine ⟨dir, name, h1, hname, hlen, ?_, ?_⟩
  · by_cases hs : seps = []
    · subst hs
      rcases h5 with ⟨rfl, -⟩ | ⟨l, -, -, h, -⟩ | ⟨c, rfl, hc⟩ | ⟨_, _, hw, _⟩
      · rw [h2]; simp [Path.names_nil, hnn]
      · exact absurd rfl h
      · rw [h2, List.append_nil, List.singleton_append, Path.names_sep hc, hnn,
          Path.names_of_seps (by intro a ha; rw [List.mem_singleton] at ha; rw [ha]; exact hc)]
        rfl
      · cases hw
    · rw [h2, names_app_seps _ _ _ h3 hs, hnn]
  · rcases h5 with ⟨rfl, rfl⟩ | ⟨l, g1, g2, -, -⟩ | ⟨c, rfl, hc⟩ | ⟨_, _, hw, _⟩
    · refine .inl ⟨rfl, ?_⟩
      unfold start
      rw [if_neg]
      intro hh
      rw [h2] at hh
      simp only [List.nil_append] at hh
      cases name with
      | nil => cases hh
      | cons x xs =>
        simp only [List.head?_cons, Option.some.injEq] at hh
        exact h4 x (by simp) ((sep_iff x).mpr hh)
    · right
      have hd : dir ≠ [] := by rintro rfl; cases g1
      refine ⟨hd, ?_, .inl ?_⟩
      · unfold start
        rw [h2, List.append_assoc]
        cases dir with
        | nil => exact absurd rfl hd
        | cons x xs => rfl
      · rw [g1]
        intro h
        rw [Option.some.injEq] at h
        exact g2 ((sep_iff l).mpr h)
    · right
      rw [sep_iff] at hc
      subst hc
      refine ⟨by simp, ?_, .inr rfl⟩
      unfold start
      rw [h2]; rfl
    · cases hw

/-! ## Following a path -/

theorem follow_ok (d : Disk) : ∀ (ns : List Name) (cur : Where),
    (∀ w ∈ passed cur ns, d w = some .dir) → follow d cur ns = .ok (target cur ns)
  | [], _, _ => rfl
  | n :: ns, cur, h => by
    rw [follow, h cur (by simp [passed])]
    exact follow_ok d ns (next cur n) (fun w hw => h w (by simp [passed, hw]))

theorem follow_cases (d : Disk) : ∀ (ns : List Name) (cur : Where),
    ((∀ w ∈ passed cur ns, d w = some .dir) ∧ follow d cur ns = .ok (target cur ns)) ∨
    (follow d cur ns = .error .noent ∧ ∃ w ∈ passed cur ns, d w = none) ∨
    (follow d cur ns = .error .notdir ∧ ∃ w ∈ passed cur ns, ∃ c, d w = some (.file c))
  | [], cur => .inl ⟨by simp [passed], rfl⟩
  | n :: ns, cur => by
    rw [follow]
    cases hd : d cur with
    | none => exact .inr (.inl ⟨rfl, cur, by simp [passed], hd⟩)
    | some e =>
      cases e with
      | file c => exact .inr (.inr ⟨rfl, cur, by simp [passed], c, hd⟩)
      | dir =>
        dsimp only
        rcases follow_cases d ns (next cur n) with ⟨h1, h2⟩ | ⟨h1, w, h2, h3⟩ | ⟨h1, w, h2, h3⟩
        · refine .inl ⟨?_, h2⟩
          intro w hw
          rcases List.mem_cons.mp hw with rfl | hw
          · exact hd
          · exact h1 w hw
        · exact .inr (.inl ⟨h1, w, by simp [passed, h2], h3⟩)
        · exact .inr (.inr ⟨h1, w, by simp [passed, h2], h3⟩)

theorem passed_snoc : ∀ (ns : List Name) (cur : Where) (n : Name),
    passed cur (ns ++ [n]) = passed cur ns ++ [target cur ns]
  | [], _, _ => rfl
  | m :: ns, cur, n => by
    rw [List.cons_append, passed, passed, passed_snoc ns (next cur m) n]; rfl

theorem target_snoc (ns : List Name) (cur : Where) (n : Name) :
    target cur (ns ++ [n]) = next (target cur ns) n := by
  unfold target; rw [List.foldl_append]; rfl

theorem comps_good {path : List Byte} (hl : path.getLast? ≠ some 47) :
    comps path = Path.Spec.names false path := by
  unfold comps; rw [if_neg hl, List.append_nil]

theorem withDirs_same {d : Disk} {ws : List Where} (h : ∀ w ∈ ws, d w = some .dir) : withDirs d ws = d := by
  funext v
  unfold withDirs
  split
  · next hv => exact (h v hv).symm
  · rfl

theorem withDirs_snoc (d : Disk) (ws : List Where) (w : Where) :
    withDirs d (ws ++ [w]) = (withDirs d ws).set w .dir := by
  funext v
  unfold withDirs Disk.set
  by_cases h1 : v = w
  · simp [h1]
  · by_cases h2 : v ∈ ws <;> simp [h1, h2]

/-- The disks there have been are the disk with some of these directories added. -/
def Steps (d : Disk) (ws : List Where) (before after : List Disk) : Prop :=
  ∃ l, after = before ++ l ∧ ∀ x ∈ l, ∃ vs, (∀ v ∈ vs, v ∈ ws) ∧ x = withDirs d vs

theorem Steps.nil (d : Disk) (ws : List Where) (l : List Disk) : Steps d ws l l :=
  ⟨[], by simp, by simp⟩

/-- Making directories, for a path without a slash at the end. -/
theorem makeDirs_spec {d : Disk} (ht : Tree d) (cwd : Where) :
    ∀ (fuel : Nat) (path : List Byte) (r : Run), path.length < fuel → path ≠ [] →
    (path.getLast? ≠ some 47 ∨ path = [47]) → r.disk = d → d (start cwd path) = some .dir →
    Free d (passed (start cwd path) (Path.Spec.names false path) ++
      [target (start cwd path) (Path.Spec.names false path)]) →
    ∃ r' res, makeDirs cwd fuel r path = (r', some res) ∧ (res = .ok ∨ res = .alreadyExists) ∧
      (let ws := passed (start cwd path) (Path.Spec.names false path) ++
        [target (start cwd path) (Path.Spec.names false path)]
       r'.disk = withDirs d ws ∧ Steps d ws r.past r'.past)
  | 0, _, _, h, _, _, _, _, _ => by omega
  | fuel + 1, path, r, hlen, hne, hgood, hr, hs, hfree => by
    rw [makeDirs, if_neg (by unfold Path.getDriveLetter Path.hasDriveLetter; simpa using hne)]
    rcases hgood with hl | rfl
    · -- an ordinary path
      obtain ⟨dir, name, e1, e2, e3, e4, e5⟩ := split_good path hne hl cwd
      generalize hS : start cwd path = s at *
      generalize hN : Path.Spec.names false path = ns at *
      have hres : resolve r.disk cwd path = follow d s ns := by
        unfold resolve; rw [if_neg hne, hS, comps_good hl, hN, hr]
      have hmk : ∀ r1 : Run, r1.disk = withDirs d (passed s ns) → Steps d (passed s ns) r.past r1.past →
          ∃ r' res, makeDir r1 cwd path = (r', some res) ∧ (res = .ok ∨ res = .alreadyExists) ∧
            r'.disk = withDirs d (passed s ns ++ [target s ns]) ∧
            Steps d (passed s ns ++ [target s ns]) r.past r'.past := by
        intro r1 hr1 hst1
        obtain ⟨l, hl1, hl2⟩ := hst1
        unfold makeDir mkdir
        rw [if_neg hne, hS, hN, hr1, follow_ok _ _ _ (by
          intro w hw; unfold withDirs; rw [if_pos hw])]
        dsimp only
        cases ht' : withDirs d (passed s ns) (target s ns) with
        | none =>
          refine ⟨_, _, rfl, .inl rfl, (withDirs_snoc _ _ _).symm, ?_⟩
          refine ⟨l ++ [(withDirs d (passed s ns)).set (target s ns) .dir], ?_, ?_⟩
          · show r1.past ++ _ = _
            rw [hl1, List.append_assoc]
          · intro x hx
            rcases List.mem_append.mp hx with hx | hx
            · obtain ⟨vs, g1, g2⟩ := hl2 x hx
              exact ⟨vs, fun v hv => List.mem_append_left _ (g1 v hv), g2⟩
            · rw [List.mem_singleton] at hx
              exact ⟨_, fun v hv => hv, hx.trans (withDirs_snoc _ _ _).symm⟩
        | some e =>
          have he : e = .dir := by
            unfold withDirs at ht'
            split at ht'
            · cases ht'; rfl
            · cases e with
              | dir => rfl
              | file c => exact absurd ht' (hfree _ (by simp) c)
          subst he
          refine ⟨_, _, rfl, .inr rfl, ?_, l, hl1, ?_⟩
          · show r1.disk = _
            rw [hr1, withDirs_snoc]
            funext v
            unfold Disk.set
            split
            · next hv => rw [hv, ht']
            · rfl
          · intro x hx
            obtain ⟨vs, g1, g2⟩ := hl2 x hx
            exact ⟨vs, fun v hv => List.mem_append_left _ (g1 v hv), g2⟩
      have hnotfound : exists_ r.disk cwd path = some .notFound →
          ∃ r' res, (match Path.split false path with
            | none => (r, none)
            | some (first, second) =>
              if first ≠ [] ∧ second ≠ [] then
                match makeDirs cwd fuel r first with
                | (r', some .ok) => makeDir r' cwd path
                | (r', some .alreadyExists) => makeDir r' cwd path
                | (r', res) => (r', res)
              else makeDir r cwd path) = (r', some res) ∧ (res = .ok ∨ res = .alreadyExists) ∧
            r'.disk = withDirs d (passed s ns ++ [target s ns]) ∧
            Steps d (passed s ns ++ [target s ns]) r.past r'.past := by
        intro _
        rw [e1]
        dsimp only
        rcases e5 with ⟨rfl, h5⟩ | ⟨hd, hsd, hdg⟩
        · rw [if_neg (by simp)]
          have hns : passed s ns = [s] := by rw [e4, Path.names_nil]; rfl
          refine hmk r ?_ (Steps.nil _ _ _)
          rw [hr, hns]
          exact (withDirs_same (by intro w hw; rw [List.mem_singleton] at hw; rw [hw]; exact hs)).symm
        · rw [if_pos ⟨hd, e2⟩]
          have hp : passed s ns = passed s (Path.Spec.names false dir) ++
              [target s (Path.Spec.names false dir)] := by rw [e4, passed_snoc]
          obtain ⟨r1, res1, m1, m2, m3, m4⟩ := makeDirs_spec ht cwd fuel dir r (by omega) hd hdg hr
            (by rw [hsd]; exact hs) (by
              rw [hsd, ← hp]
              intro w hw; exact hfree w (List.mem_append_left _ hw))
          rw [hsd, ← hp] at m3 m4
          rw [m1]
          rcases m2 with rfl | rfl <;> exact hmk r1 m3 m4
      have hex : exists_ r.disk cwd path = match stat r.disk cwd path with
        | .ok .dir => some .directory
        | .ok (.file _) => some .file
        | .error .noent => some .notFound
        | .error _ => none := rfl
      have hstat : stat r.disk cwd path = match follow d s ns with
        | .error e => .error e
        | .ok w => match d w with
          | none => .error .noent
          | some e => .ok e := by
        unfold stat; rw [hres, hr]; cases follow d s ns <;> rfl
      rcases follow_cases d ns s with ⟨f1, f2⟩ | ⟨f1, f2⟩ | ⟨f1, w, f2, c, f3⟩
      · rw [f2] at hstat
        dsimp only at hstat
        cases htg : d (target s ns) with
        | none =>
          rw [htg] at hstat
          rw [hstat] at hex
          have := hnotfound hex
          rw [hex]
          exact this
        | some e =>
          rw [htg] at hstat
          cases e with
          | file c => exact absurd htg (hfree _ (by simp) c)
          | dir =>
            rw [hstat] at hex
            rw [hex]
            refine ⟨r, .alreadyExists, rfl, .inr rfl, ?_, Steps.nil _ _ _⟩
            rw [hr]
            refine (withDirs_same ?_).symm
            intro w hw
            rcases List.mem_append.mp hw with hw | hw
            · exact f1 w hw
            · rw [List.mem_singleton] at hw; rw [hw]; exact htg
      · rw [f1] at hstat
        rw [hstat] at hex
        have := hnotfound hex
        rw [hex]
        exact this
      · exact absurd f3 (hfree w (List.mem_append_left _ f2) c)
    · -- the root
      have h1 : start cwd [47] = [] := rfl
      have h2 : Path.Spec.names false [47] = [] := by decide
      have hex : exists_ r.disk cwd [47] = some .directory := by
        have hc : comps [47] = [[46]] := by decide
        unfold exists_ stat resolve
        rw [if_neg (by simp), h1, hc, hr, follow, ht.root]
        show (match (match follow d (next [] [46]) [] with
          | .error e => .error e
          | .ok w => match d w with
            | none => .error .noent
            | some e => .ok e : Except Errno Ent) with
          | .ok .dir => some ExistsResult.directory
          | .ok (.file _) => some .file
          | .error .noent => some .notFound
          | .error _ => none) = _
        have : next [] [46] = [] := by decide
        rw [this, follow]
        dsimp only
        rw [ht.root]
      rw [hex]
      refine ⟨r, .alreadyExists, rfl, .inr rfl, ?_⟩
      rw [h1, h2]
      dsimp only [passed, target, List.foldl, List.nil_append]
      refine ⟨?_, Steps.nil _ _ _⟩
      rw [hr, withDirs_same]
      intro w hw
      rw [List.mem_singleton] at hw
      rw [hw]; exact ht.root

/-! ## Writing -/

theorem append_file {d : Disk} {w : Where} {c : List Byte} (h : d w = some (.file c)) (b : List Byte) :
    append d w b = d.set w (.file (c ++ b)) := by
  unfold append; rw [h]

theorem set_set (d : Disk) (w : Where) (a b : Ent) : (d.set w a).set w b = d.set w b := by
  funext v; unfold Disk.set; split <;> rfl

theorem set_same (d : Disk) (w : Where) (e : Ent) : d.set w e w = some e := by
  unfold Disk.set; simp

/-- The write loop: some initial part of the bytes is written, all of it if it reports success; and all
the disks on the way have some initial part, growing. -/
theorem writeLoop_spec (d : Disk) (w : Where) : ∀ (sent : List Nat) (bs done : List Byte) (r : Run),
    r.disk = d.set w (.file done) →
    ∃ k l, k ≤ bs.length ∧ (writeLoop w r bs sent).1.disk = d.set w (.file (done ++ bs.take k)) ∧
      ((writeLoop w r bs sent).2 = true ↔ k = bs.length) ∧
      (writeLoop w r bs sent).1.past = r.past ++ l ∧
      ∀ x ∈ l, ∃ j, j ≤ bs.length ∧ x = d.set w (.file (done ++ bs.take j))
  | sent, [], done, r, h => by
    refine ⟨0, [], by simp, ?_, ?_, ?_, by simp⟩
    · cases sent <;> simp [writeLoop, h]
    · cases sent <;> simp [writeLoop]
    · cases sent <;> simp [writeLoop]
  | [], b :: bs, done, r, h => ⟨0, [], by simp, by simp [writeLoop, h], by simp [writeLoop], by simp [writeLoop], by simp⟩
  | n :: sent, b :: bs, done, r, h => by
    rw [writeLoop]
    by_cases hn : n = 0
    · rw [if_pos hn]
      exact ⟨0, [], by simp, by simp [h], by simp, by simp, by simp⟩
    · rw [if_neg hn]
      have h1 : append r.disk w ((b :: bs).take n) = d.set w (.file (done ++ (b :: bs).take n)) := by
        rw [append_file (c := done) (by rw [h, set_same]), h, set_set]
      obtain ⟨k, l, k1, k2, k3, k4, k5⟩ := writeLoop_spec d w sent ((b :: bs).drop n)
        (done ++ (b :: bs).take n) (r.put (append r.disk w ((b :: bs).take n))) h1
      rw [List.length_drop] at k1 k3 k5
      have hcat : ∀ j, done ++ (b :: bs).take n ++ ((b :: bs).drop n).take j =
          done ++ (b :: bs).take (n + j) := by
        intro j
        rw [List.append_assoc, ← List.take_add]
      by_cases hle : n ≤ (b :: bs).length
      · refine ⟨n + k, append r.disk w ((b :: bs).take n) :: l, by omega, by rw [k2, hcat], ?_, ?_, ?_⟩
        · rw [k3]; omega
        · rw [k4]
          show (r.past ++ _) ++ l = _
          rw [List.append_assoc]; rfl
        · intro x hx
          rcases List.mem_cons.mp hx with rfl | hx
          · exact ⟨n, hle, h1⟩
          · obtain ⟨j, j1, j2⟩ := k5 x hx
            exact ⟨n + j, by omega, by rw [j2, hcat]⟩
      · have hk0 : k = 0 := by omega
        subst hk0
        refine ⟨(b :: bs).length, append r.disk w ((b :: bs).take n) :: l, Nat.le_refl _, ?_, ?_, ?_, ?_⟩
        · rw [k2, hcat, Nat.add_zero, List.take_of_length_le (by omega), List.take_length]
        · rw [k3]; exact ⟨fun _ => rfl, fun _ => by omega⟩
        · rw [k4]
          show (r.past ++ _) ++ l = _
          rw [List.append_assoc]; rfl
        · intro x hx
          rcases List.mem_cons.mp hx with rfl | hx
          · exact ⟨(b :: bs).length, Nat.le_refl _, by
              rw [h1, List.take_of_length_le (by omega), List.take_length]⟩
          · obtain ⟨j, j1, j2⟩ := k5 x hx
            refine ⟨(b :: bs).length, Nat.le_refl _, ?_⟩
            rw [j2, hcat, List.take_of_length_le (by omega), List.take_length]

end Verif.Fs
