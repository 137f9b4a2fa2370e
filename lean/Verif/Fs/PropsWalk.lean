import Verif.Fs.SpecWalk
import Verif.Path.PropsB
/-!
# Walking directories — property C43
-/
namespace Verif.Fs.Walk
open Spec Verif.Path.Spec

/-! ## Paths along the walk -/

theorem stepT_fine : ∀ (ns : List (List Byte)) (l : Loc), (∀ n ∈ ns, n ≠ [46, 46]) →
    (ns.foldl stepT (l, true)).2 = true
  | [], _, _ => rfl
  | n :: ns, l, h => by
    have : stepT (l, true) n = (l.step n, true) := by
      unfold stepT okStep
      simp [h n (by simp)]
    rw [List.foldl_cons, this]
    exact stepT_fine ns _ (fun m hm => h m (by simp [hm]))

theorem plain_parse {n : List Byte} (h : Plain n) : parse false n = (none, n) ∧ names false n = [n] := by
  obtain ⟨h1, h2, -, -⟩ := h
  constructor
  · unfold parse
    cases n with
    | nil => exact absurd rfl h1
    | cons c cs =>
      simp only [Bool.false_eq_true, if_false]
      rw [if_neg]
      unfold Path.Spec.Sep
      simp [h2 c (by simp)]
  · refine Path.names_single h1 ?_
    intro x hx
    unfold Path.Spec.Sep
    simp [h2 x hx]

/-- One step of the walk: the joined path leads to the subdirectory, and can be walked further. -/
theorem join_step (p n : List Byte) (hp : tame false [p] = true) (hn : Plain n) :
    ∃ out, Path.joinAndNormalize false [p, n] = some out ∧ out ≠ [] ∧
      meaning false [out] = down (meaning false [p]) n ∧ tame false [out] = true := by
  obtain ⟨g1, g2⟩ := plain_parse hn
  obtain ⟨out, h1, h2⟩ := Path.C22_meaning_posix_partial [p, n] (by simp)
  obtain ⟨out', h3, h4⟩ := Path.C22_total false [p, n]
  rw [h1] at h3; cases h3
  have hm : meaning false [p, n] = down (meaning false [p]) n := by
    show follow false (follow false _ p) n = _
    unfold follow
    rw [g1]
    dsimp only
    rw [g2]
    show Loc.step _ n = _
    unfold Loc.step
    rw [if_neg hn.2.2.2, if_neg hn.2.2.1]
    rfl
  have ht : tame false [p, n] = true := by
    unfold tame at hp ⊢
    show (followT false (followT false _ p) n).2 = true
    change (followT false _ p).2 = true at hp
    rw [followT.eq_def, g1]
    dsimp only
    rw [g2, List.foldl_cons, List.foldl_nil]
    unfold stepT okStep
    rw [hp]
    simp [hn.2.2.2]
  refine ⟨out, h1, h4, by rw [h2.mpr ht, hm], ?_⟩
  -- the joined path is in normal form
  obtain ⟨out2, h5, h6⟩ := Path.C22_normal_form false [p, n] n rfl (Path.noDrive_posix _)
  rw [h1] at h5; cases h5
  rcases h6 with h6 | ⟨dn, d1, d2 | ⟨d2, d3⟩⟩
  · rw [if_neg hn.1, List.append_nil] at h6
    rw [h6]; decide
  · unfold tame
    show (followT false _ out).2 = true
    rw [followT.eq_def]
    generalize parse false out = q at *
    obtain ⟨a, r⟩ := q
    dsimp only at d2
    cases a with
    | some a => dsimp only; rw [d2]; exact stepT_fine dn _ (fun m hm => (d1 m hm).2)
    | none => dsimp only; rw [d2]; exact stepT_fine dn _ (fun m hm => (d1 m hm).2)
  · unfold tame
    show (followT false _ out).2 = true
    rw [followT.eq_def]
    generalize parse false out = q at *
    obtain ⟨a, r⟩ := q
    dsimp only at d2 d3
    subst d3
    dsimp only
    rw [d2, List.foldl_cons]
    exact stepT_fine dn _ (fun m hm => (d1 m hm).2)

/-! ## Listing -/

theorem takeWhile_all {α : Type} (p : α → Bool) : ∀ (l : List α), (∀ x ∈ l, p x = true) → l.takeWhile p = l
  | [], _ => rfl
  | x :: l, h => by
    rw [List.takeWhile_cons, if_pos (h x (by simp)), takeWhile_all p l (fun y hy => h y (by simp [hy]))]

theorem entries_raw (gone : List Byte → Bool) (flags : Bool) (hg : flags = true → ∀ n, gone n = false) :
    ∀ raw : List (List Byte × DType), entries gone flags raw =
      (raw.filter (fun e => !decide (e.2 = .dir ∧ (e.1 = [46] ∨ e.1 = [46, 46])))).map
        (fun e => ⟨e.1, e.2 = .dir⟩)
  | [] => rfl
  | (name, ty) :: rest => by
    rw [entries, entries_raw gone flags hg rest]
    by_cases h : ty = .dir ∧ (name = [46] ∨ name = [46, 46])
    · rw [if_pos h, List.filter_cons_of_neg (by simp only [decide_eq_true h]; decide)]
    · rw [if_neg h, List.filter_cons_of_pos (by simp only [decide_eq_false h]; decide), if_neg]
      · rfl
      · rintro ⟨h1, h2⟩
        rw [hg h1] at h2; cases h2

theorem raw_split : ∀ (t : Tree), t.PlainAll →
    (∀ e ∈ t.raw, e.1 ≠ []) ∧
    ((t.raw.map (fun e => (⟨e.1, e.2 = .dir⟩ : Entry))).filter (·.isDir)).map (·.name) = t.dirs ∧
    ((t.raw.map (fun e => (⟨e.1, e.2 = .dir⟩ : Entry))).filter (fun e => !e.isDir)).map (·.name) = t.files
  | .nil, _ => ⟨by simp [Tree.raw], rfl, rfl⟩
  | .file n r rest, h => by
    obtain ⟨h1, h2, h3⟩ := raw_split rest h.2
    refine ⟨?_, ?_, ?_⟩
    · intro e he
      rcases List.mem_cons.mp he with rfl | he
      · exact h.1.1
      · exact h1 e he
    · rw [Tree.dirs, ← h2, Tree.raw]
      cases r <;> simp
    · rw [Tree.files, ← h3, Tree.raw]
      cases r <;> simp
  | .dir n sub rest, h => by
    obtain ⟨h1, h2, h3⟩ := raw_split rest h.2.2
    refine ⟨?_, ?_, ?_⟩
    · intro e he
      rcases List.mem_cons.mp he with rfl | he
      · exact h.1.1
      · exact h1 e he
    · rw [Tree.dirs, ← h2, Tree.raw]
      simp
    · rw [Tree.files, ← h3, Tree.raw]
      simp

theorem visit_shows {sys : Sys} {flags : Bool} {l : Loc} {t : Tree} (hs : Shows sys l t) (hp : t.PlainAll)
    (hg : flags = true → ∀ p n, sys.gone p n = false) {p : List Byte} (hm : meaning false [p] = l) :
    visit sys flags p = ⟨p, t.dirs, t.files⟩ := by
  obtain ⟨raw, h1, h2⟩ := hs p hm
  have hl : listDir sys flags p = t.raw.map (fun e => (⟨e.1, e.2 = .dir⟩ : Entry)) := by
    unfold listDir
    rw [h1]
    dsimp only
    rw [entries_raw _ _ (fun hf => hg hf p), h2]
    refine takeWhile_all _ _ ?_
    intro e he
    obtain ⟨e', he', rfl⟩ := List.mem_map.mp he
    simpa using (raw_split t hp).1 e' he'
  unfold visit
  rw [hl, (raw_split t hp).2.1, (raw_split t hp).2.2]

/-! ## The walk -/

/-- What the loop sees from here on. -/
def cont (sys : Sys) (flags : Bool) (body : Triple → List (List Byte)) (fuel : Nat) (stack : List Item) :
    Option (List Triple) :=
  match nextLoop sys flags stack with
  | none => none
  | some w => loop sys flags body fuel w

/-- The part of a triple that is specified. -/
def shown (t : Triple) : Loc × List (List Byte) × List (List Byte) := (meaning false [t.dirPath], t.dirNames, t.files)

theorem cont_done (sys : Sys) (flags : Bool) (body : Triple → List (List Byte)) (fuel : Nat) (p : List Byte)
    (names : List (List Byte)) (i : Nat) (stack : List Item) (h : names.length ≤ i) :
    cont sys flags body fuel (⟨p, names, i⟩ :: stack) = cont sys flags body fuel stack := by
  unfold cont
  rw [nextLoop, List.getElem?_eq_none h]

theorem loop_visit (sys : Sys) (flags : Bool) (body : Triple → List (List Byte)) (fuel : Nat) (t : Triple)
    (stack : List Item) (ht : t.dirPath ≠ []) :
    loop sys flags body (fuel + 1) ⟨t, stack⟩ =
      (cont sys flags body fuel (⟨t.dirPath, body t, 0⟩ :: stack)).map (t :: ·) := by
  rw [loop, if_neg ht]
  dsimp only
  unfold next
  dsimp only
  by_cases hb : body t = []
  · rw [if_neg (by simp [hb]), cont_done _ _ _ _ _ _ _ _ (by simp [hb])]
    unfold cont
    cases nextLoop sys flags stack <;> rfl
  · rw [if_pos hb]
    unfold cont
    cases nextLoop sys flags (⟨t.dirPath, body t, 0⟩ :: stack) <;> rfl

/-- A body that only leaves names out. -/
def pruning (want : Loc → List Byte → Bool) (t : Triple) : List (List Byte) :=
  t.dirNames.filter (want (meaning false [t.dirPath]))

theorem cont_below (sys : Sys) (flags : Bool) (want : Loc → List Byte → Bool)
    (hg : flags = true → ∀ p n, sys.gone p n = false) : ∀ (u : Tree) (l : Loc) (p : List Byte)
    (names : List (List Byte)) (i : Nat), meaning false [p] = l → tame false [p] = true →
    ShowsBelow sys l u → u.PlainAll → names.drop i = u.dirs.filter (want l) →
    ∃ outs, outs.map shown = below want l u ∧ ∀ fuel stack,
      cont sys flags (pruning want) (fuel + outs.length) (⟨p, names, i⟩ :: stack) =
        (cont sys flags (pruning want) fuel stack).map (outs ++ ·)
  | .nil, l, p, names, i, hm, ht, hs, hp, hn => by
    refine ⟨[], rfl, fun fuel stack => ?_⟩
    rw [List.length_nil, Nat.add_zero, cont_done]
    · cases cont sys flags (pruning want) fuel stack <;> rfl
    · exact List.drop_eq_nil_iff.mp hn
  | .file n r rest, l, p, names, i, hm, ht, hs, hp, hn =>
    cont_below sys flags want hg rest l p names i hm ht hs hp.2 hn
  | .dir n sub rest, l, p, names, i, hm, ht, hs, hp, hn => by
    rw [Tree.dirs] at hn
    by_cases hw : want l n = true
    · rw [List.filter_cons_of_pos hw] at hn
      have hi : names[i]? = some n := by
        have := congrArg (fun x => x[0]?) hn
        simpa using this
      have hn' : names.drop (i + 1) = rest.dirs.filter (want l) := by
        have := congrArg (fun x => x.drop 1) hn
        simpa [List.drop_drop] using this
      obtain ⟨out, j1, j2, j3, j4⟩ := join_step p n ht hp.1
      rw [hm] at j3
      have hv := visit_shows (flags := flags) hs.1 hp.2.1 hg j3
      obtain ⟨o1, a1, a2⟩ := cont_below sys flags want hg sub (down l n) out
        (pruning want ⟨out, sub.dirs, sub.files⟩) 0 j3 j4 hs.2.1 hp.2.1 (by
          unfold pruning
          rw [List.drop_zero]
          dsimp only
          rw [j3])
      obtain ⟨o2, b1, b2⟩ := cont_below sys flags want hg rest l p names (i + 1) hm ht hs.2.2 hp.2.2 hn'
      refine ⟨⟨out, sub.dirs, sub.files⟩ :: (o1 ++ o2), ?_, fun fuel stack => ?_⟩
      · rw [below, if_pos hw, List.map_cons, List.map_append, a1, b1]
        show (meaning false [out], _, _) :: _ = _
        rw [j3]; rfl
      · have h1 : cont sys flags (pruning want) (fuel + (o1 ++ o2).length + 1) (⟨p, names, i⟩ :: stack) =
            loop sys flags (pruning want) (fuel + (o1 ++ o2).length + 1)
              ⟨⟨out, sub.dirs, sub.files⟩, ⟨p, names, i + 1⟩ :: stack⟩ := by
          unfold cont
          rw [nextLoop]
          dsimp only
          rw [hi]
          dsimp only
          rw [j1]
          dsimp only
          rw [hv]
        rw [List.length_cons, ← Nat.add_assoc, h1, loop_visit _ _ _ _ _ _ j2]
        dsimp only
        rw [List.length_append, show fuel + (o1.length + o2.length) = fuel + o2.length + o1.length by omega,
          a2, b2]
        cases cont sys flags (pruning want) fuel stack <;> simp
    · rw [List.filter_cons_of_neg hw] at hn
      obtain ⟨o2, b1, b2⟩ := cont_below sys flags want hg rest l p names i hm ht hs.2.2 hp.2.2 hn
      exact ⟨o2, by rw [below, if_neg hw]; exact b1, b2⟩

/-- **C43**: a walk from a path that does not climb two directories above the start or above the root
(`tame`) sees the directory it starts with and those below, each with its files and directories, depth
first, skipping what the body of the loop leaves out; and then it ends. -/
theorem C43_walk_partial (sys : Sys) (flags : Bool) (want : Loc → List Byte → Bool) (top : List Byte) (t : Tree)
    (hne : top ≠ []) (htame : tame false [top] = true) (hplain : t.PlainAll)
    (hs : Shows sys (meaning false [top]) t) (hsb : ShowsBelow sys (meaning false [top]) t)
    (hg : flags = true → ∀ p n, sys.gone p n = false) :
    ∃ outs, outs.map shown = tour want (meaning false [top]) t ∧ ∀ fuel, outs.length ≤ fuel →
      loop sys flags (pruning want) fuel (walk sys flags top) = some outs := by
  have hv := visit_shows (flags := flags) hs hplain hg rfl
  obtain ⟨o1, a1, a2⟩ := cont_below sys flags want hg t (meaning false [top]) top
    (pruning want ⟨top, t.dirs, t.files⟩) 0 rfl htame hsb hplain (by
      unfold pruning
      rw [List.drop_zero])
  refine ⟨⟨top, t.dirs, t.files⟩ :: o1, ?_, fun fuel hf => ?_⟩
  · rw [List.map_cons, a1]; rfl
  · rw [List.length_cons] at hf
    obtain ⟨k, rfl⟩ : ∃ k, fuel = k + o1.length + 1 := ⟨fuel - o1.length - 1, by omega⟩
    unfold walk
    rw [hv, loop_visit _ _ _ _ _ _ hne]
    dsimp only
    rw [a2]
    have : cont sys flags (pruning want) k [] = some [] := by
      unfold cont
      rw [nextLoop]
      dsimp only
      rw [loop.eq_def]
      simp
    rw [this]
    simp

/-- **C43**: a listing has each entry but `.` and `..` once, in order. -/
theorem C43_list (sys : Sys) (flags : Bool) (p : List Byte) (raw : List (List Byte × DType))
    (h : sys.readdir p = some raw) (hne : ∀ e ∈ raw, e.1 ≠ []) (hg : flags = true → ∀ n, sys.gone p n = false) :
    (listDir sys flags p).map (fun e => (e.name, e.isDir)) =
      (raw.filter (fun e => !decide (e.2 = .dir ∧ (e.1 = [46] ∨ e.1 = [46, 46])))).map
        (fun e => (e.1, decide (e.2 = .dir))) := by
  unfold listDir
  rw [h]
  dsimp only
  rw [entries_raw _ _ hg, takeWhile_all, List.map_map]
  · rfl
  · intro e he
    obtain ⟨e', he', rfl⟩ := List.mem_map.mp he
    simpa using hne e' (List.mem_filter.mp he').1

/-! ## What the specification says -/

theorem mem_all_down : ∀ (t : Tree) (l l' : Loc), l' ∈ t.all l →
    ∃ n ∈ t.dirs, ∃ rest, l'.down = l.down ++ n :: rest
  | .nil, l, l', h => by cases h
  | .file n r rest, l, l', h => by
    obtain ⟨m, h1, h2⟩ := mem_all_down rest l l' h
    exact ⟨m, h1, h2⟩
  | .dir n sub rest, l, l', h => by
    rw [Tree.all] at h
    rcases List.mem_append.mp h with h | h
    · rcases List.mem_cons.mp h with rfl | h
      · exact ⟨n, by simp [Tree.dirs], [], rfl⟩
      · obtain ⟨m, -, r, h3⟩ := mem_all_down sub (down l n) l' h
        exact ⟨n, by simp [Tree.dirs], m :: r, by rw [h3]; simp [down]⟩
    · obtain ⟨m, h1, h2⟩ := mem_all_down rest l l' h
      exact ⟨m, by simp [Tree.dirs, h1], h2⟩

theorem all_nodup : ∀ (t : Tree) (l : Loc), t.Distinct → (t.all l).Nodup
  | .nil, _, _ => List.nodup_nil
  | .file _ _ rest, l, h => all_nodup rest l h.2.2
  | .dir n sub rest, l, h => by
    rw [Tree.all, List.nodup_append]
    refine ⟨List.nodup_cons.mpr ⟨?_, all_nodup sub _ h.2.2.1⟩, all_nodup rest l h.2.2.2, ?_⟩
    · intro hm
      obtain ⟨m, -, r, h3⟩ := mem_all_down sub _ _ hm
      simp [down] at h3
    · rintro a ha b hb rfl
      obtain ⟨m, h1, r, h2⟩ := mem_all_down rest _ _ hb
      have hn : ∃ r', a.down = l.down ++ n :: r' := by
        rcases List.mem_cons.mp ha with rfl | ha
        · exact ⟨[], rfl⟩
        · obtain ⟨m', -, r', h3⟩ := mem_all_down sub _ _ ha
          exact ⟨m' :: r', by rw [h3]; simp [down]⟩
      obtain ⟨r', h3⟩ := hn
      rw [h2] at h3
      have := List.append_cancel_left h3
      simp only [List.cons.injEq] at this
      exact h.1 (this.1 ▸ h1)

theorem mem_all_iff : ∀ (t : Tree) (l l' : Loc), l' ∈ t.all l ↔ Below l t l'
  | .nil, l, l' => by
    constructor
    · intro h; cases h
    · intro h; cases h
  | .file n r rest, l, l' => by
    rw [Tree.all, mem_all_iff rest]
    constructor
    · exact .skipFile
    · intro h; cases h; assumption
  | .dir n sub rest, l, l' => by
    rw [Tree.all, List.mem_append, List.mem_cons, mem_all_iff sub, mem_all_iff rest]
    constructor
    · rintro ((rfl | h) | h)
      · exact .here
      · exact .inside h
      · exact .skipDir h
    · intro h
      cases h with
      | here => exact .inl (.inl rfl)
      | inside h => exact .inl (.inr h)
      | skipDir h => exact .inr h

theorem below_all : ∀ (t : Tree) (l : Loc), (below (fun _ _ => true) l t).map (·.1) = t.all l
  | .nil, _ => rfl
  | .file _ _ rest, l => below_all rest l
  | .dir n sub rest, l => by
    rw [below, if_pos rfl, Tree.all, List.map_append, List.map_cons, below_all sub, below_all rest]

/-- **C43**: without pruning, every directory in the tree is seen exactly once, and nothing else. -/
theorem C43_once_partial (sys : Sys) (flags : Bool) (top : List Byte) (t : Tree)
    (hne : top ≠ []) (htame : tame false [top] = true) (hplain : t.PlainAll) (hd : t.Distinct)
    (hs : Shows sys (meaning false [top]) t) (hsb : ShowsBelow sys (meaning false [top]) t)
    (hg : flags = true → ∀ p n, sys.gone p n = false) :
    ∃ outs, (∀ fuel, outs.length ≤ fuel →
        loop sys flags (fun t => t.dirNames) fuel (walk sys flags top) = some outs) ∧
      (outs.map (fun o => meaning false [o.dirPath])).Nodup ∧
      ∀ l, l ∈ outs.map (fun o => meaning false [o.dirPath]) ↔
        l = meaning false [top] ∨ Below (meaning false [top]) t l := by
  obtain ⟨outs, h1, h2⟩ := C43_walk_partial sys flags (fun _ _ => true) top t hne htame hplain hs hsb hg
  have hb : pruning (fun _ _ => true) = fun t => t.dirNames := by
    funext t; unfold pruning; simp
  rw [hb] at h2
  have hl : outs.map (fun o => meaning false [o.dirPath]) = meaning false [top] :: t.all (meaning false [top]) := by
    have := congrArg (List.map (·.1)) h1
    rw [List.map_map, tour, List.map_cons, below_all] at this
    exact this
  refine ⟨outs, h2, ?_, fun l => ?_⟩
  · rw [hl]
    refine List.nodup_cons.mpr ⟨?_, all_nodup t _ hd⟩
    intro hm
    obtain ⟨m, -, r, h3⟩ := mem_all_down t _ _ hm
    have := congrArg List.length h3
    simp at this
  · rw [hl, List.mem_cons, mem_all_iff]

/-! ## Concrete cases -/

/-- A disk on which the directory with contents `t` is at `l`, and directories below it; others cannot
be opened. -/
def diskOf (l : Loc) (t : Tree) : Loc → Option Tree := fun l' => if l' = l then some t else sub l t l'
where
  /-- The directory at `l'` below `l`. -/
  sub : Loc → Tree → Loc → Option Tree
    | _, .nil, _ => none
    | l, .file _ _ rest, l' => sub l rest l'
    | l, .dir n s rest, l' => if l' = down l n then some s else (sub (down l n) s l').or (sub l rest l')

/-- The system with that disk. -/
def sysOf (l : Loc) (t : Tree) : Sys where
  readdir p := (diskOf l t (meaning false [p])).map fun t => ([46], .dir) :: ([46, 46], .dir) :: t.raw
  gone _ _ := false

/-- `x` with a file `f` and a directory `y` in it, and an empty directory `z`. -/
def exTree : Tree :=
  .dir [120] (.file [102] true (.dir [121] .nil .nil)) (.file [103] false (.dir [122] .nil .nil))

theorem ex_shows (l : Loc) (t : Tree) (ht : t.PlainAll) (l' : Loc) (h : diskOf l exTree l' = some t) :
    Shows (sysOf l exTree) l' t := by
  intro p hp
  refine ⟨_, by unfold sysOf; dsimp only; rw [hp, h]; rfl, ?_⟩
  rw [List.filter_cons_of_neg (by simp), List.filter_cons_of_neg (by simp)]
  refine List.filter_eq_self.mpr ?_
  have hr : ∀ t : Tree, t.PlainAll → ∀ e ∈ t.raw, e.1 ≠ [46] ∧ e.1 ≠ [46, 46] := by
    intro t
    induction t with
    | nil => intro _ e he; cases he
    | file n r rest ih =>
      intro hp e he
      rcases List.mem_cons.mp he with rfl | he
      · exact hp.1.2.2
      · exact ih hp.2 e he
    | dir n sub rest _ ih =>
      intro hp e he
      rcases List.mem_cons.mp he with rfl | he
      · exact hp.1.2.2
      · exact ih hp.2.2 e he
  intro e he
  have := hr t ht e he
  simp [this.1, this.2]

theorem ex_plain : exTree.PlainAll := by
  simp [exTree, Tree.PlainAll, Plain]

/-- The hypotheses are met by a walk from `../w`. -/
example : tame false [[46, 46, 47, 119]] = true ∧ exTree.PlainAll ∧ exTree.Distinct ∧
    Shows (sysOf ⟨.here, 1, [[119]]⟩ exTree) (meaning false [[46, 46, 47, 119]]) exTree ∧
    ShowsBelow (sysOf ⟨.here, 1, [[119]]⟩ exTree) (meaning false [[46, 46, 47, 119]]) exTree := by
  have hm : meaning false [[46, 46, 47, 119]] = ⟨.here, 1, [[119]]⟩ := by decide
  rw [hm]
  refine ⟨by decide, ex_plain, by simp [exTree, Tree.Distinct, Tree.dirs, Tree.files],
    ex_shows _ _ ex_plain _ (by decide), ?_⟩
  refine ⟨ex_shows _ _ ex_plain.2.1 _ (by decide), ?_, ?_⟩
  · exact ⟨ex_shows _ .nil trivial _ (by decide), trivial, trivial⟩
  · exact ⟨ex_shows _ .nil trivial _ (by decide), trivial, trivial⟩

/-- The walk itself, leaving out `y`. -/
example : loop (sysOf ⟨.here, 1, [[119]]⟩ exTree) true (pruning fun _ n => n ≠ [121]) 3
      (walk (sysOf ⟨.here, 1, [[119]]⟩ exTree) true [46, 46, 47, 119]) =
    some [⟨[46, 46, 47, 119], [[120], [122]], [[103]]⟩, ⟨[46, 46, 47, 119, 47, 120], [[121]], [[102]]⟩,
      ⟨[46, 46, 47, 119, 47, 122], [], []⟩] := by decide +kernel

/-- **C43** is false when the start is two directories up: walking `../..`, in which there are the
directories `x` (with `y` inside) and `z`, lists `x` and `z` of the current directory instead, which
there are not; `y` is never seen. -/
theorem C43_two_up : loop (sysOf ⟨.here, 2, []⟩ exTree) false (fun t => t.dirNames) 9
      (walk (sysOf ⟨.here, 2, []⟩ exTree) false [46, 46, 47, 46, 46]) =
    some [⟨[46, 46, 47, 46, 46], [[120], [122]], [[103]]⟩, ⟨[120], [], []⟩, ⟨[122], [], []⟩] := by
  decide +kernel

/-- **C43**: an empty starting path is no walk at all, even where it could be listed. -/
theorem C43_empty (sys : Sys) (flags : Bool) (body : Triple → List (List Byte)) (fuel : Nat) :
    loop sys flags body fuel (walk sys flags []) = some [] := by
  rw [loop.eq_def]
  simp [walk, visit]

/-- **C43**: entries that `stat` does not find, such as links that lead nowhere, are left out when
sizes or times are asked for, but not otherwise. -/
theorem C43_dangling : ∃ sys p, (listDir sys true p).map (·.name) = [[98]] ∧
    (listDir sys false p).map (·.name) = [[97], [98]] :=
  ⟨⟨fun _ => some [([46], .dir), ([97], .other), ([98], .reg)], fun _ n => n = [97]⟩, [], by decide, by decide⟩

end Verif.Fs.Walk
