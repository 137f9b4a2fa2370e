import Verif.Rm.Model
import Verif.Rm.Spec
import Verif.Fs.PropsWalk
import Verif.Docs.LemmasFile

namespace Verif.Rm

open Spec
open Verif.Fs (Name Where FSResult)
open Verif.Fs.Walk.Spec (Plain)
open Verif.Path.Spec (names Plainly meaning tame parse OpenEnd)

/-! ## Disks -/

theorem lookup_root (d : Disk) : lookup d [] = some .dir := by simp [lookup]

theorem lookup_filter (d : Disk) (P : Where → Bool) {w : Where} (hw : w ≠ []) :
    lookup (d.filter fun e => P e.1) w = if P w then lookup d w else none := by
  simp only [lookup, hw, if_false]
  induction d with
  | nil => simp
  | cons e d ih =>
    rw [List.filter_cons]
    by_cases he : e.1 = w
    · subst he
      by_cases h : P e.1 = true
      · simp [h]
      · simp only [h] at ih ⊢
        simpa using ih
    · by_cases h : P e.1 = true
      · simp only [h, if_true, List.find?_cons, he, decide_false]
        exact ih
      · simp only [h, List.find?_cons, he, decide_false]
        simpa using ih

theorem lookup_mem {d : Disk} {w : Where} {n : Node} (hw : w ≠ []) (h : lookup d w = some n) : (w, n) ∈ d := by
  simp only [lookup, hw, if_false, Option.map_eq_some_iff] at h
  obtain ⟨e, he, rfl⟩ := h
  have := List.find?_some he
  have h2 := List.mem_of_find?_eq_some he
  simp only [decide_eq_true_eq] at this
  subst this
  exact h2

theorem mem_lookup {d : Disk} (nd : (d.map (·.1)).Nodup) {w : Where} {n : Node} (hw : w ≠ []) (h : (w, n) ∈ d) :
    lookup d w = some n := by
  simp only [lookup, hw, if_false]
  induction d with
  | nil => cases h
  | cons e d ih =>
    rw [List.map_cons, List.nodup_cons] at nd
    rcases List.mem_cons.1 h with rfl | h
    · simp
    · have : e.1 ≠ w := by
        rintro rfl
        exact nd.1 (List.mem_map.2 ⟨_, h, rfl⟩)
      rw [List.find?_cons]
      simp only [this, decide_false]
      exact ih nd.2 h

theorem tree_ne {d : Disk} (t : Tree d) {e : Where × Node} (h : e ∈ d) : e.1 ≠ [] := by
  obtain ⟨v, n, hv, _⟩ := t.named e h
  simp [hv]

theorem mem_children {d : Disk} {w : Where} {n : Name} {node : Node} : (n, node) ∈ children d w ↔ (w ++ [n], node) ∈ d := by
  simp only [children, List.mem_filterMap]
  constructor
  · rintro ⟨e, he, h⟩
    split at h
    · next hd =>
      simp only [Option.map_eq_some_iff] at h
      obtain ⟨m, hm, h⟩ := h
      cases h
      have : e.1 = w ++ [n] := by
        subst hd
        have hne : e.1 ≠ [] := by
          intro h
          rw [h] at hm
          cases hm
        rw [List.getLast?_eq_some_getLast hne] at hm
        cases hm
        exact (List.dropLast_concat_getLast hne).symm
      rw [← this]
      exact he
    · cases h
  · intro h
    exact ⟨_, h, by simp⟩

theorem children_nodup {d : Disk} (nd : (d.map (·.1)).Nodup) (w : Where) : ((children d w).map (·.1)).Nodup := by
  induction d with
  | nil => simp [children]
  | cons e d ih =>
    rw [List.map_cons, List.nodup_cons] at nd
    have e1 : children (e :: d) w = (match (if e.1.dropLast = w then e.1.getLast?.map (·, e.2) else none) with
      | none => children d w
      | some x => x :: children d w) := by
      simp only [children, List.filterMap_cons]
      cases (if e.1.dropLast = w then e.1.getLast?.map (·, e.2) else none) <;> rfl
    rw [e1]
    split
    · exact ih nd.2
    · next x hx =>
      rw [List.map_cons, List.nodup_cons]
      refine ⟨?_, ih nd.2⟩
      intro hm
      obtain ⟨⟨n, node⟩, hy, hxy⟩ := List.mem_map.1 hm
      have hin := mem_children.1 hy
      split at hx
      · next hd =>
        simp only [Option.map_eq_some_iff] at hx
        obtain ⟨m, hm', hx⟩ := hx
        subst hx
        simp only at hxy
        subst hxy
        clear hm
        have : e.1 = w ++ [n] := by
          subst hd
          have hne : e.1 ≠ [] := by
            intro h
            rw [h] at hm'
            cases hm'
          rw [List.getLast?_eq_some_getLast hne] at hm'
          cases hm'
          exact (List.dropLast_concat_getLast hne).symm
        exact nd.1 (List.mem_map.2 ⟨_, hin, this.symm⟩)
      · cases hx

/-! ## Paths -/

theorem next_plain {cur : Where} {n : Name} (h : n ≠ [46] ∧ n ≠ [46, 46]) : Fs.next cur n = cur ++ [n] := by
  simp [Fs.next, h.1, h.2]

theorem follow_dirs {d : Disk} {jump : Where → List Name → Except Errno Where} {last : Bool} (ms : List Name) :
    ∀ (ns : List Name) (base : Where), Plainly ns → (∀ k, k ≤ ns.length → lookup d (base ++ ns.take k) = some .dir) →
      follow d jump last base (ns ++ ms) = follow d jump last (base ++ ns) ms
  | [], base, _, _ => by simp
  | n :: ns, base, hp, hd => by
    have h0 := hd 0 (by simp)
    have h1 := hd 1 (by simp)
    simp only [List.take_zero, List.append_nil] at h0
    simp only [List.take_succ_cons, List.take_zero] at h1
    rw [List.cons_append, follow, h0]
    simp only [next_plain (hp n (by simp)), h1]
    rw [follow_dirs ms ns (base ++ [n]) (fun m hm => hp m (by simp [hm])) (fun k hk => by
      have := hd (k + 1) (by simpa using hk)
      simpa using this)]
    simp

theorem follow_last {d : Disk} {jump : Where → List Name → Except Errno Where} {last : Bool} {cur : Where} {n : Name}
    (hc : lookup d cur = some .dir) (hn : n ≠ [46] ∧ n ≠ [46, 46]) (h : last = false ∨ ∀ t, lookup d (cur ++ [n]) ≠ some (.link t)) :
    follow d jump last cur [n] = .ok (cur ++ [n]) := by
  rw [follow, hc]
  simp only [next_plain hn]
  cases e : lookup d (cur ++ [n]) with
  | none => simp [follow]
  | some node =>
    cases node with
    | file => simp [follow]
    | dir => simp [follow]
    | link t =>
      rcases h with h | h
      · simp [h]
      · exact absurd e (h t)

theorem follow_link {d : Disk} {jump : Where → List Name → Except Errno Where} {cur : Where} {n : Name} {t : List Byte}
    (hc : lookup d cur = some .dir) (hn : n ≠ [46] ∧ n ≠ [46, 46]) (h : lookup d (cur ++ [n]) = some (.link t)) (ht : t ≠ []) :
    follow d jump true cur [n] = jump (Fs.start cur t) (Fs.comps t) := by
  rw [follow, hc]
  simp [next_plain hn, h, ht]

/-- A path that leads somewhere, taken apart. -/
theorem leads_split {d : Disk} {cwd : Where} {p : List Byte} {w : Where} (h : LeadsTo d cwd p w) :
    ∃ ns n, names false p = ns ++ [n] ∧ w = Fs.start cwd p ++ ns ++ [n] ∧ (n ≠ [46] ∧ n ≠ [46, 46]) ∧ Plainly ns ∧
      (∀ k, k ≤ ns.length → lookup d (Fs.start cwd p ++ ns.take k) = some .dir) ∧ p ≠ [] := by
  have hne := h.some
  refine ⟨(names false p).dropLast, (names false p).getLast hne, (List.dropLast_concat_getLast hne).symm, ?_, ?_, ?_, ?_, ?_⟩
  · rw [List.append_assoc, List.dropLast_concat_getLast hne]
    exact h.place
  · exact h.plain _ (List.getLast_mem hne)
  · exact fun m hm => h.plain m (List.dropLast_subset _ hm)
  · intro k hk
    have hl : (names false p).length ≠ 0 := by simpa using hne
    rw [List.length_dropLast] at hk
    have := h.dirs k (by omega)
    rw [List.dropLast_eq_take, List.take_take, Nat.min_eq_left hk]
    exact this
  · rintro rfl
    exact hne rfl

theorem leads_ne {d : Disk} {cwd : Where} {p : List Byte} {w : Where} (h : LeadsTo d cwd p w) : w ≠ [] := by
  obtain ⟨ns, n, _, hw, _⟩ := leads_split h
  simp [hw]

theorem resolve_names {d : Disk} {cwd : Where} {p : List Byte} {w : Where} {last : Bool} (h : LeadsTo d cwd p w)
    (hl : last = false ∨ ∀ t, lookup d w ≠ some (.link t)) : resolve d last cwd p (names false p) = .ok w := by
  obtain ⟨ns, n, h1, h2, h3, h4, h5, h6⟩ := leads_split h
  rw [resolve, if_neg h6, resolveN, h1, follow_dirs [n] ns _ h4 h5, h2]
  exact follow_last (by simpa using h5 ns.length (Nat.le_refl _)) h3 (by rw [← h2]; exact hl)

theorem opendir_leads {d : Disk} {cwd : Where} {p : List Byte} {w : Where} (h : LeadsTo d cwd p w) (hd : lookup d w = some .dir) :
    opendir d cwd p = .ok w := by
  have hr : resolve d true cwd p (Fs.comps p) = .ok w := by
    have hne : p ≠ [] := (leads_split h).choose_spec.choose_spec.2.2.2.2.2
    have hp := h.place
    rw [resolve, if_neg hne, resolveN, Fs.comps, follow_dirs _ _ _ h.plain, ← hp]
    · split
      · rw [follow, hd]
        have : Fs.next w [46] = w := by simp [Fs.next]
        simp [this, hd, follow]
      · rw [follow]
    · intro k hk
      rcases Nat.lt_or_eq_of_le hk with hk | rfl
      · exact h.dirs k hk
      · rw [List.take_length, ← hp]
        exact hd
  rw [opendir, hr]
  simp [hd]

theorem comps_closed {p : List Byte} (h : ¬ OpenEnd false p) : Fs.comps p = names false p := by
  rw [Fs.comps, if_neg, List.append_nil]
  intro h'
  apply h
  unfold OpenEnd
  rw [h']
  exact .inl rfl

theorem stat_leads {d : Disk} {cwd : Where} {p : List Byte} {w : Where} (h : LeadsTo d cwd p w) (ho : ¬ OpenEnd false p)
    {n : Node} (hd : lookup d w = some n) (hn : ∀ t, n ≠ .link t) : stat d cwd p = .ok n := by
  rw [stat, comps_closed ho, resolve_names h (.inr (by
    intro t e
    rw [hd] at e
    cases e
    exact hn t rfl))]
  simp [hd]

theorem stat_link {d : Disk} {cwd : Where} {p : List Byte} {w : Where} (h : LeadsTo d cwd p w) (ho : ¬ OpenEnd false p)
    {t : List Byte} (hd : lookup d w = some (.link t)) (ht : t ≠ []) {u : Where}
    (hu : resolveN d true 40 (Fs.start w.dropLast t) (Fs.comps t) = .ok u) (hlu : lookup d u ≠ none) :
    ∃ n, stat d cwd p = .ok n := by
  obtain ⟨ns, n, h1, h2, h3, h4, h5, h6⟩ := leads_split h
  have : resolve d true cwd p (Fs.comps p) = .ok u := by
    rw [comps_closed ho, resolve, if_neg h6, resolveN, h1, follow_dirs [n] ns _ h4 h5]
    rw [follow_link (by simpa using h5 ns.length (Nat.le_refl _)) h3 (by rw [← h2]; exact hd) ht]
    rw [h2] at hu
    simpa using hu
  rw [stat, this]
  cases e : lookup d u with
  | none => exact absurd e hlu
  | some n => exact ⟨n, by simp [e]⟩

theorem unlink_leads {d : Disk} {cwd : Where} {p : List Byte} {w : Where} (h : LeadsTo d cwd p w) (ho : ¬ OpenEnd false p) :
    unlink d cwd p = match lookup d w with
      | none => .error .noent
      | some .dir => .error .isdir
      | some _ => .ok (erase d w) := by
  rw [unlink, comps_closed ho, resolve_names h (.inl rfl)]
  simp only
  cases lookup d w with
  | none => rfl
  | some n => cases n <;> rfl

theorem rmdir_leads {d : Disk} {cwd : Where} {p : List Byte} {w : Where} (h : LeadsTo d cwd p w) :
    rmdir d cwd p = match lookup d w with
      | none => .error .noent
      | some .dir => if children d w ≠ [] then .error .notempty else .ok (erase d w)
      | some _ => .error .notdir := by
  have hl : (names false p).getLast? ≠ some [46] := by
    intro e
    exact (h.plain _ (List.mem_of_getLast? e)).1 rfl
  rw [rmdir, if_neg hl, resolve_names h (.inl rfl)]
  simp only [leads_ne h, if_false]
  cases lookup d w with
  | none => rfl
  | some n => cases n <;> rfl

theorem meaning_plain {p : List Byte} (hp : Plainly (names false p)) :
    tame false [p] = true ∧
    meaning false [p] = ⟨if p.head? = some 47 then .root else .here, 0, names false p⟩ := by
  have h := Docs.followT_plain ⟨.here, 0, []⟩ p hp
  have hpar : (parse false p).1 = none ↔ ¬ p.head? = some 47 := by
    cases p with
    | nil => simp [parse]
    | cons c p =>
      by_cases hc : c = 47
      · subst hc
        simp [parse, Path.Spec.Sep]
      · simp [parse, Path.Spec.Sep, hc]
  constructor
  · show (Path.Spec.followT false _ p).2 = true
    rw [h]
  · have e := Path.followT_fst false [p] (⟨.here, 0, []⟩, true)
    have e2 : meaning false [p] = (Path.Spec.followT false (⟨.here, 0, []⟩, true) p).1 := by
      rw [show ([p].foldl (Path.Spec.followT false) (⟨.here, 0, []⟩, true)) = Path.Spec.followT false (⟨.here, 0, []⟩, true) p from rfl] at e
      rw [e]
      rfl
    rw [e2, h]
    by_cases hh : p.head? = some 47
    · simp [hpar, hh]
    · simp [hpar, hh]

/-- The path of an entry leads to the entry. -/
theorem leads_join {d : Disk} {cwd : Where} {p : List Byte} {w : Where} {n : Name} (h : LeadsTo d cwd p w)
    (hd : lookup d w = some .dir) (hn : Plain n) :
    ∃ q, Path.joinAndNormalize false [p, n] = some q ∧ LeadsTo d cwd q (w ++ [n]) ∧ ¬ OpenEnd false q := by
  obtain ⟨ht, hm⟩ := meaning_plain h.plain
  obtain ⟨q, h1, h2, h3, h4⟩ := Fs.Walk.join_step p n ht hn
  rw [hm] at h3
  obtain ⟨g1, g2⟩ := Docs.plain_of_meaning [p, n] q (by simp) h1 (by rw [h3]; rfl) (by rw [h3]; simp [Fs.Walk.Spec.down])
  rw [h3] at g2
  have g2 : names false p ++ [n] = names false q := g2
  obtain ⟨_, hm'⟩ := meaning_plain g1
  rw [h3] at hm'
  have hst : Fs.start cwd q = Fs.start cwd p := by
    unfold Fs.start
    have := congrArg Path.Spec.Loc.anchor hm'
    simp only [Fs.Walk.Spec.down] at this
    by_cases a : p.head? = some 47 <;> by_cases b : q.head? = some 47 <;> simp_all
  refine ⟨q, h1, ⟨g1, by rw [← g2]; simp, ?_, ?_⟩, ?_⟩
  · rw [hst, ← g2, h.place, List.append_assoc]
  · intro k hk
    rw [hst, ← g2]
    rw [← g2, List.length_append, List.length_singleton] at hk
    rw [List.take_append_of_le_length (by omega)]
    rcases Nat.lt_or_eq_of_le (Nat.le_of_lt_succ hk) with hk | rfl
    · exact h.dirs k hk
    · rw [List.take_length, ← h.place]
      exact hd
  · obtain ⟨out, k1, k2⟩ := Path.C22_trailing false [p, n] n rfl (Path.noDrive_posix _)
    rw [h1] at k1
    cases k1
    have hpar : (parse false q).2 = q := by
      unfold parse
      cases q with
      | nil => rfl
      | cons c q =>
        simp only [Bool.false_eq_true, if_false]
        split <;> rfl
    rw [hpar] at k2
    rw [k2 ⟨n, by rw [← g2]; simp, hn.2.2.1⟩]
    unfold OpenEnd
    rw [List.getLast?_eq_some_getLast hn.1]
    simp only
    intro hs
    have hmem := hn.2.1 _ (List.getLast_mem hn.1)
    rcases hs with hs | ⟨hs, _⟩
    · exact hmem hs
    · cases hs

end Verif.Rm
