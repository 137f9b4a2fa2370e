import Verif.Rm.Lemmas

namespace Verif.Rm

open Spec
open Verif.Fs (Name Where FSResult)
open Verif.Fs.Walk.Spec (Plain)
open Verif.Path.Spec (names OpenEnd)

/-- `d'` is `d` with only things at `w` or below removed, and is a disk again. -/
structure Did (w : Where) (d d' : Disk) : Prop where
  part : ∃ f : Where × Node → Bool, d' = d.filter f
  tree : Tree d'
  kept : ∀ e ∈ d, ¬ Below w e.1 → e ∈ d'

theorem Did.sub {w : Where} {d d' : Disk} (h : Did w d d') : ∀ e ∈ d', e ∈ d := by
  obtain ⟨f, rfl⟩ := h.part
  intro e he
  exact (List.mem_filter.1 he).1

theorem Did.refl {d : Disk} (t : Tree d) (w : Where) : Did w d d :=
  ⟨⟨fun _ => true, (List.filter_eq_self.2 fun _ _ => rfl).symm⟩, t, fun _ h _ => h⟩

theorem Did.trans {w : Where} {d d' d'' : Disk} (h : Did w d d') (h' : Did w d' d'') : Did w d d'' := by
  obtain ⟨f, hf⟩ := h.part
  obtain ⟨g, hg⟩ := h'.part
  refine ⟨⟨fun e => f e && g e, by rw [hg, hf, List.filter_filter]; congr; funext e; rw [Bool.and_comm]⟩, h'.tree, ?_⟩
  exact fun e he hb => h'.kept e (h.kept e he hb) hb

theorem Did.mono {w v : Where} {d d' : Disk} (h : Did v d d') (hb : Below w v) : Did w d d' :=
  ⟨h.part, h.tree, fun e he hn => h.kept e he fun hv => hn (List.IsPrefix.trans hb hv)⟩

theorem Did.lookup {w u : Where} {d d' : Disk} (t : Tree d) (h : Did w d d') (hu : ¬ Below w u) : lookup d' u = lookup d u := by
  by_cases h0 : u = []
  · subst h0
    rw [lookup_root, lookup_root]
  · cases e : Rm.lookup d u with
    | some n => exact mem_lookup h.tree.once h0 (h.kept _ (lookup_mem h0 e) hu)
    | none =>
      cases e' : Rm.lookup d' u with
      | none => rfl
      | some n =>
        have := mem_lookup t.once h0 (h.sub _ (lookup_mem h0 e'))
        rw [e] at this
        cases this

theorem Did.leads {c v : Where} {d d' : Disk} {cwd : Where} {p : List Byte} (t : Tree d) (h : Did c d d')
    (hl : LeadsTo d cwd p v) (hv : ¬ Below c v) : LeadsTo d' cwd p v := by
  refine ⟨hl.plain, hl.some, hl.place, fun k hk => ?_⟩
  rw [h.lookup t, hl.dirs k hk]
  intro hb
  apply hv
  rw [hl.place]
  exact List.IsPrefix.trans hb (List.prefix_append_right_inj _ |>.2 (List.take_prefix _ _))

theorem below_self (w : Where) : Below w w := List.prefix_refl w

theorem below_child (w : Where) (n : Name) : Below w (w ++ [n]) := List.prefix_append _ _

theorem not_below_parent (w : Where) (n : Name) : ¬ Below (w ++ [n]) w := by
  intro h
  have := h.length_le
  simp at this
  omega

theorem not_below_sibling {w : Where} {n m : Name} (h : n ≠ m) : ¬ Below (w ++ [n]) (w ++ [m]) := by
  intro hb
  have := hb.eq_of_length (by simp)
  simp at this
  exact h this

/-- Only directories have something in them. -/
theorem nondir_children {d : Disk} (t : Tree d) {w : Where} (hw : w ≠ []) {x : Node} (hx : lookup d w = some x) (hn : x ≠ .dir) :
    children d w = [] := by
  rw [List.eq_nil_iff_forall_not_mem]
  rintro ⟨n, node⟩ hm
  obtain ⟨v, m, h1, _, h3⟩ := t.named _ (mem_children.1 hm)
  have := List.append_inj' h1 rfl
  obtain ⟨rfl, _⟩ := this
  rcases h3 with h3 | h3
  · exact hw h3
  · have := mem_lookup t.once hw h3
    rw [hx] at this
    cases this
    exact hn rfl

theorem empty_below {d : Disk} (t : Tree d) {w : Where} (hc : children d w = []) : ∀ e ∈ d, Below w e.1 → e.1 = w := by
  have key : ∀ (k : Nat) (s : Where) (x : Node), s.length = k → (w ++ s, x) ∈ d → s = [] := by
    intro k
    induction k with
    | zero =>
      intro s x hs _
      exact List.length_eq_zero_iff.1 hs
    | succ k ih =>
      intro s x hs hm
      have hne : s ≠ [] := by
        rintro rfl
        cases hs
      obtain ⟨s', n, rfl⟩ : ∃ s' n, s = s' ++ [n] := ⟨_, _, (List.dropLast_concat_getLast hne).symm⟩
      obtain ⟨v, m, h1, _, h3⟩ := t.named _ hm
      have h1 : w ++ (s' ++ [n]) = v ++ [m] := h1
      rw [← List.append_assoc] at h1
      obtain ⟨rfl, h1⟩ := List.append_inj' h1 rfl
      have hs' : s' = [] := by
        rcases h3 with h3 | h3
        · exact (List.append_eq_nil_iff.1 h3).2
        · exact ih s' _ (by simpa using hs) h3
      subst hs'
      have : (n, x) ∈ children d w := mem_children.2 (by simpa using hm)
      rw [hc] at this
      cases this
  rintro ⟨v, x⟩ he ⟨s, hs⟩
  simp only at hs
  subst hs
  have := key s.length s x rfl he
  simp [this]

theorem erase_did {d : Disk} (t : Tree d) {w : Where} (hc : children d w = []) : Did w d (erase d w) := by
  refine ⟨⟨_, rfl⟩, ⟨?_, ?_⟩, ?_⟩
  · exact List.Nodup.sublist ((List.filter_sublist).map _) t.once
  · intro e he
    simp only [erase, List.mem_filter, decide_eq_true_eq] at he
    obtain ⟨v, n, h1, h2, h3⟩ := t.named e he.1
    refine ⟨v, n, h1, h2, ?_⟩
    rcases h3 with h3 | h3
    · exact .inl h3
    · refine .inr ?_
      simp only [erase, List.mem_filter, decide_eq_true_eq]
      refine ⟨h3, ?_⟩
      rintro rfl
      have : (n, e.2) ∈ children d v := mem_children.2 (by rw [← h1]; exact he.1)
      rw [hc] at this
      cases this
  · intro e he hb
    simp only [erase, List.mem_filter, decide_eq_true_eq]
    refine ⟨he, ?_⟩
    rintro rfl
    exact hb (below_self _)

theorem erase_without {d d' : Disk} {w : Where} (h : Did w d d') (hc : children d' w = []) : erase d' w = without d w := by
  have hb := empty_below h.tree hc
  have hk := h.kept
  have hs := h.sub
  obtain ⟨f, rfl⟩ := h.part
  rw [erase, without, List.filter_filter]
  apply List.filter_congr
  intro e he
  by_cases hw : Below w e.1
  · simp only [hw, not_true_eq_false, decide_false, Bool.and_eq_false_iff, decide_eq_false_iff_not, Decidable.not_not]
    by_cases hf : f e = true
    · exact .inl (hb e (List.mem_filter.2 ⟨he, hf⟩) hw)
    · exact .inr (by simpa using hf)
  · have h1 := (List.mem_filter.1 (hk e he hw)).2
    have h2 : e.1 ≠ w := by
      rintro rfl
      exact hw (below_self _)
    simp [hw, h1, h2]

/-! ## The loop -/

theorem loop_dots (sub : Disk → List Byte → Disk × Option FSResult) (cwd : Where) (p : List Byte) (d : Disk) (w : Where) :
    removeLoop sub cwd p d (readdir d w) = removeLoop sub cwd p d (children d w) := by
  simp [readdir, removeLoop]

/-- What removing something must do, if there are links or not. -/
def Careful (cwd : Where) (sub : Disk → List Byte → Disk × Option FSResult) : Prop :=
  ∀ d q v, Tree d → LeadsTo d cwd q v → lookup d v = some .dir →
    Did v d (sub d q).1 ∧ ∀ x, (sub d q).2 = some x → x = .ok ∧ (sub d q).1 = without d v

theorem child_plain {d : Disk} (t : Tree d) {w : Where} {n : Name} {x : Node} (h : (w ++ [n], x) ∈ d) : Plain n := by
  obtain ⟨v, m, h1, h2, _⟩ := t.named _ h
  have h1 : w ++ [n] = v ++ [m] := h1
  have := (List.append_inj' h1 rfl).2
  cases this
  exact h2

theorem plain_dots {n : Name} (h : Plain n) (x : Node) : ¬ (x = .dir ∧ (n = [46] ∨ n = [46, 46])) := by
  rintro ⟨_, h' | h'⟩
  · exact h.2.2.1 h'
  · exact h.2.2.2 h'

/-- The rest of the entries after one has been removed. -/
theorem rest_kept {d d' : Disk} {w : Where} {n : Name} {x : Node} {rs : List (Name × Node)} (h : Did (w ++ [n]) d d')
    (nd : (((n, x) :: rs).map (·.1)).Nodup) (hr : ∀ r ∈ (n, x) :: rs, (w ++ [r.1], r.2) ∈ d) :
    (rs.map (·.1)).Nodup ∧ ∀ r ∈ rs, (w ++ [r.1], r.2) ∈ d' := by
  rw [List.map_cons, List.nodup_cons] at nd
  refine ⟨nd.2, fun r hm => h.kept _ (hr r (by simp [hm])) ?_⟩
  apply not_below_sibling
  rintro rfl
  exact nd.1 (List.mem_map.2 ⟨r, hm, rfl⟩)

theorem rest_same {d : Disk} {w : Where} {n : Name} {x : Node} {rs : List (Name × Node)}
    (nd : (((n, x) :: rs).map (·.1)).Nodup) (hr : ∀ r ∈ (n, x) :: rs, (w ++ [r.1], r.2) ∈ d) :
    (rs.map (·.1)).Nodup ∧ ∀ r ∈ rs, (w ++ [r.1], r.2) ∈ d := by
  rw [List.map_cons, List.nodup_cons] at nd
  exact ⟨nd.2, fun r hm => hr r (by simp [hm])⟩

theorem unlink_child {d : Disk} (t : Tree d) {cwd : Where} {q : List Byte} {v : Where} (hl : LeadsTo d cwd q v)
    (ho : ¬ OpenEnd false q) {x : Node} (hx : lookup d v = some x) (hn : x ≠ .dir) :
    unlink d cwd q = .ok (erase d v) ∧ Did v d (erase d v) := by
  refine ⟨?_, erase_did t (nondir_children t (leads_ne hl) hx hn)⟩
  rw [unlink_leads hl ho, hx]
  cases x with
  | dir => exact absurd rfl hn
  | file => rfl
  | link t => rfl

theorem loop_careful {cwd : Where} {sub : Disk → List Byte → Disk × Option FSResult} (hs : Careful cwd sub)
    {p : List Byte} {w : Where} : ∀ (rs : List (Name × Node)) (d : Disk), Tree d → LeadsTo d cwd p w → lookup d w = some .dir →
      (rs.map (·.1)).Nodup → (∀ r ∈ rs, (w ++ [r.1], r.2) ∈ d) →
      Did w d (removeLoop sub cwd p d rs).1 ∧ ∀ x, (removeLoop sub cwd p d rs).2 = some x → x = none
  | [], d, t, _, _, _, _ => by
    simp only [removeLoop]
    exact ⟨Did.refl t w, by rintro x ⟨⟩; rfl⟩
  | (n, x) :: rs, d, t, hl, hd, nd, hr => by
    have hin := hr (n, x) (by simp)
    have hp := child_plain t hin
    obtain ⟨q, hj, hq, ho⟩ := leads_join hl hd hp
    have hx := mem_lookup t.once (by simp) hin
    have same := rest_same nd hr
    rw [removeLoop, if_neg (plain_dots hp x), hj]
    simp only
    split
    · exact loop_careful hs rs d t hl hd same.1 same.2
    · exact ⟨Did.refl t w, by rintro x ⟨⟩⟩
    · by_cases hxd : x = .dir
      · subst hxd
        simp only [if_true]
        have hsub := hs d q _ t hq hx
        split
        · next d' e =>
          rw [e] at hsub
          exact ⟨hsub.1.mono (below_child w n), by rintro x ⟨⟩⟩
        · next d' r e =>
          rw [e] at hsub
          have hok := (hsub.2 r rfl).1
          subst hok
          simp only [ne_eq, not_true_eq_false, if_false]
          have hrest := rest_kept hsub.1 nd hr
          have ih := loop_careful hs rs d' hsub.1.tree (hsub.1.leads t hl (not_below_parent w n))
            (by rw [hsub.1.lookup t (not_below_parent w n)]; exact hd) hrest.1 hrest.2
          exact ⟨(hsub.1.mono (below_child w n)).trans ih.1, ih.2⟩
      · simp only [hxd, if_false]
        obtain ⟨hu, hdid⟩ := unlink_child t hq ho hx hxd
        rw [hu]
        simp only
        have hrest := rest_kept hdid nd hr
        have ih := loop_careful hs rs _ hdid.tree (hdid.leads t hl (not_below_parent w n))
          (by rw [hdid.lookup t (not_below_parent w n)]; exact hd) hrest.1 hrest.2
        exact ⟨(hdid.mono (below_child w n)).trans ih.1, ih.2⟩

theorem remove_careful (cwd : Where) : ∀ fuel, Careful cwd (removeDirTree cwd fuel)
  | 0 => fun d q v t _ _ => ⟨Did.refl t v, by rintro x ⟨⟩⟩
  | fuel + 1 => by
    intro d q v t hl hd
    have hloop := loop_careful (remove_careful cwd fuel) (children d v) d t hl hd (children_nodup t.once v)
      (fun r hr => mem_children.1 hr)
    rw [removeDirTree, opendir_leads hl hd]
    simp only [loop_dots]
    split
    · next d' e =>
      rw [e] at hloop
      exact ⟨hloop.1, by rintro x ⟨⟩⟩
    · next d' r e =>
      rw [e] at hloop
      have := hloop.2 _ rfl
      cases this
    · next d' e =>
      rw [e] at hloop
      have hl' : rmdir d' cwd q = match lookup d' v with
        | none => .error .noent
        | some .dir => if children d' v ≠ [] then .error .notempty else .ok (erase d' v)
        | some _ => .error .notdir := by
        apply rmdir_leads
        refine ⟨hl.plain, hl.some, hl.place, fun k hk => ?_⟩
        rw [hloop.1.lookup t, hl.dirs k hk]
        intro hb
        have := hb.length_le
        rw [hl.place] at this
        simp at this
        omega
      rw [hl']
      split
      · exact ⟨hloop.1, by rintro x ⟨⟩⟩
      · next d'' e2 =>
        have hc : children d' v = [] ∧ d'' = erase d' v := by
          revert e2
          split
          · intro e2
            cases e2
          · split
            · intro e2
              cases e2
            · next hc =>
              intro e2
              cases e2
              exact ⟨by simpa using hc, rfl⟩
          · intro e2
            cases e2
        obtain ⟨hc, rfl⟩ := hc
        exact ⟨hloop.1.trans (erase_did hloop.1.tree hc), by rintro x ⟨⟩; exact ⟨rfl, erase_without hloop.1 hc⟩⟩

/-! ## Getting to the end -/

/-- The things at `w` or below. -/
def size (d : Disk) (w : Where) : Nat := (d.filter fun e => Below w e.1).length

theorem size_mono {d d' : Disk} {w : Where} (h : ∃ f : Where × Node → Bool, d' = d.filter f) : size d' w ≤ size d w := by
  obtain ⟨f, rfl⟩ := h
  rw [size, size, List.filter_filter]
  have : (d.filter fun e => decide (Below w e.1) && f e) = (d.filter fun e => decide (Below w e.1)).filter f := by
    rw [List.filter_filter]
    congr
    funext e
    rw [Bool.and_comm]
  rw [this]
  exact List.length_filter_le _ _

theorem size_child {d : Disk} {w : Where} {n : Name} {x : Node} (hw : (w, x) ∈ d) : size d (w ++ [n]) < size d w := by
  have e : (d.filter fun e => decide (Below (w ++ [n]) e.1)) =
      (d.filter fun e => decide (Below w e.1)).filter fun e => decide (Below (w ++ [n]) e.1) := by
    rw [List.filter_filter]
    apply List.filter_congr
    intro e _
    by_cases h : Below (w ++ [n]) e.1
    · have : Below w e.1 := List.IsPrefix.trans (below_child w n) h
      simp [h, this]
    · simp [h]
  rw [size, size, e]
  apply List.length_filter_lt_length_iff_exists.2
  refine ⟨(w, x), List.mem_filter.2 ⟨hw, by simp [below_self]⟩, ?_⟩
  simpa using not_below_parent w n

theorem stat_child {top : Where} {d0 d : Disk} (hk : LinksHold d0 top) (hsub : ∀ e ∈ d, e ∈ d0)
    (hag : ∀ u, ¬ Below top u → lookup d u = lookup d0 u) {cwd : Where} {q : List Byte} {v : Where} (hq : LeadsTo d cwd q v)
    (ho : ¬ OpenEnd false q) {x : Node} (hx : lookup d v = some x) (hb : Below top v) : ∃ y, stat d cwd q = .ok y := by
  cases x with
  | file => exact ⟨_, stat_leads hq ho hx (by rintro t ⟨⟩)⟩
  | dir => exact ⟨_, stat_leads hq ho hx (by rintro t ⟨⟩)⟩
  | link t =>
    obtain ⟨h1, u, h2, h3⟩ := hk v t (hsub _ (lookup_mem (leads_ne hq) hx)) hb d hag
    exact stat_link hq ho hx h1 h2 h3

/-- Removing what is below `top` comes to its end. -/
def Ends (cwd top : Where) (d0 : Disk) (fuel : Nat) (sub : Disk → List Byte → Disk × Option FSResult) : Prop :=
  ∀ d q v, Tree d → LeadsTo d cwd q v → lookup d v = some .dir → Below top v → (∀ e ∈ d, e ∈ d0) →
    (∀ u, ¬ Below top u → lookup d u = lookup d0 u) → size d v ≤ fuel → (sub d q).2 ≠ none

theorem loop_ends {cwd top : Where} {d0 : Disk} {fuel : Nat} {sub : Disk → List Byte → Disk × Option FSResult}
    (hs : Careful cwd sub) (hk : LinksHold d0 top) (he : Ends cwd top d0 fuel sub) {p : List Byte} {w : Where} (hb : Below top w) :
    ∀ (rs : List (Name × Node)) (d : Disk), Tree d → LeadsTo d cwd p w → lookup d w = some .dir → (rs.map (·.1)).Nodup →
      (∀ r ∈ rs, (w ++ [r.1], r.2) ∈ d) → (∀ e ∈ d, e ∈ d0) → (∀ u, ¬ Below top u → lookup d u = lookup d0 u) →
      size d w ≤ fuel + 1 → (removeLoop sub cwd p d rs).2 = some none ∧ lookup (removeLoop sub cwd p d rs).1 w = some .dir ∧
        ∀ r ∈ rs, ∀ e ∈ (removeLoop sub cwd p d rs).1, ¬ Below (w ++ [r.1]) e.1
  | [], d, _, _, hd, _, _, _, _, _ => by
    simp [removeLoop, hd]
  | (n, x) :: rs, d, t, hl, hd, nd, hr, hsub, hag, hsz => by
    have hin := hr (n, x) (by simp)
    have hp := child_plain t hin
    obtain ⟨q, hj, hq, ho⟩ := leads_join hl hd hp
    have hx := mem_lookup t.once (by simp) hin
    have hbc : Below top (w ++ [n]) := List.IsPrefix.trans hb (below_child w n)
    obtain ⟨y, hy⟩ := stat_child hk hsub hag hq ho hx hbc
    rw [removeLoop, if_neg (plain_dots hp x), hj]
    simp only [hy]
    -- whatever is done for this entry, the rest is done afterwards
    have go : ∀ d', Did (w ++ [n]) d d' → (∀ e ∈ d', ¬ Below (w ++ [n]) e.1) → (removeLoop sub cwd p d' rs).2 = some none ∧
        lookup (removeLoop sub cwd p d' rs).1 w = some .dir ∧ ∀ r ∈ (n, x) :: rs, ∀ e ∈ (removeLoop sub cwd p d' rs).1, ¬ Below (w ++ [r.1]) e.1 := by
      intro d' hdid hgone
      have hrest := rest_kept hdid nd hr
      have hl' := hdid.leads t hl (not_below_parent w n)
      have hd' : lookup d' w = some .dir := by
        rw [hdid.lookup t (not_below_parent w n)]
        exact hd
      have ih := loop_ends hs hk he hb rs d' hdid.tree hl' hd' hrest.1 hrest.2 (fun e h => hsub e (hdid.sub e h))
        (fun u hu => by
          rw [hdid.lookup t fun h => hu (List.IsPrefix.trans hbc h)]
          exact hag u hu) (Nat.le_trans (size_mono hdid.part) hsz)
      refine ⟨ih.1, ih.2.1, ?_⟩
      intro r hm
      rcases List.mem_cons.1 hm with rfl | hm
      · intro e h
        exact hgone e ((loop_careful hs rs d' hdid.tree hl' hd' hrest.1 hrest.2).1.sub e h)
      · exact ih.2.2 r hm
    by_cases hxd : x = .dir
    · subst hxd
      simp only [if_true]
      have hcar := hs d q _ t hq hx
      have hend := he d q _ t hq hx hbc hsub hag
        (Nat.le_of_lt_succ (Nat.lt_of_lt_of_le (size_child (n := n) (lookup_mem (leads_ne hl) hd)) hsz))
      split
      · next d' e =>
        rw [e] at hend
        exact absurd rfl hend
      · next d' r e =>
        rw [e] at hcar
        obtain ⟨rfl, hw⟩ := hcar.2 r rfl
        simp only [ne_eq, not_true_eq_false, if_false]
        apply go d' hcar.1
        intro e h
        simp only at hw
        rw [hw, without, List.mem_filter] at h
        simpa using h.2
    · simp only [hxd, if_false]
      obtain ⟨hu, hdid⟩ := unlink_child t hq ho hx hxd
      rw [hu]
      simp only
      apply go _ hdid
      intro e h hbe
      have h1 := empty_below t (nondir_children t (leads_ne hq) hx hxd) e (hdid.sub e h) hbe
      simp [erase, h1] at h

theorem remove_ends {cwd top : Where} {d0 : Disk} (hk : LinksHold d0 top) : ∀ fuel, Ends cwd top d0 fuel (removeDirTree cwd fuel)
  | 0 => by
    intro d q v _ hl hd hb _ _ hsz
    have : (v, Node.dir) ∈ d.filter fun e => decide (Below v e.1) :=
      List.mem_filter.2 ⟨lookup_mem (leads_ne hl) hd, by simp [below_self]⟩
    have h2 := List.length_pos_of_mem this
    unfold size at hsz
    omega
  | fuel + 1 => by
    intro d q v t hl hd hb hsub hag hsz
    have nd := children_nodup t.once v
    have hm : ∀ r ∈ children d v, (v ++ [r.1], r.2) ∈ d := fun r hr => mem_children.1 hr
    have hcar := (loop_careful (remove_careful cwd fuel) (children d v) d t hl hd nd hm).1
    have hend := loop_ends (remove_careful cwd fuel) hk (remove_ends hk fuel) hb (children d v) d t hl hd nd hm hsub hag hsz
    rw [removeDirTree, opendir_leads hl hd]
    simp only [loop_dots]
    generalize hR : removeLoop (removeDirTree cwd fuel) cwd q d (children d v) = R at hcar hend
    obtain ⟨d', r⟩ := R
    simp only at hcar hend
    rw [hend.1]
    have hl' : LeadsTo d' cwd q v := by
      refine ⟨hl.plain, hl.some, hl.place, fun k hk => ?_⟩
      rw [hcar.lookup t, hl.dirs k hk]
      intro hb
      have := hb.length_le
      rw [hl.place] at this
      simp at this
      omega
    have hc : children d' v = [] := by
      rw [List.eq_nil_iff_forall_not_mem]
      rintro ⟨n, x⟩ hx
      have h1 := mem_children.1 hx
      exact hend.2.2 (n, x) (mem_children.2 (hcar.sub _ h1)) _ h1 (below_self _)
    have hdv := hend.2.1
    simp [rmdir_leads hl', hdv, hc]

end Verif.Rm
