import Verif.HMap.LemmasMigrate
import Verif.HMap.Client
import Mathlib.Data.List.Nodup
/-! # Programs using the hash map -/
namespace Verif.HMap
open Spec

variable {K V : Type}

/-- Overwriting a value. -/
theorem Inv.overwrite {T : Traits K V} {cs ch} (hi : Inv T cs ch) {p : Nat} {c : Cell K V} {x : K × V}
    (hc : cell cs p = some c) (hx : c.item = some x) (v : V) :
    Inv T (setCell cs p { c with item := some (x.1, v) }) ch := by
  generalize hd : ({ c with item := some (x.1, v) } : Cell K V) = d
  have hdn : d.next = c.next := by rw [← hd]
  have hdh : d.hash = c.hash := by rw [← hd]
  have hdi : d.item = some (x.1, v) := by rw [← hd]
  have hdf : d.first = c.first := by rw [← hd]
  have hlen := setCell_length cs p d
  have hlink : ∀ l, readLink (setCell cs p d) l = readLink cs l := by
    intro l
    by_cases hs : same cs.length l (.next p)
    · rw [(readLink_setCell hi.pos hc hdf l).1 hs]
      cases l with
      | first i => exact hs.elim
      | next i =>
        have hs : i % cs.length = p % cs.length := hs
        simp [readLink, cell_congr hs, hc, hdn]
    · exact (readLink_setCell hi.pos hc hdf l).2 hs
  have hkeys : ((items (setCell cs p d)).map (·.1)).Perm ((items cs).map (·.1)) := by
    have := (items_setCell d hc).map (·.1)
    rw [hx, hdi] at this
    simp only [List.map_append, Option.toList_some, List.map_cons, List.map_nil] at this
    exact (List.perm_append_right_iff _).1 this
  have hcell : ∀ i c', cell (setCell cs p d) i = some c' → ∃ c0, cell cs i = some c0 ∧
      c'.next = c0.next ∧ c'.hash = c0.hash ∧ ∀ y, c'.item = some y → ∃ y0, c0.item = some y0 ∧ y0.1 = y.1 := by
    intro i c' hc'
    rw [cell_setCell hi.pos] at hc'
    split at hc'
    · next e =>
      cases hc'
      exact ⟨c, by rw [cell_congr e, hc], hdn, hdh, fun y hy => ⟨x, hx, by rw [hdi] at hy; cases hy; rfl⟩⟩
    · exact ⟨c', hc', rfl, rfl, fun y hy => ⟨y, hy, rfl⟩⟩
  constructor
  · rw [hlen]; exact hi.pos
  · exact hkeys.nodup_iff.2 hi.keys
  · intro i c' hc'
    rw [cell_setCell hi.pos] at hc'
    split at hc'
    · cases hc'
      rw [hdn, hdi, hi.occ p c hc, hx]
      simp
    · exact hi.occ i c' hc'
  · intro i c' y hc' hy
    obtain ⟨c0, h0, _, h1, h2⟩ := hcell i c' hc'
    obtain ⟨y0, h3, h4⟩ := h2 y hy
    rw [h1, hi.hash i c0 y0 h0 h3, h4]
  · intro g
    rw [hlen]
    exact (hi.seg g).frame fun l _ => hlink l
  · intro g
    rw [hlen, hlink]
    exact hi.fin g
  · intro g
    rw [hlen]
    exact hi.dist g
  · intro g e he
    rw [hlen] at he ⊢
    obtain ⟨c', y, hc', hy, hb⟩ := hi.mem g e he
    by_cases h1 : (g + e) % cs.length = p % cs.length
    · refine ⟨d, (x.1, v), by rw [cell_setCell hi.pos, if_pos h1], hdi, ?_⟩
      rw [cell_congr h1, hc] at hc'
      cases hc'
      rw [hx] at hy
      cases hy
      exact hb
    · exact ⟨c', y, by rw [cell_setCell hi.pos, if_neg h1, hc'], hy, hb⟩
  · intro i c' y hc' hy
    rw [hlen]
    obtain ⟨c0, h0, hn, _, h2⟩ := hcell i c' hc'
    obtain ⟨y0, h3, h4⟩ := h2 y hy
    rw [hn, ← h4]
    exact hi.owner i c0 y0 h0 h3

/-- The table holds the map. -/
structure Rel (T : Traits K V) (t : Table K V) (m : K → Option V) : Prop where
  inv : ∃ ch, Inv T t.cells ch
  pop : t.pop = (items t.cells).length
  lists : Lists m (items t.cells)

theorem Spec.Lists.unique {m : K → Option V} {l : List (K × V)} (h : Lists m l) {k : K} {v : V}
    (hm : (k, v) ∈ l) : m k = some v := (h.2 k v).1 hm

theorem Spec.Lists.length_eq {m : K → Option V} {l l' : List (K × V)} (h : Lists m l) (h' : Lists m l') :
    l.length = l'.length := by
  have hnd : ∀ l : List (K × V), (l.map (·.1)).Nodup → l.Nodup := fun l hl => List.Nodup.of_map _ hl
  have h1 : l ⊆ l' := fun x hx => (h'.2 x.1 x.2).2 ((h.2 x.1 x.2).1 hx)
  have h2 : l' ⊆ l := fun x hx => (h.2 x.1 x.2).2 ((h'.2 x.1 x.2).1 hx)
  exact Nat.le_antisymm (List.subperm_of_subset (hnd _ h.1) h1).length_le
    (List.subperm_of_subset (hnd _ h'.1) h2).length_le

theorem Spec.Lists.perm {m : K → Option V} {l l' : List (K × V)} (h : Lists m l) (hp : l'.Perm l) :
    Lists m l' :=
  ⟨(hp.map _).nodup_iff.2 h.1, fun k v => by rw [hp.mem_iff]; exact h.2 k v⟩

variable [DecidableEq K]

theorem Spec.Lists.put {m : K → Option V} {l l' : List (K × V)} {k : K} {v : V} (h : Lists m l)
    (hn : (l'.map (·.1)).Nodup) (hk : (k, v) ∈ l') (ho : ∀ x y, x ≠ k → ((x, y) ∈ l' ↔ (x, y) ∈ l)) :
    Lists (after m (.put k v)) l' := by
  refine ⟨hn, fun x y => ?_⟩
  simp only [after]
  by_cases hx : x = k
  · subst hx
    rw [if_pos rfl]
    constructor
    · intro hy
      have := List.inj_on_of_nodup_map hn hk hy rfl
      cases this
      rfl
    · intro e; cases e; exact hk
  · rw [if_neg hx, ho x y hx, h.2]

theorem Spec.Lists.erase {m : K → Option V} {l l' : List (K × V)} {x : K × V} (h : Lists m l)
    (hp : (x :: l').Perm l) : Lists (after m (.erase x.1)) l' := by
  have hn : ((x :: l').map (·.1)).Nodup := (hp.map _).nodup_iff.2 h.1
  rw [List.map_cons, List.nodup_cons] at hn
  refine ⟨hn.2, fun k v => ?_⟩
  simp only [after]
  by_cases hk : k = x.1
  · rw [if_pos hk]
    refine ⟨fun hm => ?_, fun e => by cases e⟩
    exact absurd (List.mem_map.2 ⟨(k, v), hm, hk⟩) hn.1
  · rw [if_neg hk, ← h.2, ← hp.mem_iff, List.mem_cons]
    refine ⟨.inr, fun hm => ?_⟩
    rcases hm with rfl | hm
    · exact absurd rfl hk
    · exact hm

theorem Spec.Lists.absent {m : K → Option V} {l : List (K × V)} (h : Lists m l) {k : K}
    (hk : k ∉ l.map (·.1)) : m k = none := by
  cases hm : m k with
  | none => rfl
  | some v => exact absurd (List.mem_map.2 ⟨(k, v), (h.2 k v).2 hm, rfl⟩) hk

/-- Assigning through a cursor. -/
theorem setValue_spec {T : Traits K V} {t : Table K V} {m : K → Option V} (hr : Rel T t m) {idx : Nat}
    {c : Cell K V} {x : K × V} (hc : cell t.cells idx = some c) (hx : c.item = some x) (v : V) :
    ∃ cs, setValue t.cells idx v = some cs ∧ cs.length = t.cells.length ∧
      Rel T ⟨cs, t.pop⟩ (after m (.put x.1 v)) := by
  obtain ⟨ch, hi⟩ := hr.inv
  have hi' := hi.overwrite hc hx v
  refine ⟨_, by simp only [setValue, hc, hx], setCell_length _ _ _, ⟨ch, hi'⟩, ?_, ?_⟩
  · have := (items_setCell { c with item := some (x.1, v) } hc).length_eq
    rw [hx] at this
    simp only [List.length_append, Option.toList_some, List.length_cons, List.length_nil] at this
    rw [hr.pop]
    dsimp only
    omega
  · refine hr.lists.put hi'.keys ?_ ?_
    · exact mem_items.2 ⟨idx, _, by rw [cell_setCell hi.pos, if_pos rfl], rfl⟩
    · intro k y hk
      rw [mem_items, mem_items]
      constructor
      · rintro ⟨i, c', hc', hy⟩
        rw [cell_setCell hi.pos] at hc'
        split at hc'
        · cases hc'; cases hy; exact absurd rfl hk
        · exact ⟨i, c', hc', hy⟩
      · rintro ⟨i, c', hc', hy⟩
        refine ⟨i, c', ?_, hy⟩
        rw [cell_setCell hi.pos, if_neg, hc']
        intro e
        rw [cell_congr e, hc] at hc'
        cases hc'
        rw [hx] at hy
        cases hy
        exact hk rfl

/-- Inserting a new item. -/
theorem Rel.inserted {T : Traits K V} {t : Table K V} {m : K → Option V} (hr : Rel T t m) {key : K}
    {idx : Nat} {cs' ch'} (hk : key ∉ (items t.cells).map (·.1))
    (hin : Inserted T t.cells idx (key, T.fresh) cs' ch') :
    Rel T ⟨cs', t.pop + 1⟩ (after m (.put key T.fresh)) := by
  refine ⟨⟨ch', hin.inv⟩, ?_, ?_⟩
  · rw [hr.pop, hin.perm.length_eq]; rfl
  · refine hr.lists.put hin.inv.keys ?_ ?_
    · rw [hin.perm.mem_iff]; exact List.mem_cons_self
    · intro x y hx
      rw [hin.perm.mem_iff, List.mem_cons]
      refine ⟨fun h => ?_, .inr⟩
      rcases h with h | h
      · cases h; exact absurd rfl hx
      · exact h

/-- What `findWithInsert` leaves. -/
def PutOk (T : Traits K V) (m : K → Option V) (key : K) (r : Result) (t' : Table K V) : Prop :=
  (∃ idx lk c x, r = .found idx lk ∧ cell t'.cells idx = some c ∧ c.item = some x ∧ x.1 = key ∧
      (m key).isSome = true ∧ Rel T t' m) ∨
    (∃ idx c x, r = .inserted idx ∧ cell t'.cells idx = some c ∧ c.item = some x ∧ x.1 = key ∧
      m key = none ∧ Rel T t' (after m (.put key T.fresh)))

theorem Rel.migrated {T : Traits K V} {t t' : Table K V} {m : K → Option V} (hr : Rel T t m)
    (h : migrate t = some t') : Rel T t' m ∧ ∃ ch, Inv T t'.cells ch ∧ Compact t'.cells ch := by
  obtain ⟨ch, hi⟩ := hr.inv
  obtain ⟨ch', h1, h2, h3, h4⟩ := migrate_sound hi h
  exact ⟨⟨⟨ch', h1⟩, by rw [h4, hr.pop, h3.length_eq], hr.lists.perm h3⟩, ch', h1, h2⟩

theorem found_isSome {m : K → Option V} {cs : List (Cell K V)} (hl : Lists m (items cs)) {idx : Nat}
    {c : Cell K V} {x : K × V} (hc : cell cs idx = some c) (hx : c.item = some x) :
    m x.1 = some x.2 := (hl.2 x.1 x.2).1 (mem_items.2 ⟨idx, c, hc, hx⟩)

theorem findWithInsert_sound {T : Traits K V} (key : K) (fuel : Nat) {t : Table K V} {m : K → Option V}
    (hr : Rel T t m) {r : Result} {t' : Table K V}
    (h : findWithInsert T key fuel t = some (r, t')) : PutOk T m key r t' := by
  induction fuel generalizing t with
  | zero => cases h
  | succ n ih =>
    obtain ⟨ch, hi⟩ := hr.inv
    rcases insertOrFind_spec hi key true with
      ⟨idx, lk, c, x, h1, hc, hx, hk, _⟩ | ⟨hk, h1 | ⟨_, idx, cs', ch', h1, hin⟩ | ⟨_, h1, _⟩⟩
    · simp only [findWithInsert, h1] at h
      cases h
      refine .inl ⟨idx, lk, c, x, rfl, hc, hx, hk, ?_, hr⟩
      rw [← hk, found_isSome hr.lists hc hx]; rfl
    · exact absurd h1.1 (by simp)
    · simp only [findWithInsert, h1] at h
      cases h
      obtain ⟨c, h2, h3⟩ := hin.at_
      exact .inr ⟨idx, c, _, rfl, h2, h3, rfl, hr.lists.absent hk, hr.inserted hk hin⟩
    · simp only [findWithInsert, h1] at h
      rw [Option.bind_eq_some_iff] at h
      obtain ⟨t1, hm, h⟩ := h
      exact ih (hr.migrated hm).1 h

/-- A fresh table with room cannot be full. -/
theorem not_full {T : Traits K V} {cs ch} (hi : Inv T cs ch) (hco : Compact cs ch) (h : Nat)
    (h1 : (items cs).length ≤ 128) (h2 : (items cs).length < cs.length) : ¬ Full cs ch h := by
  rintro ⟨hf1, hf2⟩
  obtain ⟨c, hc⟩ := cell_some hi.pos h
  have hn : c.next ≠ 255 := fun hn => hf1 c hc hn (Compact.home_free hi hco hc hn).2
  have hup := Compact.upto hi hco hc hn
  have hdl := hi.dist_lt h
  generalize distAt 0 (ch (h % cs.length)) = D at *
  have := window_le hi.keys h (D + min (cs.length - 1 - D) 128 + 1) (by omega) (fun j hj => by
    by_cases hjD : j ≤ D
    · exact hup j hjD
    · obtain ⟨c', hc', hn'⟩ := hf2 (j - D) (by omega) (by omega)
      rw [show h + D + (j - D) = h + j by omega] at hc'
      obtain ⟨y, hy⟩ := used_item hi hc' hn'
      exact ⟨c', y, hc', hy⟩)
  omega

theorem findWithInsert_total {T : Traits K V} (key : K) (n : Nat) {t : Table K V} {m : K → Option V}
    (hr : Rel T t m) (h256 : t.cells.length ≤ 256) (h128 : t.pop ≤ 128) :
    ∃ r t', findWithInsert T key (n + 2) t = some (r, t') ∧ t'.cells.length ≤ 256 := by
  obtain ⟨ch, hi⟩ := hr.inv
  rcases insertOrFind_spec hi key true with
    ⟨idx, lk, c, x, h1, hc, hx, hk, _⟩ | ⟨hk, h1 | ⟨_, idx, cs', ch', h1, hin⟩ | ⟨_, h1, hfull⟩⟩
  · exact ⟨.found idx lk, t, by simp only [findWithInsert, h1], h256⟩
  · exact absurd h1.1 (by simp)
  · exact ⟨.inserted idx, ⟨cs', t.pop + 1⟩, by simp only [findWithInsert, h1],
      by dsimp only; rw [hin.length]; exact h256⟩
  · obtain ⟨t1, hm, h4, h5, h6⟩ := migrate_total hi hr.pop h128
    obtain ⟨hr1, ch1, hi1, hco1⟩ := hr.migrated hm
    have hp1 : t1.pop = t.pop := (migrate_sound hi hm).choose_spec.2.2.2
    have hp2 := hr1.pop
    have hpos := hi1.pos
    rcases insertOrFind_spec hi1 key true with
      ⟨idx, lk, c, x, h7, hc, hx, hk, _⟩ | ⟨hk, h7 | ⟨_, idx, cs', ch', h7, hin⟩ | ⟨_, _, hf⟩⟩
    · exact ⟨.found idx lk, t1, by simp only [findWithInsert, h1, hm, h7, Option.bind_some], h5⟩
    · exact absurd h7.1 (by simp)
    · exact ⟨.inserted idx, ⟨cs', t1.pop + 1⟩, by simp only [findWithInsert, h1, hm, h7, Option.bind_some],
        by dsimp only; rw [hin.length]; exact h5⟩
    · exact absurd hf (not_full hi1 hco1 _ (by omega) (by omega))

/-- Erasing a found item. -/
theorem erase_spec {T : Traits K V} {t : Table K V} {m : K → Option V} (hr : Rel T t m)
    (h256 : t.cells.length ≤ 256) {ch} (hi : Inv T t.cells ch) {idx : Nat} {lk : Option Link}
    {c : Cell K V} {x : K × V} (hc : cell t.cells idx = some c) (hx : c.item = some x)
    (hre : Reached t.cells ch (T.hash x.1) idx lk) :
    ∃ t', erase t idx lk = some t' ∧ t'.cells.length = t.cells.length ∧
      Rel T t' (after m (.erase x.1)) := by
  have hmem : x ∈ items t.cells := mem_items.2 ⟨idx, c, hc, hx⟩
  have hpop : t.pop > 0 := by
    rw [hr.pop]
    exact List.length_pos_of_mem hmem
  have hfin : ∀ cs' ch', eraseCells t.cells idx lk = some cs' → Inv T cs' ch' →
      (x :: items cs').Perm (items t.cells) → cs'.length = t.cells.length →
      ∃ t', erase t idx lk = some t' ∧ t'.cells.length = t.cells.length ∧
        Rel T t' (after m (.erase x.1)) := by
    intro cs' ch' h1 h2 h3 h4
    refine ⟨⟨cs', t.pop - 1⟩, by simp only [erase, h1, if_pos hpop], h4, ⟨ch', h2⟩, ?_,
      hr.lists.erase h3⟩
    have := h3.length_eq
    simp only [List.length_cons] at this
    rw [hr.pop]
    dsimp only
    omega
  have hcl : (x :: items (setCell t.cells idx { c with next := 255, item := none })).Perm
      (items t.cells) := items_clear hc hx rfl
  rcases hre with ⟨rfl, rfl⟩ | ⟨pre, e, post, hes, rfl, rfl⟩
  · -- in its home
    have hn0 : c.next = 0 := by
      rcases hi.owner _ c x hc hx with ⟨_, h1⟩ | ⟨e, he, h1⟩
      · exact h1
      · exact absurd h1 (hi.not_home he)
    exact hfin _ ch (by simp only [eraseCells, hc, if_pos hn0]; rfl) (hi.clearHome hc hx rfl) hcl (by simp)
  · -- on its chain
    have hs := hi.seg (T.hash x.1)
    have hf := hi.fin (T.hash x.1)
    have heM : e ∈ ch (T.hash x.1 % t.cells.length) := by rw [hes]; simp
    have hpostlt : ∀ y ∈ post, y < t.cells.length := fun y hy =>
      hi.dist (T.hash x.1) y (by rw [hes]; simp [hy])
    have hpre0 : pre ≠ [] → 0 < distAt 0 pre := by
      intro hne
      rcases distAt_mem 0 pre with ⟨h1, _⟩ | h1
      · exact absurd h1 hne
      · exact hi.dist_pos (T.hash x.1) _ (by rw [hes]; simp [h1])
    rw [hes] at hs hf
    have harr := hs.around
    rw [Seg_append] at hs
    obtain ⟨hs1, hs2, hs3, hs4⟩ := hs
    -- the next link
    have hnext : c.next = skipTo e post := by
      have h1 : readLink t.cells (.next (T.hash x.1 + e)) = some c.next := by simp [readLink, hc]
      cases post with
      | nil =>
        rw [linkAt_append] at hf
        exact Option.some.inj (h1.symm.trans hf)
      | cons y ps =>
        exact Option.some.inj (h1.symm.trans hs4.2.1)
    have hpos' : 0 < (setCell t.cells (T.hash x.1 + e) { c with next := 255, item := none }).length := by
      simpa using hi.pos
    obtain ⟨cs', hw⟩ := writeLink_some hpos'
      (linkAt (T.hash x.1) (.first (T.hash x.1)) pre) (skipTo (distAt 0 pre) post)
    have howner : (linkAt (T.hash x.1) (.first (T.hash x.1)) pre).owner = T.hash x.1 + distAt 0 pre := by
      rcases linkAt_eq (T.hash x.1) 0 (.first (T.hash x.1)) pre with ⟨h1, h2⟩ | ⟨_, h2⟩
      · rw [h2, h1]; rfl
      · rw [h2]; rfl
    have hv1 : skipTo (distAt 0 pre) post < 256 := by
      cases hpost : post with
      | nil => simp [skipTo]
      | cons y ps =>
        have := hpostlt y (by rw [hpost]; simp)
        simp only [skipTo]
        omega
    have hv2 : pre ≠ [] → skipTo (distAt 0 pre) post ≠ 255 := by
      intro hne
      have := hpre0 hne
      cases hpost : post with
      | nil => simp [skipTo]
      | cons y ps =>
        have := hpostlt y (by rw [hpost]; simp)
        simp only [skipTo]
        omega
    have hinv := hi.clearChain hes hc hx rfl hv1 hv2 hw
    refine hfin cs' _ ?_ hinv (by rw [items_writeLink hw]; exact hcl)
      (by rw [writeLink_length hw, setCell_length])
    have h2 := harr.2.1
    simp only [eraseCells, hc, hs3]
    rw [if_neg (by omega), howner, if_neg (by
      rw [show T.hash x.1 + e - (e - distAt 0 pre) = T.hash x.1 + distAt 0 pre by omega]
      intro h
      rcases h with h | h
      · omega
      · exact h rfl)]
    cases hpost : post with
    | nil =>
      rw [hpost] at hnext hw
      rw [if_pos (show c.next = 0 from hnext)]
      exact hw
    | cons y ps =>
      have h1 := harr.2.2 y (by rw [hpost]; simp)
      have h3 := hpostlt y (by rw [hpost]; simp)
      rw [hpost] at hnext hw
      simp only [skipTo] at hnext hw
      rw [if_neg (by omega), hnext,
        show T.hash x.1 + e + (y - e) - (T.hash x.1 + e - (e - distAt 0 pre)) = y - distAt 0 pre by omega,
        if_pos (by omega)]
      exact hw

/-- Iterating. -/
theorem iterate_eq {cs : List (Cell K V)} (hocc : ∀ c ∈ cs, c.next = 255 ↔ c.item = none) (idx : Nat)
    (h : idx ≤ cs.length) : iterate cs idx = some (items (cs.drop idx)) := by
  by_cases hlt : idx < cs.length
  · have hget := List.getElem?_eq_getElem hlt
    have hmem := List.getElem_mem hlt
    have hdrop := List.drop_eq_getElem_cons hlt
    have ih := iterate_eq hocc (idx + 1) hlt
    generalize cs[idx] = c at hget hmem hdrop
    have hnu : nextUsed cs idx = if c.next ≠ emptySlot then idx else nextUsed cs (idx + 1) := by
      rw [nextUsed]
      split
      · next e => rw [hget] at e; cases e
      · next c' e => rw [hget] at e; cases e; rfl
    by_cases hn : c.next = 255
    · have hitem := (hocc c hmem).1 hn
      have h1 : nextUsed cs idx = nextUsed cs (idx + 1) := by
        rw [hnu, if_neg (by simp [emptySlot, hn])]
      have h2 : iterate cs idx = iterate cs (idx + 1) := by
        conv => lhs; rw [iterate]
        rw [dif_pos hlt]
        dsimp only
        rw [h1]
        by_cases h3 : idx + 1 < cs.length
        · conv => rhs; rw [iterate]
          rw [dif_pos h3]
        · have h4 : nextUsed cs (idx + 1) = cs.length := by
            rw [nextUsed]
            split
            · rfl
            · next e => exact absurd (List.getElem?_eq_some_iff.1 e).1 h3
          rw [h4, if_neg (by omega)]
          rw [iterate, dif_neg h3]
      rw [h2, ih, hdrop]
      simp [items, hitem]
    · obtain ⟨x, hx⟩ : ∃ x, c.item = some x := by
        cases hx : c.item with
        | none => exact absurd ((hocc c hmem).2 hx) hn
        | some x => exact ⟨x, rfl⟩
      rw [iterate, dif_pos hlt]
      dsimp only
      rw [hnu, if_pos (show c.next ≠ emptySlot from hn), if_pos hlt]
      have hgi : getItem cs idx = some x := by
        simp [getItem, cell, Nat.mod_eq_of_lt hlt, hget, hx]
      rw [hgi]
      dsimp only
      rw [ih, hdrop]
      simp [items, hx]
  · rw [iterate, dif_neg hlt, List.drop_eq_nil_of_le (by omega)]
    rfl
termination_by cs.length - idx

theorem after_put_put (m : K → Option V) (k : K) (v w : V) :
    after (after m (.put k v)) (.put k w) = after m (.put k w) := by
  funext x
  simp only [after]
  split <;> rfl

/-- One step gives a right answer, if erasing happens in a small table. -/
theorem step_sound {T : Traits K V} (fuel : Nat) {t : Table K V} {m : K → Option V} (hr : Rel T t m)
    (op : Op K V) (hop : (∀ k, op ≠ .erase k) ∨ t.cells.length ≤ 256) {out : Out K V} {t' : Table K V}
    (h : step T fuel t op = some (out, t')) : Answer m op out ∧ Rel T t' (after m op) := by
  obtain ⟨ch, hi⟩ := hr.inv
  cases op with
  | put k v =>
    simp only [step] at h
    cases hf : findWithInsert T k fuel t with
    | none => rw [hf] at h; simp at h
    | some rt =>
      obtain ⟨r, t1⟩ := rt
      rw [hf] at h
      rcases findWithInsert_sound k fuel hr hf with
        ⟨idx, lk, c, x, rfl, hc, hx, rfl, hm, hr1⟩ | ⟨idx, c, x, rfl, hc, hx, rfl, hm, hr1⟩
      · obtain ⟨cs, h1, _, h2⟩ := setValue_spec hr1 hc hx v
        simp only [h1, Option.map_some, Option.some.injEq, Prod.mk.injEq] at h
        obtain ⟨rfl, rfl⟩ := h
        exact ⟨hm.symm, h2⟩
      · obtain ⟨cs, h1, _, h2⟩ := setValue_spec hr1 hc hx v
        simp only [h1, Option.map_some, Option.some.injEq, Prod.mk.injEq] at h
        obtain ⟨rfl, rfl⟩ := h
        rw [after_put_put] at h2
        exact ⟨by simp [Answer, hm], h2⟩
  | get k =>
    simp only [step] at h
    rcases insertOrFind_spec hi k false with
      ⟨idx, lk, c, x, h1, hc, hx, rfl, _⟩ | ⟨hk, h1 | ⟨h1, _⟩ | ⟨h1, _⟩⟩
    · have hg : getItem t.cells idx = some x := by simp [getItem, hc, hx]
      simp only [h1, hg, Option.some.injEq, Prod.mk.injEq] at h
      obtain ⟨rfl, rfl⟩ := h
      exact ⟨(found_isSome hr.lists hc hx).symm, hr⟩
    · simp only [h1.2, Option.some.injEq, Prod.mk.injEq] at h
      obtain ⟨rfl, rfl⟩ := h
      exact ⟨(hr.lists.absent hk).symm, hr⟩
    · cases h1
    · cases h1
  | erase k =>
    have h256 : t.cells.length ≤ 256 := by
      rcases hop with hop | hop
      · exact absurd rfl (hop k)
      · exact hop
    simp only [step] at h
    rcases insertOrFind_spec hi k false with
      ⟨idx, lk, c, x, h1, hc, hx, rfl, hre⟩ | ⟨hk, h1 | ⟨h1, _⟩ | ⟨h1, _⟩⟩
    · obtain ⟨t1, h2, _, h3⟩ := erase_spec hr h256 hi hc hx hre
      simp only [h1] at h
      rw [show (⟨t.cells, t.pop⟩ : Table K V) = t from rfl, h2] at h
      simp only [Option.map_some, Option.some.injEq, Prod.mk.injEq] at h
      obtain ⟨rfl, rfl⟩ := h
      exact ⟨by simp [Answer, found_isSome hr.lists hc hx], h3⟩
    · simp only [h1.2, Option.some.injEq, Prod.mk.injEq] at h
      obtain ⟨rfl, rfl⟩ := h
      have hnone := hr.lists.absent hk
      refine ⟨by simp [Answer, hnone], hr.inv, hr.pop, ?_⟩
      have : after m (.erase k) = m := by
        funext x
        simp only [after]
        split
        · next e => rw [e, hnone]
        · rfl
      rw [this]
      exact hr.lists
    · cases h1
    · cases h1
  | count =>
    simp only [step, Option.some.injEq, Prod.mk.injEq] at h
    obtain ⟨rfl, rfl⟩ := h
    exact ⟨⟨items t.cells, hr.lists, hr.pop.symm⟩, hr⟩
  | all =>
    have hit := iterate_eq (cs := t.cells)
      (fun c hc => by obtain ⟨i, hc'⟩ := cell_of_mem hc; exact hi.occ i c hc') 0 (by omega)
    simp only [step, hit, Option.map_some, Option.some.injEq, Prod.mk.injEq, List.drop_zero] at h
    obtain ⟨rfl, rfl⟩ := h
    exact ⟨hr.lists, hr⟩

theorem step_total {T : Traits K V} (n : Nat) {t : Table K V} {m : K → Option V} (hr : Rel T t m)
    (h256 : t.cells.length ≤ 256) (op : Op K V) (h128 : ∀ k v, op = .put k v → t.pop ≤ 128) :
    ∃ out t', step T (n + 2) t op = some (out, t') ∧ t'.cells.length ≤ 256 := by
  obtain ⟨ch, hi⟩ := hr.inv
  cases op with
  | put k v =>
    obtain ⟨r, t1, hf, hl⟩ := findWithInsert_total k n hr h256 (h128 k v rfl)
    rcases findWithInsert_sound k _ hr hf with
      ⟨idx, lk, c, x, rfl, hc, hx, rfl, hm, hr1⟩ | ⟨idx, c, x, rfl, hc, hx, rfl, hm, hr1⟩
    · obtain ⟨cs, h1, h2, _⟩ := setValue_spec hr1 hc hx v
      exact ⟨_, _, by simp only [step, hf, h1]; rfl, by dsimp only; omega⟩
    · obtain ⟨cs, h1, h2, _⟩ := setValue_spec hr1 hc hx v
      exact ⟨_, _, by simp only [step, hf, h1]; rfl, by dsimp only; omega⟩
  | get k =>
    rcases insertOrFind_spec hi k false with
      ⟨idx, lk, c, x, h1, hc, hx, rfl, _⟩ | ⟨hk, h1 | ⟨h1, _⟩ | ⟨h1, _⟩⟩
    · have hg : getItem t.cells idx = some x := by simp [getItem, hc, hx]
      exact ⟨.value (some x.2), t, by simp only [step, h1, hg], h256⟩
    · exact ⟨.value none, t, by simp only [step, h1.2], h256⟩
    · cases h1
    · cases h1
  | erase k =>
    rcases insertOrFind_spec hi k false with
      ⟨idx, lk, c, x, h1, hc, hx, rfl, hre⟩ | ⟨hk, h1 | ⟨h1, _⟩ | ⟨h1, _⟩⟩
    · obtain ⟨t1, h2, h3, _⟩ := erase_spec hr h256 hi hc hx hre
      refine ⟨.flag true, t1, ?_, by omega⟩
      simp only [step, h1]
      rw [show (⟨t.cells, t.pop⟩ : Table K V) = t from rfl, h2]
      rfl
    · exact ⟨.flag false, t, by simp only [step, h1.2], h256⟩
    · cases h1
    · cases h1
  | count => exact ⟨_, _, rfl, h256⟩
  | all =>
    have hit := iterate_eq (cs := t.cells)
      (fun c hc => by obtain ⟨i, hc'⟩ := cell_of_mem hc; exact hi.occ i c hc') 0 (by omega)
    exact ⟨_, t, by simp only [step, hit]; rfl, h256⟩

theorem run_small {T : Traits K V} (n : Nat) (ops : List (Op K V)) {t : Table K V} {m : K → Option V}
    (hr : Rel T t m) (h256 : t.cells.length ≤ 256) (hb : AtMost 128 m ops) :
    ∃ outs t', run T (n + 2) t ops = some (outs, t') ∧ Answers m ops outs := by
  induction ops generalizing t m with
  | nil => exact ⟨[], t, rfl, trivial⟩
  | cons op ops ih =>
    obtain ⟨out, t1, h1, h2⟩ := step_total n hr h256 op (fun k v e => by
      obtain ⟨l, hl, hle⟩ := hb.1 k v e
      rw [hr.pop, hr.lists.length_eq hl]
      exact hle)
    obtain ⟨h3, h4⟩ := step_sound (n + 2) hr op (.inr h256) h1
    obtain ⟨outs, t2, h5, h6⟩ := ih h4 h2 hb.2
    exact ⟨out :: outs, t2, by simp only [run, h1, h5]; rfl, h3, h6⟩

theorem run_noErase {T : Traits K V} (fuel : Nat) (ops : List (Op K V)) {t : Table K V}
    {m : K → Option V} (hr : Rel T t m) (hne : NoErase ops) {outs : List (Out K V)} {t' : Table K V}
    (h : run T fuel t ops = some (outs, t')) : Answers m ops outs := by
  induction ops generalizing t m outs with
  | nil => cases h; trivial
  | cons op ops ih =>
    simp only [run] at h
    cases hs : step T fuel t op with
    | none => rw [hs] at h; simp at h
    | some r =>
      obtain ⟨out, t1⟩ := r
      rw [hs] at h
      simp only [Option.map_eq_some_iff] at h
      obtain ⟨⟨outs1, t2⟩, h1, h2⟩ := h
      cases h2
      obtain ⟨h3, h4⟩ := step_sound fuel hr op
        (.inl fun k e => hne k (by rw [e]; exact List.mem_cons_self)) hs
      exact ⟨h3, ih h4 (fun k hk => hne k (List.mem_cons_of_mem _ hk)) h1⟩

theorem Rel.create {T : Traits K V} {size : Nat} {t : Table K V} (h : create size = some t) :
    Rel T t (fun _ => none) ∧ t.cells.length = size := by
  unfold HMap.create at h
  rw [Option.map_eq_some_iff] at h
  obtain ⟨cs, hcs, rfl⟩ := h
  obtain ⟨h4, hr⟩ := createTable_some hcs
  clear hcs
  subst hr
  obtain ⟨h1, _, h3⟩ := Inv.empty T size (by omega)
  refine ⟨⟨⟨_, h1⟩, ?_, ?_⟩, by simp⟩
  · dsimp only; rw [h3]; rfl
  · dsimp only; rw [h3]; exact ⟨List.nodup_nil, fun k v => by simp⟩

end Verif.HMap
