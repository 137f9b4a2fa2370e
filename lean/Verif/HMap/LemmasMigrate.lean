import Verif.HMap.LemmasOps
import Verif.Bits.Props
import Mathlib.Order.Nat
/-! # Moving to a new table -/
namespace Verif.HMap

variable {K V : Type}

theorem chainEnd_spec {T : Traits K V} {cs ch} (hi : Inv T cs ch) (h : Nat)
    (done es : List Nat) (fuel : Nat)
    (hch : ch (h % cs.length) = done ++ es) (hf : es.length < fuel) :
    chainEnd cs fuel (h + distAt 0 done) (linkAt h (.first h) done) =
      some (h + distAt 0 (done ++ es), linkAt h (.first h) (done ++ es)) := by
  induction es generalizing done fuel with
  | nil =>
    cases fuel with
    | zero => simp at hf
    | succ n =>
      have := hi.fin h
      rw [hch] at this
      rw [List.append_nil] at this ⊢
      simp only [chainEnd, this, if_pos]
  | cons e es ih =>
    cases fuel with
    | zero => simp at hf
    | succ n =>
      have hs := hi.seg h
      rw [hch, Seg_append] at hs
      obtain ⟨h1, h2, h3⟩ := hs.2
      obtain ⟨c, x, hc, hx, hb⟩ := hi.mem h e (by rw [hch]; simp)
      have hne : c.next ≠ emptySlot := by
        intro h4
        rw [(hi.occ _ c hc).1 h4] at hx
        cases hx
      have h5 : h + distAt 0 done + (e - distAt 0 done) = h + e := by omega
      have hrec := ih (done ++ [e]) n (by rw [hch]; simp) (by simp only [List.length_cons] at hf; omega)
      rw [distAt_append, linkAt_append] at hrec
      simp only [distAt, linkAt] at hrec
      simp only [chainEnd, h2, h5, hc]
      rw [if_neg (by omega), if_neg hne, hrec]
      simp

theorem probe_find {cs : List (Cell K V)} (h n idx j : Nat) (hj : 1 ≤ j) (hn : j ≤ n)
    (he : ∃ c, cell cs (idx + j) = some c ∧ c.next = 255)
    (hb : ∀ i, 1 ≤ i → i < j → ∃ c, cell cs (idx + i) = some c ∧ c.next ≠ 255 ∧ c.hash ≠ h) :
    probe cs h n idx = some (some (idx + j)) := by
  induction n generalizing idx j with
  | zero => omega
  | succ n ih =>
    by_cases h1 : j = 1
    · subst h1
      obtain ⟨c, hc, hn⟩ := he
      simp [probe, hc, emptySlot, hn]
    · obtain ⟨c, hc, hn', hh⟩ := hb 1 (by omega) (by omega)
      have := ih (idx + 1) (j - 1) (by omega) (by omega)
        (by rwa [show idx + 1 + (j - 1) = idx + j by omega])
        (fun i h2 h3 => by
          rw [show idx + 1 + i = idx + (1 + i) by omega]
          exact hb (1 + i) (by omega) (by omega))
      simp only [probe, hc, emptySlot, if_neg hn', if_neg hh, this]
      congr 2
      omega

theorem used_item {T : Traits K V} {cs ch} (hi : Inv T cs ch) {i : Nat} {c : Cell K V}
    (hc : cell cs i = some c) (hn : c.next ≠ 255) : ∃ x, c.item = some x := by
  cases hx : c.item with
  | none => exact absurd ((hi.occ _ c hc).2 hx) hn
  | some x => exact ⟨x, rfl⟩

theorem item_used {T : Traits K V} {cs ch} (hi : Inv T cs ch) {i : Nat} {c : Cell K V} {x : K × V}
    (hc : cell cs i = some c) (hx : c.item = some x) : c.next ≠ 255 := by
  intro hn
  rw [(hi.occ _ c hc).1 hn] at hx
  cases hx

/-- Everything up to the end of a chain is used, if the home is. -/
theorem Compact.upto {T : Traits K V} {cs ch} (hi : Inv T cs ch) (hco : Compact cs ch) {h : Nat}
    {c : Cell K V} (hc : cell cs h = some c) (hn : c.next ≠ 255) :
    ∀ d ≤ distAt 0 (ch (h % cs.length)), ∃ c x, cell cs (h + d) = some c ∧ c.item = some x := by
  intro d hd
  rcases distAt_mem 0 (ch (h % cs.length)) with ⟨_, h1⟩ | h1
  · have : d = 0 := by omega
    subst this
    obtain ⟨x, hx⟩ := used_item hi hc hn
    exact ⟨c, x, hc, hx⟩
  · exact hco h _ h1 d hd

/-- In a compact table a used home is followed by used cells. -/
theorem Compact.home_free {T : Traits K V} {cs ch} (hi : Inv T cs ch) (hco : Compact cs ch) {h : Nat}
    {c : Cell K V} (hc : cell cs h = some c) (hn : c.next = 255) :
    ch (h % cs.length) = [] ∧ c.first = 0 := by
  have hnil : ch (h % cs.length) = [] := by
    cases hes : ch (h % cs.length) with
    | nil => rfl
    | cons e es =>
      obtain ⟨c', x, hc', hx⟩ := hco h e (by rw [hes]; simp) 0 (by omega)
      rw [Nat.add_zero, hc] at hc'
      cases hc'
      exact absurd hn (item_used hi hc hx)
  have := hi.fin h
  rw [hnil] at this
  simp only [linkAt, readLink, hc, Option.map_some, Option.some.injEq] at this
  exact ⟨hnil, this⟩

/-- A free cell reached from used ones is nearer than a whole turn. -/
theorem no_wrap {cs : List (Cell K V)} (hp : 0 < cs.length) {h e : Nat}
    (hu : ∀ d < e, ∃ c : Cell K V, cell cs (h + d) = some c ∧ c.next ≠ 255)
    (he : ∃ c, cell cs (h + e) = some c ∧ c.next = 255) : e < cs.length := by
  refine Classical.byContradiction fun hge => ?_
  obtain ⟨c, hc, hn⟩ := he
  obtain ⟨c', hc', hn'⟩ := hu (e - cs.length) (by omega)
  have : (h + e) % cs.length = (h + (e - cs.length)) % cs.length := by
    rw [show h + e = h + (e - cs.length) + cs.length by omega, Nat.add_mod_right]
  rw [← cell_congr this, hc] at hc'
  cases hc'
  exact hn' hn

theorem Inserted.compact {T : Traits K V} {cs cs' ch} {idx : Nat} {x : K × V}
    (hin : Inserted T cs idx x cs' ch) (hco : Compact cs ch) : Compact cs' ch := by
  intro h e he d hd
  rw [hin.length] at he
  obtain ⟨c, y, hc, hy⟩ := hco h e he d hd
  obtain ⟨c', h1, h2⟩ := hin.keep _ c y hc hy
  exact ⟨c', y, h1, h2⟩

/-- The end of inserting into a compact table. -/
theorem compact_insert {T : Traits K V} {cs ch} (hi : Inv T cs ch) (hco : Compact cs ch) {x : K × V}
    {c c2 : Cell K V} {j : Nat}
    (hc : cell cs (T.hash x.1) = some c) (hn : c.next ≠ 255)
    (hk : x.1 ∉ (items cs).map (·.1)) (hj1 : 1 ≤ j) (hj2 : j ≤ 128)
    (hc2 : cell cs (T.hash x.1 + distAt 0 (ch (T.hash x.1 % cs.length)) + j) = some c2)
    (hn2 : c2.next = 255)
    (hb : ∀ i, 1 ≤ i → i < j →
      ∃ c, cell cs (T.hash x.1 + distAt 0 (ch (T.hash x.1 % cs.length)) + i) = some c ∧ c.next ≠ 255) :
    distAt 0 (ch (T.hash x.1 % cs.length)) + j < cs.length ∧
    ∃ cs' cs'' ch', place cs (T.hash x.1 + distAt 0 (ch (T.hash x.1 % cs.length)) + j) (T.hash x.1) x =
        some cs' ∧
      writeLink cs' (linkAt (T.hash x.1) (.first (T.hash x.1)) (ch (T.hash x.1 % cs.length)))
        (T.hash x.1 + distAt 0 (ch (T.hash x.1 % cs.length)) + j -
          (T.hash x.1 + distAt 0 (ch (T.hash x.1 % cs.length)))) = some cs'' ∧
      Inserted T cs (T.hash x.1 + distAt 0 (ch (T.hash x.1 % cs.length)) + j) x cs'' ch' ∧
      Compact cs'' ch' := by
  have hup := Compact.upto hi hco hc hn
  have hpl := @Inv.placeAt _ _ _ _ _ hi x (distAt 0 (ch (T.hash x.1 % cs.length)) + j)
  generalize hD : distAt 0 (ch (T.hash x.1 % cs.length)) = D at *
  have hu : ∀ d < D + j, ∃ c : Cell K V, cell cs (T.hash x.1 + d) = some c ∧ c.next ≠ 255 := by
    intro d hd
    by_cases h1 : d ≤ D
    · obtain ⟨c, y, h2, h3⟩ := hup d h1
      exact ⟨c, h2, item_used hi h2 h3⟩
    · have := hb (d - D) (by omega) (by omega)
      rwa [show T.hash x.1 + D + (d - D) = T.hash x.1 + d by omega] at this
  have hlt := no_wrap hi.pos hu ⟨c2, by rw [← Nat.add_assoc]; exact hc2, hn2⟩
  refine ⟨hlt, ?_⟩
  rw [Nat.add_assoc] at hc2 ⊢
  obtain ⟨cs', cs'', h1, h2, h3⟩ := hpl hc2 hn2 hk (by omega) hlt (by omega)
  refine ⟨cs', cs'', _, h1, by rw [← h2]; congr 1; omega, h3, ?_⟩
  intro g e he d hd
  rw [h3.length] at he
  have hkeep : ∀ i (c : Cell K V), cell cs i = some c → c.next ≠ 255 →
      ∃ c' y, cell cs'' i = some c' ∧ c'.item = some y := by
    intro i c hc hn
    obtain ⟨y, hy⟩ := used_item hi hc hn
    obtain ⟨c', h4, h5⟩ := h3.keep i c y hc hy
    exact ⟨c', y, h4, h5⟩
  have hold : ∀ e ∈ ch (g % cs.length), d ≤ e → ∃ c' y, cell cs'' (g + d) = some c' ∧ c'.item = some y := by
    intro e he hd
    obtain ⟨c, y, hc, hy⟩ := hco g e he d hd
    obtain ⟨c', h4, h5⟩ := h3.keep _ c y hc hy
    exact ⟨c', y, h4, h5⟩
  by_cases hg : g % cs.length = T.hash x.1 % cs.length
  · rw [hg, setChain_same] at he
    rcases List.mem_append.1 he with he | he
    · exact hold e (by rw [hg]; exact he) hd
    · simp only [List.mem_singleton] at he
      subst he
      by_cases h4 : d = D + j
      · subst h4
        obtain ⟨c', h5, h6⟩ := h3.at_
        refine ⟨c', x, ?_, h6⟩
        rw [← h5]
        exact cell_congr (by rw [h3.length]; exact add_mod_congr _ hg)
      · obtain ⟨c', h5, h6⟩ := hu d (by omega)
        refine hkeep _ c' ?_ h6
        rw [← h5]
        exact cell_congr (add_mod_congr _ hg)
  · rw [setChain_ne _ _ hg] at he
    exact hold e he hd

theorem insertForMigration_sound {T : Traits K V} {cs ch} (hi : Inv T cs ch) (hco : Compact cs ch)
    {x : K × V} (hk : x.1 ∉ (items cs).map (·.1)) {cs' : List (Cell K V)}
    (he : insertForMigration cs (T.hash x.1) x = some cs') :
    ∃ idx ch', Inserted T cs idx x cs' ch' ∧ Compact cs' ch' := by
  unfold insertForMigration at he
  obtain ⟨c, hc⟩ := cell_some hi.pos (T.hash x.1)
  rw [hc] at he
  dsimp only at he
  by_cases hn : c.next = emptySlot
  · rw [if_pos hn, if_pos (Compact.home_free hi hco hc hn).2] at he
    obtain ⟨cs1, h1, h2⟩ := hi.placeAtHome hc hn hk
    rw [h1] at he
    cases he
    exact ⟨_, ch, h2, h2.compact hco⟩
  · rw [if_neg hn] at he
    have hlen := hi.length_le (T.hash x.1)
    have hend := chainEnd_spec hi (T.hash x.1) [] _ (cs.length + 1) rfl (by omega)
    simp only [distAt, linkAt, Nat.add_zero, List.nil_append] at hend
    rw [hend] at he
    dsimp only at he
    split at he
    · cases he
    · cases he
    · next idx' hpr =>
      rcases probe_sound _ _ _ hpr with ⟨h3, _⟩ | ⟨j, h3, h4, h5, ⟨c2, h6, h7⟩, h8⟩
      · cases h3
      · cases h5
        have hsl : searchLimit = 128 := rfl
        obtain ⟨_, cs1, cs2, ch', h9, h10, h11, h12⟩ :=
          compact_insert hi hco hc hn hk h3 (by omega) h6 h7 h8
        rw [h9] at he
        dsimp only at he
        rw [h10] at he
        cases he
        exact ⟨_, ch', h11, h12⟩

theorem insertForMigration_total {T : Traits K V} {cs ch} (hi : Inv T cs ch) (hco : Compact cs ch)
    {x : K × V} (hk : x.1 ∉ (items cs).map (·.1)) (h1 : (items cs).length ≤ 128)
    (h2 : (items cs).length < cs.length) :
    ∃ cs', insertForMigration cs (T.hash x.1) x = some cs' := by
  unfold insertForMigration
  obtain ⟨c, hc⟩ := cell_some hi.pos (T.hash x.1)
  rw [hc]
  dsimp only
  by_cases hn : c.next = emptySlot
  · rw [if_pos hn, if_pos (Compact.home_free hi hco hc hn).2]
    obtain ⟨cs1, h1, _⟩ := hi.placeAtHome hc hn hk
    exact ⟨cs1, h1⟩
  · rw [if_neg hn]
    have hlen := hi.length_le (T.hash x.1)
    have hend := chainEnd_spec hi (T.hash x.1) [] _ (cs.length + 1) rfl (by omega)
    simp only [distAt, linkAt, Nat.add_zero, List.nil_append] at hend
    rw [hend]
    dsimp only
    have hup := Compact.upto hi hco hc hn
    -- a free cell within reach
    have hex : ∃ j, 1 ≤ j ∧ j ≤ min (cs.length - 1) 128 ∧
        ∃ c, cell cs (T.hash x.1 + distAt 0 (ch (T.hash x.1 % cs.length)) + j) = some c ∧
          c.next = 255 := by
      refine Classical.byContradiction fun hno => ?_
      have hw := window_le hi.keys (T.hash x.1 + distAt 0 (ch (T.hash x.1 % cs.length)))
        (min (cs.length - 1) 128 + 1) (by omega) (fun j hj => by
          by_cases h0 : j = 0
          · subst h0
            exact hup _ (Nat.le_refl _)
          · obtain ⟨c', hc'⟩ := cell_some hi.pos
              (T.hash x.1 + distAt 0 (ch (T.hash x.1 % cs.length)) + j)
            obtain ⟨y, hy⟩ := used_item hi hc' (fun h => hno ⟨j, by omega, by omega, c', hc', h⟩)
            exact ⟨c', y, hc', hy⟩)
      omega
    classical
    have hmin := fun i (hlt : i < Nat.find hex) => Nat.find_min hex hlt
    obtain ⟨h3, h4, c2, h5, h6⟩ := Nat.find_spec hex
    generalize Nat.find hex = j at *
    have hb : ∀ i, 1 ≤ i → i < j →
        ∃ c, cell cs (T.hash x.1 + distAt 0 (ch (T.hash x.1 % cs.length)) + i) = some c ∧
          c.next ≠ 255 := by
      intro i hi1 hi2
      obtain ⟨c', hc'⟩ := cell_some hi.pos
        (T.hash x.1 + distAt 0 (ch (T.hash x.1 % cs.length)) + i)
      exact ⟨c', hc', fun h => hmin i hi2 ⟨hi1, by omega, c', hc', h⟩⟩
    obtain ⟨hlt, cs1, cs2, ch', h9, h10, _, _⟩ :=
      compact_insert hi hco hc hn hk h3 (by omega) h5 h6 hb
    rw [show searchLimit = 128 from rfl, probe_find _ _ _ j h3 h4 ⟨c2, h5, h6⟩ (fun i hi1 hi2 => by
      obtain ⟨c1, hc1, hn1⟩ := hb i hi1 hi2
      refine ⟨c1, hc1, hn1, fun hh => ?_⟩
      obtain ⟨y, hy⟩ := used_item hi hc1 hn1
      have hhy := hi.hash _ c1 y hc1 hy
      rw [hh] at hhy
      rcases hi.owner _ c1 y hc1 hy with ⟨h7, _⟩ | ⟨e, he, h7⟩
      · rw [← hhy, Nat.add_assoc] at h7
        have := add_mod_inj (x := 0) (y := distAt 0 (ch (T.hash x.1 % cs.length)) + i)
          (h := T.hash x.1) hi.pos (by omega) (by simpa using h7)
        omega
      · rw [← hhy] at h7 he
        rw [Nat.add_assoc] at h7
        have := add_mod_inj (hi.dist _ e he) (by omega) h7
        have := (hi.seg (T.hash x.1)).le_dist e he
        omega)]
    dsimp only
    rw [h9]
    exact ⟨cs2, h10⟩

/-- An empty table. -/
theorem Inv.empty (T : Traits K V) (n : Nat) (hn : 0 < n) :
    Inv T (List.replicate n ⟨emptySlot, 0, 0, none⟩) (fun _ => []) ∧
      Compact (List.replicate n (⟨emptySlot, 0, 0, none⟩ : Cell K V)) (fun _ => []) ∧
      items (List.replicate n (⟨emptySlot, 0, 0, none⟩ : Cell K V)) = [] := by
  have hcell : ∀ i, cell (List.replicate n (⟨emptySlot, 0, 0, none⟩ : Cell K V)) i =
      some ⟨emptySlot, 0, 0, none⟩ := by
    intro i
    simp [cell, List.getElem?_replicate, Nat.mod_lt i hn]
  have hitems : items (List.replicate n (⟨emptySlot, 0, 0, none⟩ : Cell K V)) = [] := by
    unfold items
    rw [List.filterMap_eq_nil_iff]
    intro c hc
    rw [List.eq_of_mem_replicate hc]
  refine ⟨⟨by simpa using hn, by rw [hitems]; exact List.nodup_nil, ?_, ?_, ?_, ?_, ?_, ?_, ?_⟩, ?_, hitems⟩
  · intro i c hc; rw [hcell] at hc; cases hc; simp [emptySlot]
  · intro i c x hc hx; rw [hcell] at hc; cases hc; cases hx
  · intro h; trivial
  · intro h; simp [linkAt, readLink, hcell]
  · intro h e he; cases he
  · intro h e he; cases he
  · intro i c x hc hx; rw [hcell] at hc; cases hc; cases hx
  · intro h e he; cases he

theorem migrateCells_spec {T : Traits K V} (src cs : List (Cell K V)) (ch) (hi : Inv T cs ch)
    (hco : Compact cs ch)
    (hocc : ∀ c ∈ src, c.next = 255 ↔ c.item = none)
    (hhash : ∀ c ∈ src, ∀ x, c.item = some x → c.hash = T.hash x.1)
    (hkeys : ((items src ++ items cs).map (·.1)).Nodup) :
    (∀ cs', migrateCells src cs = some cs' → ∃ ch', Inv T cs' ch' ∧ Compact cs' ch' ∧
        cs'.length = cs.length ∧ (items cs').Perm (items src ++ items cs)) ∧
      ((items src).length + (items cs).length ≤ 128 →
        (items src).length + (items cs).length ≤ cs.length → ∃ cs', migrateCells src cs = some cs') := by
  induction src generalizing cs ch with
  | nil =>
    refine ⟨fun cs' h => ?_, fun _ _ => ⟨cs, rfl⟩⟩
    cases h
    exact ⟨ch, hi, hco, rfl, List.Perm.refl _⟩
  | cons c src ih =>
    have hocc' := fun d hd => hocc d (List.mem_cons_of_mem _ hd)
    have hhash' := fun d hd => hhash d (List.mem_cons_of_mem _ hd)
    by_cases hn : c.next = emptySlot
    · have hci := (hocc c List.mem_cons_self).1 hn
      have hit : items (c :: src) = items src := by simp [items, List.filterMap_cons, hci]
      rw [hit] at hkeys ⊢
      have hstep : migrateCells (c :: src) cs = migrateCells src cs := by
        simp only [migrateCells, if_pos hn]
      rw [hstep]
      exact ih cs ch hi hco hocc' hhash' hkeys
    · cases hci : c.item with
      | none => exact absurd ((hocc c List.mem_cons_self).2 hci) hn
      | some x =>
        have hit : items (c :: src) = x :: items src := by simp [items, List.filterMap_cons, hci]
        have hh := hhash c List.mem_cons_self x hci
        rw [hit] at hkeys ⊢
        have hk : x.1 ∉ (items cs).map (·.1) := by
          intro hm
          simp only [List.cons_append, List.map_cons, List.nodup_cons, List.map_append,
            List.mem_append] at hkeys
          exact hkeys.1 (.inr hm)
        have hstep : migrateCells (c :: src) cs =
            match insertForMigration cs (T.hash x.1) x with
            | none => none
            | some dst' => migrateCells src dst' := by
          simp only [migrateCells, if_neg hn, hci, hh]
          rfl
        rw [hstep]
        have hnext : ∀ cs1 idx ch1, Inserted T cs idx x cs1 ch1 → Compact cs1 ch1 → _ :=
          fun cs1 idx ch1 (h1 : Inserted T cs idx x cs1 ch1) (h2 : Compact cs1 ch1) =>
            ih cs1 ch1 h1.inv h2 hocc' hhash' (by
              refine (List.Perm.map _ ?_).nodup_iff.2 hkeys
              exact (List.Perm.append_left _ h1.perm).trans List.perm_middle)
        constructor
        · intro cs' he
          split at he
          · cases he
          · next cs1 hc1 =>
            obtain ⟨idx, ch1, h1, h2⟩ := insertForMigration_sound hi hco hk hc1
            obtain ⟨ch', h3, h4, h5, h6⟩ := (hnext cs1 idx ch1 h1 h2).1 cs' he
            exact ⟨ch', h3, h4, by rw [h5, h1.length], h6.trans
              ((List.Perm.append_left _ h1.perm).trans List.perm_middle)⟩
        · intro hb1 hb2
          simp only [List.length_cons] at hb1 hb2
          obtain ⟨cs1, hc1⟩ := insertForMigration_total hi hco hk (by omega) (by omega)
          obtain ⟨idx, ch1, h1, h2⟩ := insertForMigration_sound hi hco hk hc1
          rw [hc1]
          have hl := h1.perm.length_eq
          simp only [List.length_cons] at hl
          exact (hnext cs1 idx ch1 h1 h2).2 (by omega) (by rw [h1.length]; omega)

theorem cell_of_mem {cs : List (Cell K V)} {c : Cell K V} (h : c ∈ cs) : ∃ i, cell cs i = some c := by
  obtain ⟨i, hi, rfl⟩ := List.mem_iff_getElem.1 h
  exact ⟨i, by simp [cell, Nat.mod_eq_of_lt hi]⟩

theorem createTable_some {n : Nat} {cs : List (Cell K V)} (h : createTable n = some cs) :
    4 ≤ n ∧ cs = List.replicate n ⟨emptySlot, 0, 0, none⟩ := by
  unfold createTable at h
  split at h
  · next h1 => cases h; exact ⟨h1.1, rfl⟩
  · cases h

/-- The size of the new table. -/
theorem newSize (p : Nat) (hp : p ≤ 128) :
    ∃ k, migrateSize p = 2 ^ k ∧ 2 ≤ k ∧ k ≤ 8 ∧ p * 2 ≤ 2 ^ k := by
  unfold migrateSize
  by_cases h0 : p = 0
  · subst h0
    exact ⟨2, by decide +kernel, by omega, by omega, by omega⟩
  · have hu : u32 (p * 2) = p * 2 := by unfold u32; omega
    rw [hu]
    obtain ⟨hk, h1, h2⟩ := Bits.C29_roundUp32_least (p * 2) (by omega) (by omega)
    revert hk h1 h2
    generalize Bits.roundUpPowerOf2_32 (p * 2) = r
    rintro ⟨k, rfl⟩ h1 h2
    have h3 := h2 8 (by omega)
    have hk8 : k ≤ 8 := (Nat.pow_le_pow_iff_right (by omega)).1 h3
    by_cases hk2 : 2 ≤ k
    · refine ⟨k, ?_, hk2, hk8, h1⟩
      have : 2 ^ 2 ≤ 2 ^ k := Nat.pow_le_pow_right (by omega) hk2
      omega
    · refine ⟨2, ?_, by omega, by omega, ?_⟩
      · have : 2 ^ k ≤ 2 ^ 2 := Nat.pow_le_pow_right (by omega) (by omega)
        omega
      · have : 2 ^ k ≤ 2 ^ 2 := Nat.pow_le_pow_right (by omega) (by omega)
        omega

theorem createTable_pow {k : Nat} (h2 : 2 ≤ k) (h8 : k ≤ 31) :
    createTable (K := K) (V := V) (2 ^ k) = some (List.replicate (2 ^ k) ⟨emptySlot, 0, 0, none⟩) := by
  unfold createTable
  rw [if_pos]
  have h4 : 2 ^ 2 ≤ 2 ^ k := Nat.pow_le_pow_right (by omega) h2
  have h5 : 2 ^ k < 2 ^ 32 := Nat.pow_lt_pow_right (by omega) (by omega)
  exact ⟨by omega, (Bits.isPowerOf2_iff 32 (2 ^ k) h5 (by omega)).2 ⟨k, rfl⟩⟩

attribute [local irreducible] createTable migrateSize

theorem migrate_sound {T : Traits K V} {t t' : Table K V} {ch} (hi : Inv T t.cells ch)
    (h : migrate t = some t') :
    ∃ ch', Inv T t'.cells ch' ∧ Compact t'.cells ch' ∧ (items t'.cells).Perm (items t.cells) ∧
      t'.pop = t.pop := by
  unfold migrate at h
  rw [Option.bind_eq_some_iff] at h
  obtain ⟨dst, hd, h⟩ := h
  rw [Option.map_eq_some_iff] at h
  obtain ⟨cs, hcs, ht⟩ := h
  obtain ⟨h4, hr⟩ := createTable_some hd
  clear hd
  revert hr h4
  generalize migrateSize t.pop = size
  intro h4 hr
  subst hr ht
  obtain ⟨h1, h2, h3⟩ := Inv.empty T size (by omega)
  obtain ⟨ch', h5, h6, _, h7⟩ := (migrateCells_spec t.cells _ _ h1 h2
    (fun c hc => by obtain ⟨i, hc'⟩ := cell_of_mem hc; exact hi.occ i c hc')
    (fun c hc x hx => by obtain ⟨i, hc'⟩ := cell_of_mem hc; exact hi.hash i c x hc' hx)
    (by rw [h3, List.append_nil]; exact hi.keys)).1 cs hcs
  rw [h3, List.append_nil] at h7
  exact ⟨ch', h5, h6, h7, rfl⟩

theorem migrate_total {T : Traits K V} {t : Table K V} {ch} (hi : Inv T t.cells ch)
    (hp : t.pop = (items t.cells).length) (h128 : t.pop ≤ 128) :
    ∃ t', migrate t = some t' ∧ 4 ≤ t'.cells.length ∧ t'.cells.length ≤ 256 ∧
      t.pop * 2 ≤ t'.cells.length := by
  unfold migrate
  obtain ⟨k, hk, h2, h8, hpk⟩ := newSize t.pop h128
  rw [hk]
  clear hk
  have h4 : 2 ^ 2 ≤ 2 ^ k := Nat.pow_le_pow_right (by omega) h2
  have h256 : 2 ^ k ≤ 2 ^ 8 := Nat.pow_le_pow_right (by omega) h8
  rw [createTable_pow h2 (by omega)]
  rw [Option.bind_some]
  obtain ⟨h1, h2, h3⟩ := Inv.empty T (2 ^ k) (by omega)
  have hsp := migrateCells_spec t.cells _ _ h1 h2
    (fun c hc => by obtain ⟨i, hc'⟩ := cell_of_mem hc; exact hi.occ i c hc')
    (fun c hc x hx => by obtain ⟨i, hc'⟩ := cell_of_mem hc; exact hi.hash i c x hc' hx)
    (by rw [h3, List.append_nil]; exact hi.keys)
  obtain ⟨cs', hcs⟩ := hsp.2 (by rw [h3]; simpa using by omega) (by
    rw [h3, List.length_replicate]; simp only [List.length_nil]; omega)
  obtain ⟨_, _, _, hl, _⟩ := hsp.1 cs' hcs
  rw [List.length_replicate] at hl
  rw [hcs]
  exact ⟨_, rfl, by dsimp only; omega, by dsimp only; omega, by dsimp only; omega⟩

end Verif.HMap
