import Verif.HMap.LemmasErase
/-! # Searching, inserting and erasing -/
namespace Verif.HMap

variable {K V : Type}

theorem chain_spec [DecidableEq K] {T : Traits K V} {cs ch} (hi : Inv T cs ch) (key : K)
    (done es : List Nat) (fuel : Nat)
    (hch : ch (T.hash key % cs.length) = done ++ es) (hf : es.length < fuel) :
    (∃ pre e post c x, es = pre ++ e :: post ∧ cell cs (T.hash key + e) = some c ∧ c.item = some x ∧
        x.1 = key ∧
        chain cs key (T.hash key) fuel (T.hash key + distAt 0 done)
          (linkAt (T.hash key) (.first (T.hash key)) done) =
          some (.found (T.hash key + e)
            (linkAt (T.hash key) (.first (T.hash key)) (done ++ pre)))) ∨
      ((∀ e ∈ es, ∀ c x, cell cs (T.hash key + e) = some c → c.item = some x → x.1 ≠ key) ∧
        chain cs key (T.hash key) fuel (T.hash key + distAt 0 done)
          (linkAt (T.hash key) (.first (T.hash key)) done) =
          some (.last (T.hash key + distAt 0 (done ++ es))
            (linkAt (T.hash key) (.first (T.hash key)) (done ++ es)))) := by
  induction es generalizing done fuel with
  | nil =>
    right
    refine ⟨by simp, ?_⟩
    cases fuel with
    | zero => simp at hf
    | succ n =>
      have := hi.fin (T.hash key)
      rw [hch] at this
      rw [List.append_nil] at this ⊢
      simp only [chain, this, if_pos]
  | cons e es ih =>
    cases fuel with
    | zero => simp at hf
    | succ n =>
      have hs := hi.seg (T.hash key)
      rw [hch, Seg_append] at hs
      obtain ⟨h1, h2, h3⟩ := hs.2
      obtain ⟨c, x, hc, hx, hb⟩ := hi.mem (T.hash key) e (by rw [hch]; simp)
      have hne : c.next ≠ emptySlot := by
        intro h4
        rw [(hi.occ _ c hc).1 h4] at hx
        cases hx
      have hstep : chain cs key (T.hash key) (n + 1) (T.hash key + distAt 0 done)
          (linkAt (T.hash key) (.first (T.hash key)) done) =
          if x.1 = key then some (.found (T.hash key + e)
            (linkAt (T.hash key) (.first (T.hash key)) done))
          else chain cs key (T.hash key) n (T.hash key + e) (.next (T.hash key + e)) := by
        have h5 : T.hash key + distAt 0 done + (e - distAt 0 done) = T.hash key + e := by omega
        simp only [chain, h2, h5, hc, hx]
        rw [if_neg (by omega), if_neg hne]
        by_cases hk : x.1 = key
        · rw [if_pos hk, if_pos (by rw [hi.hash _ c x hc hx, hk])]
        · rw [if_neg hk]
          split <;> rfl
      by_cases hk : x.1 = key
      · left
        exact ⟨[], e, es, c, x, rfl, hc, hx, hk, by rw [hstep, if_pos hk, List.append_nil]⟩
      · have hrec := ih (done ++ [e]) n (by rw [hch]; simp) (by simp only [List.length_cons] at hf; omega)
        rw [distAt_append, linkAt_append] at hrec
        simp only [distAt, linkAt] at hrec
        rw [hstep, if_neg hk]
        rcases hrec with ⟨pre, e', post, c', x', h4, h5, h6, h7, h8⟩ | ⟨h4, h5⟩
        · left
          refine ⟨e :: pre, e', post, c', x', by rw [h4]; rfl, h5, h6, h7, ?_⟩
          rw [h8]; simp
        · right
          refine ⟨?_, ?_⟩
          · intro e' he' c' x' hc' hx'
            rcases List.mem_cons.1 he' with rfl | he'
            · rw [hc] at hc'; cases hc'; rw [hx] at hx'; cases hx'; exact hk
            · exact h4 e' he' c' x' hc' hx'
          · rw [h5]; simp

theorem probe_total {cs : List (Cell K V)} (hp : 0 < cs.length) (h n idx : Nat)
    (hno : ∀ j, 1 ≤ j → j ≤ n → ∀ c, cell cs (idx + j) = some c → c.next ≠ 255 → c.hash ≠ h) :
    ∃ r, probe cs h n idx = some r := by
  induction n generalizing idx with
  | zero => exact ⟨none, rfl⟩
  | succ n ih =>
    obtain ⟨c, hc⟩ := cell_some hp (idx + 1)
    by_cases hn : c.next = 255
    · exact ⟨some (idx + 1), by simp [probe, hc, emptySlot, hn]⟩
    · have := hno 1 (by omega) (by omega) c hc hn
      obtain ⟨r, hr⟩ := ih (idx + 1) (fun j h1 h2 c hc => hno (1 + j) (by omega) (by omega) c
        (by rw [← Nat.add_assoc]; exact hc))
      exact ⟨r, by simp [probe, hc, emptySlot, hn, this, hr]⟩

theorem probe_sound {cs : List (Cell K V)} (h n idx : Nat) {r : Option Nat}
    (hr : probe cs h n idx = some r) :
    (r = none ∧ ∀ j, 1 ≤ j → j ≤ n → ∃ c, cell cs (idx + j) = some c ∧ c.next ≠ 255) ∨
      ∃ j, 1 ≤ j ∧ j ≤ n ∧ r = some (idx + j) ∧ (∃ c, cell cs (idx + j) = some c ∧ c.next = 255) ∧
        ∀ i, 1 ≤ i → i < j → ∃ c, cell cs (idx + i) = some c ∧ c.next ≠ 255 := by
  induction n generalizing idx with
  | zero => cases hr; exact .inl ⟨rfl, fun j h1 h2 => by omega⟩
  | succ n ih =>
    simp only [probe] at hr
    split at hr
    · cases hr
    · next c hc =>
      split at hr
      · next hn =>
        cases hr
        exact .inr ⟨1, by omega, by omega, rfl, ⟨c, hc, hn⟩, fun i h1 h2 => by omega⟩
      · next hn =>
        split at hr
        · cases hr
        · rcases ih (idx + 1) hr with ⟨h1, h2⟩ | ⟨j, h1, h2, h3, h4, h5⟩
          · refine .inl ⟨h1, fun j h3 h4 => ?_⟩
            by_cases hj : j = 1
            · subst hj; exact ⟨c, hc, hn⟩
            · have := h2 (j - 1) (by omega) (by omega)
              rwa [show idx + 1 + (j - 1) = idx + j by omega] at this
          · refine .inr ⟨j + 1, by omega, by omega, by rw [h3]; congr 1; omega, ?_, fun i h6 h7 => ?_⟩
            · rwa [show idx + 1 + j = idx + (j + 1) by omega] at h4
            · by_cases hj : i = 1
              · subst hj; exact ⟨c, hc, hn⟩
              · have := h5 (i - 1) (by omega) (by omega)
                rwa [show idx + 1 + (i - 1) = idx + i by omega] at this

/-- Where a found item is and how it was reached. -/
def Reached (cs : List (Cell K V)) (ch : Nat → List Nat) (h idx : Nat) (lk : Option Link) : Prop :=
  (lk = none ∧ idx = h) ∨
    ∃ pre e post, ch (h % cs.length) = pre ++ e :: post ∧ idx = h + e ∧
      lk = some (linkAt h (.first h) pre)

/-- No room near the end of the chain. -/
def Full (cs : List (Cell K V)) (ch : Nat → List Nat) (h : Nat) : Prop :=
  (∀ c, cell cs h = some c → c.next = 255 → c.first ≠ 0) ∧
    ∀ j, 1 ≤ j → j ≤ min (cs.length - 1 - distAt 0 (ch (h % cs.length))) 128 →
      ∃ c, cell cs (h + distAt 0 (ch (h % cs.length)) + j) = some c ∧ c.next ≠ 255

theorem Inv.dist_lt {T : Traits K V} {cs ch} (hi : Inv T cs ch) (h : Nat) :
    distAt 0 (ch (h % cs.length)) < cs.length := by
  rcases distAt_mem 0 (ch (h % cs.length)) with ⟨_, h1⟩ | h1
  · rw [h1]; exact hi.pos
  · exact hi.dist h _ h1

theorem Inv.length_le {T : Traits K V} {cs ch} (hi : Inv T cs ch) (h : Nat) :
    (ch (h % cs.length)).length ≤ cs.length := by
  have := (hi.seg h).length_le (hi.dist h)
  omega

/-- A key in the table is in its home or on its chain. -/
theorem Inv.mem_key {T : Traits K V} {cs ch} (hi : Inv T cs ch) {key : K}
    (hm : key ∈ (items cs).map (·.1)) :
    (∃ c x, cell cs (T.hash key) = some c ∧ c.item = some x ∧ x.1 = key) ∨
      ∃ e ∈ ch (T.hash key % cs.length), ∃ c x, cell cs (T.hash key + e) = some c ∧
        c.item = some x ∧ x.1 = key := by
  obtain ⟨x, hx, rfl⟩ := List.mem_map.1 hm
  obtain ⟨i, c, hc, hci⟩ := mem_items.1 hx
  rcases hi.owner i c x hc hci with ⟨h1, _⟩ | ⟨e, he, h1⟩
  · exact .inl ⟨c, x, by rw [cell_congr h1, hc], hci, rfl⟩
  · exact .inr ⟨e, he, c, x, by rw [cell_congr h1, hc], hci, rfl⟩

theorem key_mem {cs : List (Cell K V)} {i : Nat} {c : Cell K V} {x : K × V} (hc : cell cs i = some c)
    (hx : c.item = some x) : x.1 ∈ (items cs).map (·.1) :=
  List.mem_map.2 ⟨x, mem_items.2 ⟨i, c, hc, hx⟩, rfl⟩

/-- What an insertion does. -/
structure Inserted (T : Traits K V) (cs : List (Cell K V)) (idx : Nat) (x : K × V)
    (cs' : List (Cell K V)) (ch' : Nat → List Nat) : Prop where
  inv : Inv T cs' ch'
  length : cs'.length = cs.length
  perm : (items cs').Perm (x :: items cs)
  at_ : ∃ c, cell cs' idx = some c ∧ c.item = some x
  keep : ∀ i c y, cell cs i = some c → c.item = some y → ∃ c', cell cs' i = some c' ∧ c'.item = some y

/-- Linking a new item to the end of its chain. -/
theorem Inv.placeAt {T : Traits K V} {cs ch} (hi : Inv T cs ch) {x : K × V} {e : Nat} {c : Cell K V}
    (hc : cell cs (T.hash x.1 + e) = some c) (hn : c.next = 255)
    (hk : x.1 ∉ (items cs).map (·.1))
    (he : distAt 0 (ch (T.hash x.1 % cs.length)) < e) (heN : e < cs.length)
    (hv : e - distAt 0 (ch (T.hash x.1 % cs.length)) < 255) :
    ∃ cs' cs'', place cs (T.hash x.1 + e) (T.hash x.1) x = some cs' ∧
      writeLink cs' (linkAt (T.hash x.1) (.first (T.hash x.1)) (ch (T.hash x.1 % cs.length)))
        (e - distAt 0 (ch (T.hash x.1 % cs.length))) = some cs'' ∧
      Inserted T cs (T.hash x.1 + e) x cs''
        (setChain ch (T.hash x.1 % cs.length) (ch (T.hash x.1 % cs.length) ++ [e])) := by
  have hnone := (hi.occ _ c hc).1 hn
  generalize hcs' : setCell cs (T.hash x.1 + e)
    { c with next := 0, hash := T.hash x.1, item := some x } = cs'
  have hpos' : 0 < cs'.length := by rw [← hcs', setCell_length]; exact hi.pos
  obtain ⟨cs'', hw⟩ := writeLink_some hpos'
    (linkAt (T.hash x.1) (.first (T.hash x.1)) (ch (T.hash x.1 % cs.length)))
    (e - distAt 0 (ch (T.hash x.1 % cs.length)))
  refine ⟨cs', cs'', by simp only [place, hc, hcs'], hw, ?_, ?_, ?_, ?_, ?_⟩
  · rw [← hcs'] at hw
    exact hi.placeChain hc hn rfl hk he heN hv hw
  · rw [writeLink_length hw, ← hcs', setCell_length]
  · rw [items_writeLink hw, ← hcs']
    exact items_place hc hnone rfl
  · obtain ⟨c', hc'⟩ := cell_some (cs := cs'') (by rw [writeLink_length hw]; exact hpos')
      (T.hash x.1 + e)
    obtain ⟨c0, h0, _, h2, _⟩ := cell_writeLink hpos' hw _ c' hc'
    refine ⟨c', hc', ?_⟩
    rw [← hcs', cell_setCell hi.pos, if_pos rfl] at h0
    cases h0
    exact h2
  · intro i c1 y hc1 hy
    obtain ⟨c', hc'⟩ := cell_some (cs := cs'') (by rw [writeLink_length hw]; exact hpos') i
    obtain ⟨c0, h0, _, h2, _⟩ := cell_writeLink hpos' hw _ c' hc'
    refine ⟨c', hc', ?_⟩
    rw [← hcs', cell_setCell hi.pos] at h0
    split at h0
    · next e' => rw [cell_congr e', hc] at hc1; cases hc1; rw [hnone] at hy; cases hy
    · rw [hc1] at h0; cases h0; rw [h2, hy]

theorem Inv.placeAtHome {T : Traits K V} {cs ch} (hi : Inv T cs ch) {x : K × V} {c : Cell K V}
    (hc : cell cs (T.hash x.1) = some c) (hn : c.next = 255)
    (hk : x.1 ∉ (items cs).map (·.1)) :
    ∃ cs', place cs (T.hash x.1) (T.hash x.1) x = some cs' ∧ Inserted T cs (T.hash x.1) x cs' ch := by
  have hnone := (hi.occ _ c hc).1 hn
  refine ⟨_, by simp only [place, hc], hi.placeHome hc hn rfl hk, by simp, ?_, ?_, ?_⟩
  · exact items_place hc hnone rfl
  · exact ⟨_, by rw [cell_setCell hi.pos, if_pos rfl], rfl⟩
  · intro i c1 y hc1 hy
    refine ⟨c1, ?_, hy⟩
    rw [cell_setCell hi.pos, if_neg, hc1]
    intro e'
    rw [cell_congr e', hc] at hc1; cases hc1; rw [hnone] at hy; cases hy

theorem insertOrFind_spec [DecidableEq K] {T : Traits K V} {cs ch} (hi : Inv T cs ch) (key : K)
    (ins : Bool) :
    (∃ idx lk c x, insertOrFind T cs key ins = some (.found idx lk, cs) ∧ cell cs idx = some c ∧
        c.item = some x ∧ x.1 = key ∧ Reached cs ch (T.hash key) idx lk) ∨
      (key ∉ (items cs).map (·.1) ∧
        ((ins = false ∧ insertOrFind T cs key ins = some (.notFound, cs)) ∨
          (ins = true ∧ ∃ idx cs' ch', insertOrFind T cs key ins = some (.inserted idx, cs') ∧
            Inserted T cs idx (key, T.fresh) cs' ch') ∨
          (ins = true ∧ insertOrFind T cs key ins = some (.overflow, cs) ∧
            Full cs ch (T.hash key)))) := by
  obtain ⟨c, hc⟩ := cell_some hi.pos (T.hash key)
  unfold insertOrFind
  dsimp only
  rw [hc]
  dsimp only
  by_cases h0 : ins = true ∧ c.next = emptySlot ∧ c.first = 0
  · -- the free home
    have hnil := hi.chain_nil hc h0.2.2
    have hnone := (hi.occ _ c hc).1 h0.2.1
    have habs : key ∉ (items cs).map (·.1) := by
      intro hm
      rcases hi.mem_key hm with ⟨c', x, hc', hx, _⟩ | ⟨e, he, _⟩
      · rw [hc] at hc'; cases hc'; rw [hnone] at hx; cases hx
      · rw [hnil] at he; cases he
    right
    refine ⟨habs, .inr (.inl ⟨h0.1, ?_⟩)⟩
    rw [if_pos h0]
    obtain ⟨cs', hp, hin⟩ := hi.placeAtHome (x := (key, T.fresh)) hc h0.2.1 habs
    exact ⟨T.hash key, cs', ch, by rw [hp]; rfl, hin⟩
  · rw [if_neg h0]
    -- the chain, when the home does not hold the key
    have hfollow : (∀ x, c.item = some x → x.1 ≠ key) → ∀ r,
        (match chain cs key (T.hash key) (cs.length + 1) (T.hash key) (.first (T.hash key)) with
        | none => none
        | some (.found idx link) => some (Result.found idx (some link), cs)
        | some (.last idx link) =>
          if ins = false then some (.notFound, cs)
          else if idx - T.hash key ≤ cs.length - 1 then
            match probe cs (T.hash key)
              (min (cs.length - 1 - (idx - T.hash key)) searchLimit) idx with
            | none => none
            | some none => some (.overflow, cs)
            | some (some idx') =>
              match place cs idx' (T.hash key) (key, T.fresh) with
              | none => none
              | some cs' => (writeLink cs' link (idx' - idx)).map fun cs'' => (.inserted idx', cs'')
          else none) = r →
        (∃ idx lk c x, r = some (.found idx lk, cs) ∧ cell cs idx = some c ∧
          c.item = some x ∧ x.1 = key ∧ Reached cs ch (T.hash key) idx lk) ∨
        (key ∉ (items cs).map (·.1) ∧
          ((ins = false ∧ r = some (.notFound, cs)) ∨
            (ins = true ∧ ∃ idx cs' ch', r = some (.inserted idx, cs') ∧
              Inserted T cs idx (key, T.fresh) cs' ch') ∨
            (ins = true ∧ r = some (.overflow, cs) ∧ Full cs ch (T.hash key)))) := by
      intro hhome r hr
      have hlen := hi.length_le (T.hash key)
      rcases chain_spec hi key [] (ch (T.hash key % cs.length)) (cs.length + 1) rfl (by omega) with
        ⟨pre, e, post, c', x, h1, h2, h3, h4, h5⟩ | ⟨h1, h2⟩
      · left
        simp only [distAt, linkAt, Nat.add_zero, List.nil_append] at h5
        rw [h5] at hr
        exact ⟨_, _, c', x, hr.symm, h2, h3, h4, .inr ⟨pre, e, post, h1, rfl, rfl⟩⟩
      · right
        simp only [distAt, linkAt, Nat.add_zero, List.nil_append] at h2
        rw [h2] at hr
        dsimp only at hr
        have habs : key ∉ (items cs).map (·.1) := by
          intro hm
          rcases hi.mem_key hm with ⟨c', x, hc', hx, hk⟩ | ⟨e, he, c', x, hc', hx, hk⟩
          · rw [hc] at hc'; cases hc'; exact hhome x hx hk
          · exact h1 e he c' x hc' hx hk
        refine ⟨habs, ?_⟩
        cases ins with
        | false => exact .inl ⟨rfl, by rw [← hr]; rfl⟩
        | true =>
          right
          have hdl := hi.dist_lt (T.hash key)
          generalize hD : distAt 0 (ch (T.hash key % cs.length)) = D at hr hdl
          rw [if_neg (by simp), if_pos (by omega), show T.hash key + D - T.hash key = D by omega] at hr
          have hno : ∀ j, 1 ≤ j → j ≤ min (cs.length - 1 - D) searchLimit →
              ∀ c, cell cs (T.hash key + D + j) = some c → c.next ≠ 255 → c.hash ≠ T.hash key := by
            intro j hj1 hj2 c1 hc1 hn1 hh
            have hit : ∃ x, c1.item = some x := by
              cases hx : c1.item with
              | none => exact absurd ((hi.occ _ c1 hc1).2 hx) hn1
              | some x => exact ⟨x, rfl⟩
            obtain ⟨x, hx⟩ := hit
            have hhx := hi.hash _ c1 x hc1 hx
            rw [hh] at hhx
            rcases hi.owner _ c1 x hc1 hx with ⟨h3, _⟩ | ⟨e, he, h3⟩
            · rw [← hhx, Nat.add_assoc] at h3
              have := add_mod_inj (x := 0) (y := D + j) (h := T.hash key) hi.pos (by omega)
                (by simpa using h3)
              omega
            · rw [← hhx] at h3 he
              rw [Nat.add_assoc] at h3
              have := add_mod_inj (hi.dist _ e he) (by omega) h3
              have := (hi.seg (T.hash key)).le_dist e he
              omega
          obtain ⟨pr, hpr⟩ := probe_total hi.pos _ _ _ hno
          rw [hpr] at hr
          rcases probe_sound _ _ _ hpr with ⟨rfl, h3⟩ | ⟨j, h3, h4, rfl, ⟨c2, h5, h6⟩, _⟩
          · right
            refine ⟨rfl, hr.symm, ?_, ?_⟩
            · intro c' hc' hn'
              rw [hc] at hc'; cases hc'
              exact fun h => h0 ⟨rfl, hn', h⟩
            · rw [hD]; exact h3
          · left
            refine ⟨rfl, ?_⟩
            dsimp only at hr
            rw [Nat.add_assoc] at h5
            have hsl : searchLimit = 128 := rfl
            have hpl := hi.placeAt (x := (key, T.fresh)) (e := D + j) h5 h6 habs
            dsimp only at hpl
            rw [hD] at hpl
            obtain ⟨cs', cs'', hp1, hp2, hp3⟩ := hpl (by omega) (by omega) (by omega)
            rw [Nat.add_assoc, hp1] at hr
            dsimp only at hr
            rw [show T.hash key + (D + j) - (T.hash key + D) = D + j - D by omega, hp2] at hr
            exact ⟨_, cs'', _, hr.symm, hp3⟩
    by_cases h1 : c.next ≠ emptySlot ∧ c.hash = T.hash key
    · rw [if_pos h1]
      cases hx : c.item with
      | none => exact absurd ((hi.occ _ c hc).2 hx) h1.1
      | some x =>
        dsimp only
        by_cases hk : x.1 = key
        · rw [if_pos hk]
          exact .inl ⟨_, _, c, x, rfl, hc, hx, hk, .inl ⟨rfl, rfl⟩⟩
        · rw [if_neg hk]
          exact hfollow (fun y hy => by rw [hx] at hy; cases hy; exact hk) _ rfl
    · rw [if_neg h1]
      refine hfollow (fun y hy hk => ?_) _ rfl
      apply h1
      refine ⟨fun hn => ?_, by rw [hi.hash _ c y hc hy, hk]⟩
      rw [(hi.occ _ c hc).1 hn] at hy
      cases hy

end Verif.HMap
