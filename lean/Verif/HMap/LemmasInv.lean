import Verif.HMap.LemmasChain
/-! # The invariant under single changes -/
namespace Verif.HMap

variable {K V : Type}

theorem Inv.link_cases {T : Traits K V} {cs ch} (hi : Inv T cs ch) {h : Nat} {l : Link}
    (hl : l ∈ reads h (.first h) (ch (h % cs.length)) ∨ l = linkAt h (.first h) (ch (h % cs.length))) :
    l = .first h ∨ ∃ x ∈ ch (h % cs.length), l = .next (h + x) := by
  rcases hl with hl | rfl
  · rcases (hi.seg h).reads hl with ⟨_, rfl⟩ | ⟨x, hx, _, rfl⟩
    · exact .inl rfl
    · exact .inr ⟨x, hx, rfl⟩
  · rcases linkAt_eq h 0 (.first h) (ch (h % cs.length)) with ⟨_, e⟩ | ⟨hne, e⟩
    · exact .inl e
    · right
      refine ⟨_, ?_, e⟩
      rcases distAt_mem 0 (ch (h % cs.length)) with ⟨e', _⟩ | e'
      · exact absurd e' hne
      · exact e'

/-- No link of a chain is in an unused cell's `next`. -/
theorem Inv.link_unused {T : Traits K V} {cs ch} (hi : Inv T cs ch) {p : Nat} {c : Cell K V}
    (hc : cell cs p = some c) (hn : c.item = none) {h : Nat} {l : Link}
    (hl : l ∈ reads h (.first h) (ch (h % cs.length)) ∨ l = linkAt h (.first h) (ch (h % cs.length))) :
    ¬ same cs.length l (.next p) := by
  rcases hi.link_cases hl with rfl | ⟨x, hx, rfl⟩
  · exact fun h => h
  · intro e
    obtain ⟨d, a, hd, ha, _⟩ := hi.mem h x hx
    rw [cell_congr e, hc] at hd
    cases hd
    rw [hn] at ha
    cases ha

theorem items_place {cs : List (Cell K V)} {p : Nat} {c d : Cell K V} {x : K × V}
    (hc : cell cs p = some c) (hn : c.item = none) (hd : d.item = some x) :
    (items (setCell cs p d)).Perm (x :: items cs) := by
  have := items_setCell d hc
  rw [hn, hd] at this
  simp only [Option.toList_none, List.append_nil, Option.toList_some] at this
  exact this.trans (List.perm_append_singleton _ _)

theorem items_clear {cs : List (Cell K V)} {p : Nat} {c d : Cell K V} {x : K × V}
    (hc : cell cs p = some c) (hn : c.item = some x) (hd : d.item = none) :
    (x :: items (setCell cs p d)).Perm (items cs) := by
  have := items_setCell d hc
  rw [hn, hd] at this
  simp only [Option.toList_none, List.append_nil, Option.toList_some] at this
  exact (List.perm_append_singleton _ _).symm.trans this

theorem keys_place {l l' : List (K × V)} {x : K × V} (hp : l'.Perm (x :: l)) (hn : (l.map (·.1)).Nodup)
    (hx : x.1 ∉ l.map (·.1)) : (l'.map (·.1)).Nodup :=
  (hp.map _).nodup_iff.2 (List.nodup_cons.2 ⟨hx, hn⟩)

/-- The chain of a bucket whose `first` is 0. -/
theorem Inv.chain_nil {T : Traits K V} {cs ch} (hi : Inv T cs ch) {h : Nat} {c : Cell K V}
    (hc : cell cs h = some c) (hf : c.first = 0) : ch (h % cs.length) = [] := by
  have := hi.seg h
  cases hes : ch (h % cs.length) with
  | nil => rfl
  | cons x es =>
    rw [hes] at this
    have h1 := this.2.1
    have h2 := this.1
    simp only [readLink, hc, Option.map_some, hf, Option.some.injEq] at h1
    omega

/-- An item put into its free home. -/
theorem Inv.placeHome {T : Traits K V} {cs ch} (hi : Inv T cs ch) {h : Nat} {c : Cell K V} {x : K × V}
    (hc : cell cs h = some c) (hn : c.next = 255) (hx : T.hash x.1 = h)
    (hk : x.1 ∉ (items cs).map (·.1)) :
    Inv T (setCell cs h { c with next := 0, hash := h, item := some x }) ch := by
  have hnone := (hi.occ h c hc).1 hn
  have hlen := setCell_length cs h { c with next := 0, hash := h, item := some x }
  have hlink : ∀ g l, (l ∈ reads g (.first g) (ch (g % cs.length)) ∨
      l = linkAt g (.first g) (ch (g % cs.length))) →
      readLink (setCell cs h { c with next := 0, hash := h, item := some x }) l = readLink cs l :=
    fun g l hl => (readLink_setCell hi.pos (d := { c with next := 0, hash := h, item := some x })
      hc rfl l).2 (hi.link_unused hc hnone hl)
  constructor
  · rw [hlen]; exact hi.pos
  · exact keys_place (items_place hc hnone rfl) hi.keys hk
  · intro i d hd
    rw [cell_setCell hi.pos] at hd
    split at hd
    · cases hd; simp
    · exact hi.occ i d hd
  · intro i d y hd hy
    rw [cell_setCell hi.pos] at hd
    split at hd
    · cases hd; cases hy; exact hx.symm
    · exact hi.hash i d y hd hy
  · intro g
    rw [hlen]
    exact (hi.seg g).frame fun l hl => hlink g l (.inl hl)
  · intro g
    rw [hlen, hlink g _ (.inr rfl)]
    exact hi.fin g
  · intro g
    rw [hlen]
    exact hi.dist g
  · intro g e he
    rw [hlen] at he ⊢
    obtain ⟨d, y, hd, hy, hb⟩ := hi.mem g e he
    refine ⟨d, y, ?_, hy, hb⟩
    rw [cell_setCell hi.pos, if_neg, hd]
    intro e'
    rw [cell_congr e', hc] at hd
    cases hd
    rw [hnone] at hy
    cases hy
  · intro i d y hd hy
    rw [hlen]
    rw [cell_setCell hi.pos] at hd
    split at hd
    · next e =>
      cases hd; cases hy
      exact .inl ⟨by rw [hx, e], rfl⟩
    · exact hi.owner i d y hd hy

/-- The chains with one replaced. -/
def setChain (ch : Nat → List Nat) (b : Nat) (es : List Nat) : Nat → List Nat :=
  fun b' => if b' = b then es else ch b'

theorem setChain_same (ch : Nat → List Nat) (b : Nat) (es : List Nat) : setChain ch b es b = es := by
  simp [setChain]

theorem setChain_ne (ch : Nat → List Nat) {b b' : Nat} (es : List Nat) (h : b' ≠ b) :
    setChain ch b es b' = ch b' := by
  simp [setChain, h]

/-- Links of different buckets are different. -/
theorem Inv.link_other {T : Traits K V} {cs ch} (hi : Inv T cs ch) {g h : Nat}
    (hne : g % cs.length ≠ h % cs.length) {l L : Link}
    (hl : l = .first g ∨ ∃ x ∈ ch (g % cs.length), l = .next (g + x))
    (hL : L = .first h ∨ ∃ x ∈ ch (h % cs.length), L = .next (h + x)) : ¬ same cs.length l L := by
  rcases hl with rfl | ⟨x, hx, rfl⟩ <;> rcases hL with rfl | ⟨y, hy, rfl⟩
  · exact hne
  · exact fun h => h
  · exact fun h => h
  · exact fun e => hne (hi.unique hx hy e).1

theorem same_symm {n : Nat} {l l' : Link} (h : same n l l') : same n l' l := by
  cases l <;> cases l' <;> simp only [same] at h ⊢ <;> exact h.symm

theorem same_trans {n : Nat} {l l' l'' : Link} (h : same n l l') (h' : same n l' l'') :
    same n l l'' := by
  cases l <;> cases l' <;> cases l'' <;> simp only [same] at h h' ⊢ <;> exact h.trans h'

/-- An item put into a free cell and linked to the end of its chain. -/
theorem Inv.placeChain {T : Traits K V} {cs ch} (hi : Inv T cs ch) {h e : Nat} {c : Cell K V}
    {x : K × V} {cs'' : List (Cell K V)}
    (hc : cell cs (h + e) = some c) (hn : c.next = 255) (hx : T.hash x.1 = h)
    (hk : x.1 ∉ (items cs).map (·.1))
    (he : distAt 0 (ch (h % cs.length)) < e) (heN : e < cs.length)
    (hv : e - distAt 0 (ch (h % cs.length)) < 255)
    (hw : writeLink (setCell cs (h + e) { c with next := 0, hash := h, item := some x })
      (linkAt h (.first h) (ch (h % cs.length))) (e - distAt 0 (ch (h % cs.length))) = some cs'') :
    Inv T cs'' (setChain ch (h % cs.length) (ch (h % cs.length) ++ [e])) := by
  have hnone := (hi.occ _ c hc).1 hn
  generalize hd : ({ c with next := 0, hash := h, item := some x } : Cell K V) = d at hw
  have hdn : d.next = 0 := by rw [← hd]
  have hdh : d.hash = h := by rw [← hd]
  have hdi : d.item = some x := by rw [← hd]
  have hdf : d.first = c.first := by rw [← hd]
  have hlen' := setCell_length cs (h + e) d
  have hpos' : 0 < (setCell cs (h + e) d).length := by rw [hlen']; exact hi.pos
  have hlen : cs''.length = cs.length := by rw [writeLink_length hw, hlen']
  have hL := hi.link_cases (h := h) (.inr rfl)
  have hLu := hi.link_unused hc hnone (h := h) (.inr rfl)
  generalize hLe : linkAt h (.first h) (ch (h % cs.length)) = L at hw hL hLu
  -- reading a link afterwards
  have hread : ∀ l, ¬ same cs.length l (.next (h + e)) → ¬ same cs.length l L →
      readLink cs'' l = readLink cs l := by
    intro l h1 h2
    rw [((readLink_writeLink hpos' hw l).2 (by rw [hlen']; exact h2)),
      ((readLink_setCell hi.pos hc hdf l).2 h1)]
  have hreadL : ∀ l, same cs.length l L → readLink cs'' l =
      some (e - distAt 0 (ch (h % cs.length))) := by
    intro l h1
    rw [((readLink_writeLink hpos' hw l).1 (by rw [hlen']; exact h1)), Nat.mod_eq_of_lt (by omega)]
  have hreadp : ∀ l, same cs.length l (.next (h + e)) → ¬ same cs.length l L →
      readLink cs'' l = some 0 := by
    intro l h1 h2
    rw [((readLink_writeLink hpos' hw l).2 (by rw [hlen']; exact h2)),
      ((readLink_setCell hi.pos hc hdf l).1 h1), hdn]
  have hsym : ∀ {l l' : Link}, same cs.length l l' → same cs.length l' l := same_symm
  have htrans : ∀ {l l' l'' : Link}, same cs.length l l' → same cs.length l' l'' →
      same cs.length l l'' := same_trans
  -- cells afterwards
  have hcell : ∀ i c', cell cs'' i = some c' →
      (i % cs.length = (h + e) % cs.length ∧ c'.hash = h ∧ c'.item = some x ∧ c'.next = 0) ∨
      (i % cs.length ≠ (h + e) % cs.length ∧ ∃ c0, cell cs i = some c0 ∧ c'.hash = c0.hash ∧
        c'.item = c0.item ∧ (c'.next = c0.next ∨
          (same cs.length (.next i) L ∧ c'.next = e - distAt 0 (ch (h % cs.length))))) := by
    intro i c' hc'
    obtain ⟨c0, h0, h1, h2, h3⟩ := cell_writeLink hpos' hw i c' hc'
    rw [cell_setCell hi.pos] at h0
    rw [hlen'] at h3
    split at h0
    · next e' =>
      cases h0
      left
      refine ⟨e', by rw [h1, hdh], by rw [h2, hdi], ?_⟩
      rcases h3 with h3 | ⟨h3, _⟩
      · rw [h3, hdn]
      · exact absurd (hsym (htrans (show same cs.length (.next (h + e)) (.next i) from e'.symm) h3)) hLu
    · next e' =>
      right
      refine ⟨e', c0, h0, h1, h2, ?_⟩
      rcases h3 with h3 | ⟨h3, h4⟩
      · exact .inl h3
      · exact .inr ⟨h3, by rw [h4, Nat.mod_eq_of_lt (by omega)]⟩
  constructor
  · rw [hlen]; exact hi.pos
  · rw [items_writeLink hw]
    exact keys_place (items_place hc hnone hdi) hi.keys hk
  · intro i c' hc'
    rcases hcell i c' hc' with ⟨_, _, h2, h3⟩ | ⟨hne, c0, h0, _, h2, h3⟩
    · rw [h2, h3]; simp
    · rw [h2, ← hi.occ i c0 h0]
      rcases h3 with h3 | ⟨h3, h4⟩
      · rw [h3]
      · rw [h4]
        refine ⟨fun h => by omega, fun h5 => ?_⟩
        exfalso
        rcases hL with rfl | ⟨y, hy, rfl⟩
        · exact h3
        · obtain ⟨c1, z, h6, h7, _⟩ := hi.mem h y hy
          rw [← cell_congr (show i % cs.length = (h + y) % cs.length from h3), h0] at h6
          cases h6
          rw [(hi.occ i _ h0).1 h5] at h7
          cases h7
  · intro i c' y hc' hy
    rcases hcell i c' hc' with ⟨_, h1, h2, _⟩ | ⟨_, c0, h0, h1, h2, _⟩
    · rw [h2] at hy; cases hy; rw [h1, hx]
    · rw [h2] at hy; rw [h1]; exact hi.hash i c0 y h0 hy
  · intro g
    rw [hlen]
    by_cases hg : g % cs.length = h % cs.length
    · rw [hg, setChain_same, Seg_append]
      have hs := hi.seg g
      rw [hg] at hs
      refine ⟨hs.frame fun l hl => hread l ?_ ?_, ?_, ?_, trivial⟩
      · exact hi.link_unused hc hnone (h := g) (.inl (by rw [hg]; exact hl))
      · -- not the last link
        intro hsame
        rcases hs.reads hl with ⟨hne, rfl⟩ | ⟨y, hy, hlt, rfl⟩
        · rcases linkAt_eq h 0 (.first h) (ch (h % cs.length)) with ⟨h1, _⟩ | ⟨_, h1⟩
          · exact hne h1
          · rw [hLe] at h1; rw [h1] at hsame; exact hsame
        · rcases linkAt_eq h 0 (.first h) (ch (h % cs.length)) with ⟨h1, _⟩ | ⟨_, h1⟩
          · rw [h1] at hy; cases hy
          · rw [hLe] at h1
            rw [h1] at hsame
            have hm : distAt 0 (ch (h % cs.length)) ∈ ch (h % cs.length) := by
              rcases distAt_mem 0 (ch (h % cs.length)) with ⟨h2, _⟩ | h2
              · rw [h2] at hy; cases hy
              · exact h2
            have := (hi.unique (h := g) (h' := h) (by rw [hg]; exact hy) hm hsame).2
            omega
      · exact he
      · refine hreadL _ ?_
        rw [← hLe]
        rcases linkAt_eq g 0 (.first g) (ch (h % cs.length)) with ⟨h1, h2⟩ | ⟨h1, h2⟩ <;>
          rcases linkAt_eq h 0 (.first h) (ch (h % cs.length)) with ⟨h3, h4⟩ | ⟨h3, h4⟩
        · rw [h2, h4]; exact hg
        · exact absurd h1 h3
        · exact absurd h3 h1
        · rw [h2, h4]; exact add_mod_congr _ hg
    · rw [setChain_ne _ _ hg]
      refine (hi.seg g).frame fun l hl => hread l (hi.link_unused hc hnone (.inl hl)) ?_
      exact hi.link_other hg (hi.link_cases (.inl hl)) hL
  · intro g
    rw [hlen]
    by_cases hg : g % cs.length = h % cs.length
    · rw [hg, setChain_same, linkAt_append]
      refine hreadp _ (add_mod_congr e hg) ?_
      intro h1
      exact hLu (hsym (htrans (show same cs.length (.next (h + e)) (.next (g + e)) from
        (add_mod_congr e hg).symm) h1))
    · rw [setChain_ne _ _ hg, hread _ (hi.link_unused hc hnone (.inr rfl))
        (hi.link_other hg (hi.link_cases (.inr rfl)) hL)]
      exact hi.fin g
  · intro g
    rw [hlen]
    by_cases hg : g % cs.length = h % cs.length
    · rw [hg, setChain_same]
      intro y hy
      rcases List.mem_append.1 hy with hy | hy
      · exact hi.dist h y hy
      · simp only [List.mem_singleton] at hy; omega
    · rw [setChain_ne _ _ hg]; exact hi.dist g
  · have hex : ∀ i c0 y, cell cs i = some c0 → c0.item = some y →
        ∃ c' , cell cs'' i = some c' ∧ c'.item = some y := by
      intro i c0 y h0 hy
      obtain ⟨c', hc'⟩ := cell_some (cs := cs'') (by rw [hlen]; exact hi.pos) i
      rcases hcell i c' hc' with ⟨h1, _⟩ | ⟨_, c1, h1, _, h2, _⟩
      · rw [cell_congr h1, hc] at h0; cases h0; rw [hnone] at hy; cases hy
      · rw [h0] at h1; cases h1; exact ⟨c', hc', by rw [h2, hy]⟩
    intro g y hy
    rw [hlen] at hy ⊢
    by_cases hg : g % cs.length = h % cs.length
    · rw [hg, setChain_same] at hy
      rcases List.mem_append.1 hy with hy | hy
      · obtain ⟨c0, z, h0, hz, hb⟩ := hi.mem g y (by rw [hg]; exact hy)
        obtain ⟨c', h1, h2⟩ := hex _ _ _ h0 hz
        exact ⟨c', z, h1, h2, hb⟩
      · simp only [List.mem_singleton] at hy
        subst hy
        obtain ⟨c', hc'⟩ := cell_some (cs := cs'') (by rw [hlen]; exact hi.pos) (g + y)
        rcases hcell _ c' hc' with ⟨h1, _, h2, _⟩ | ⟨h1, _⟩
        · exact ⟨c', x, hc', h2, by rw [hx, hg]⟩
        · exact absurd (add_mod_congr y hg) h1
    · rw [setChain_ne _ _ hg] at hy
      obtain ⟨c0, z, h0, hz, hb⟩ := hi.mem g y hy
      obtain ⟨c', h1, h2⟩ := hex _ _ _ h0 hz
      exact ⟨c', z, h1, h2, hb⟩
  · intro i c' y hc' hy
    rw [hlen]
    rcases hcell i c' hc' with ⟨h1, _, h2, _⟩ | ⟨_, c0, h0, _, h2, h3⟩
    · rw [h2] at hy
      cases hy
      rw [hx]
      exact .inr ⟨e, by rw [setChain_same]; simp, h1.symm⟩
    · rw [h2] at hy
      rcases hi.owner i c0 y h0 hy with ⟨h4, h5⟩ | ⟨z, hz, h4⟩
      · left
        refine ⟨h4, ?_⟩
        rcases h3 with h3 | ⟨h3, _⟩
        · rw [h3, h5]
        · exfalso
          rcases hL with rfl | ⟨w, hw', rfl⟩
          · exact h3
          · have h3 : i % cs.length = (h + w) % cs.length := h3
            obtain ⟨c1, a, h6, h7, h8⟩ := hi.mem h w hw'
            rw [← cell_congr h3, h0] at h6
            cases h6
            rw [hy] at h7
            cases h7
            exact hi.not_home hw' (by rw [← h3, ← h4, h8])
      · right
        refine ⟨z, ?_, h4⟩
        by_cases hg : T.hash y.1 % cs.length = h % cs.length
        · rw [hg, setChain_same]
          rw [hg] at hz
          exact List.mem_append_left _ hz
        · rw [setChain_ne _ _ hg]; exact hz

end Verif.HMap
