import Verif.HMap.LemmasInv
/-! # The invariant when an item is erased -/
namespace Verif.HMap

variable {K V : Type}

theorem keys_clear {l l' : List (K × V)} {x : K × V} (hp : (x :: l').Perm l)
    (hn : (l.map (·.1)).Nodup) : (l'.map (·.1)).Nodup :=
  (List.nodup_cons.1 ((hp.map (·.1)).nodup_iff.2 hn)).2

/-- Erasing an item from its home. -/
theorem Inv.clearHome {T : Traits K V} {cs ch} (hi : Inv T cs ch) {h : Nat} {c : Cell K V} {x : K × V}
    (hc : cell cs h = some c) (hx : c.item = some x) (hb : T.hash x.1 % cs.length = h % cs.length) :
    Inv T (setCell cs h { c with next := 255, item := none }) ch := by
  generalize hd : ({ c with next := 255, item := none } : Cell K V) = d
  have hdn : d.next = 255 := by rw [← hd]
  have hdi : d.item = none := by rw [← hd]
  have hdf : d.first = c.first := by rw [← hd]
  have hlen := setCell_length cs h d
  have hfar : ∀ g, ∀ y ∈ ch (g % cs.length), (g + y) % cs.length ≠ h % cs.length := by
    intro g y hy e
    obtain ⟨c0, z, h0, hz, h1⟩ := hi.mem g y hy
    rw [cell_congr e, hc] at h0
    cases h0
    rw [hx] at hz
    cases hz
    exact hi.not_home hy (by rw [e, ← hb, h1])
  have hlink : ∀ g l, (l ∈ reads g (.first g) (ch (g % cs.length)) ∨
      l = linkAt g (.first g) (ch (g % cs.length))) →
      readLink (setCell cs h d) l = readLink cs l := by
    intro g l hl
    refine (readLink_setCell hi.pos hc hdf l).2 ?_
    rcases hi.link_cases hl with rfl | ⟨y, hy, rfl⟩
    · exact fun h => h
    · exact hfar g y hy
  constructor
  · rw [hlen]; exact hi.pos
  · exact keys_clear (items_clear hc hx hdi) hi.keys
  · intro i c' hc'
    rw [cell_setCell hi.pos] at hc'
    split at hc'
    · cases hc'; simp [hdn, hdi]
    · exact hi.occ i c' hc'
  · intro i c' y hc' hy
    rw [cell_setCell hi.pos] at hc'
    split at hc'
    · cases hc'; rw [hdi] at hy; cases hy
    · exact hi.hash i c' y hc' hy
  · intro g
    rw [hlen]
    exact (hi.seg g).frame fun l hl => hlink g l (.inl hl)
  · intro g
    rw [hlen, hlink g _ (.inr rfl)]
    exact hi.fin g
  · intro g
    rw [hlen]
    exact hi.dist g
  · intro g e he
    rw [hlen] at he ⊢
    obtain ⟨c', y, hc', hy, hb⟩ := hi.mem g e he
    refine ⟨c', y, ?_, hy, hb⟩
    rw [cell_setCell hi.pos, if_neg (hfar g e he), hc']
  · intro i c' y hc' hy
    rw [hlen]
    rw [cell_setCell hi.pos] at hc'
    split at hc'
    · cases hc'; rw [hdi] at hy; cases hy
    · exact hi.owner i c' y hc' hy

/-- The distances of a chain around one of its entries. -/
theorem Seg.around {cs : List (Cell K V)} {h e0 : Nat} {l : Link} {pre post : List Nat} {e : Nat}
    (hs : Seg cs h e0 l (pre ++ e :: post)) :
    (∀ x ∈ pre, x ≤ distAt e0 pre) ∧ distAt e0 pre < e ∧ ∀ x ∈ post, e < x := by
  rw [Seg_append] at hs
  exact ⟨hs.1.le_dist, hs.2.1, hs.2.2.2.gt⟩

/-- The link around an erased entry. -/
def skipTo (d : Nat) : List Nat → Nat
  | [] => 0
  | y :: _ => y - d

/-- Erasing an item from a chain. -/
theorem Inv.clearChain {T : Traits K V} {cs ch} (hi : Inv T cs ch) {h e v : Nat} {c : Cell K V}
    {x : K × V} {pre post : List Nat} {cs'' : List (Cell K V)}
    (hes : ch (h % cs.length) = pre ++ e :: post)
    (hc : cell cs (h + e) = some c) (hx : c.item = some x)
    (hv : v = skipTo (distAt 0 pre) post)
    (hv1 : v < 256) (hv2 : pre ≠ [] → v ≠ 255)
    (hw : writeLink (setCell cs (h + e) { c with next := 255, item := none })
      (linkAt h (.first h) pre) v = some cs'') :
    Inv T cs'' (setChain ch (h % cs.length) (pre ++ post)) := by
  generalize hd : ({ c with next := 255, item := none } : Cell K V) = d at hw
  have hdn : d.next = 255 := by rw [← hd]
  have hdi : d.item = none := by rw [← hd]
  have hdf : d.first = c.first := by rw [← hd]
  have hlen' := setCell_length cs (h + e) d
  have hpos' : 0 < (setCell cs (h + e) d).length := by rw [hlen']; exact hi.pos
  have hlen : cs''.length = cs.length := by rw [writeLink_length hw, hlen']
  have harr := Seg.around (by rw [← hes]; exact hi.seg h)
  have heM : e ∈ ch (h % cs.length) := by rw [hes]; simp
  have hpreM : ∀ y ∈ pre, y ∈ ch (h % cs.length) := by intro y hy; rw [hes]; simp [hy]
  have hpostM : ∀ y ∈ post, y ∈ ch (h % cs.length) := by intro y hy; rw [hes]; simp [hy]
  -- the link before the entry
  have hL : (pre = [] ∧ linkAt h (.first h) pre = .first h) ∨
      (pre ≠ [] ∧ distAt 0 pre ∈ pre ∧ linkAt h (.first h) pre = .next (h + distAt 0 pre)) := by
    rcases linkAt_eq h 0 (.first h) pre with h1 | ⟨h1, h2⟩
    · exact .inl h1
    · rcases distAt_mem 0 pre with ⟨h3, _⟩ | h3
      · exact absurd h3 h1
      · exact .inr ⟨h1, h3, h2⟩
  generalize hLe : linkAt h (.first h) pre = L at hw hL
  have hL' : L = .first h ∨ ∃ y ∈ ch (h % cs.length), L = .next (h + y) := by
    rcases hL with ⟨_, h1⟩ | ⟨_, h1, h2⟩
    · exact .inl h1
    · exact .inr ⟨_, hpreM _ h1, h2⟩
  have hread : ∀ l, ¬ same cs.length l (.next (h + e)) → ¬ same cs.length l L →
      readLink cs'' l = readLink cs l := by
    intro l h1 h2
    rw [((readLink_writeLink hpos' hw l).2 (by rw [hlen']; exact h2)),
      ((readLink_setCell hi.pos hc hdf l).2 h1)]
  have hreadL : ∀ l, same cs.length l L → readLink cs'' l = some v := by
    intro l h1
    rw [((readLink_writeLink hpos' hw l).1 (by rw [hlen']; exact h1)), Nat.mod_eq_of_lt hv1]
  have hLp : ¬ same cs.length (.next (h + e)) L := by
    intro h1
    rcases hL with ⟨_, rfl⟩ | ⟨_, h2, rfl⟩
    · exact h1
    · have := (hi.unique heM (hpreM _ h2) h1).2
      have := harr.2.1
      omega
  -- cells afterwards
  have hcell : ∀ i c', cell cs'' i = some c' →
      (i % cs.length = (h + e) % cs.length ∧ c'.item = none ∧ c'.next = 255) ∨
      (i % cs.length ≠ (h + e) % cs.length ∧ ∃ c0, cell cs i = some c0 ∧ c'.hash = c0.hash ∧
        c'.item = c0.item ∧ (c'.next = c0.next ∨ (same cs.length (.next i) L ∧ c'.next = v))) := by
    intro i c' hc'
    obtain ⟨c0, h0, h1, h2, h3⟩ := cell_writeLink hpos' hw i c' hc'
    rw [cell_setCell hi.pos] at h0
    rw [hlen'] at h3
    split at h0
    · next e' =>
      cases h0
      left
      refine ⟨e', by rw [h2, hdi], ?_⟩
      rcases h3 with h3 | ⟨h3, _⟩
      · rw [h3, hdn]
      · exact absurd (same_trans (show same cs.length (.next (h + e)) (.next i) from e'.symm) h3) hLp
    · next e' =>
      right
      refine ⟨e', c0, h0, h1, h2, ?_⟩
      rcases h3 with h3 | ⟨h3, h4⟩
      · exact .inl h3
      · exact .inr ⟨h3, by rw [h4, Nat.mod_eq_of_lt hv1]⟩
  -- links of the same bucket which stay
  have hstay : ∀ g, g % cs.length = h % cs.length → ∀ z ∈ ch (h % cs.length), z ≠ e →
      (pre = [] ∨ z ≠ distAt 0 pre) → readLink cs'' (.next (g + z)) = readLink cs (.next (g + z)) := by
    intro g hg z hz h1 h2
    refine hread _ ?_ ?_
    · intro h3
      exact h1 (hi.unique (h := g) (by rw [hg]; exact hz) heM h3).2
    · intro h3
      rcases hL with ⟨_, rfl⟩ | ⟨h4, h5, rfl⟩
      · exact h3
      · rcases h2 with h2 | h2
        · exact h4 h2
        · exact h2 (hi.unique (h := g) (by rw [hg]; exact hz) (hpreM _ h5) h3).2
  have hsegEnd : ∀ g, g % cs.length = h % cs.length →
      Seg cs'' g 0 (.first g) pre ∧ Seg cs'' g (distAt 0 pre) (linkAt g (.first g) pre) post ∧
        readLink cs'' (linkAt g (.first g) (pre ++ post)) = some 0 := by
    intro g hg
    have hs := hi.seg g
    have hf := hi.fin g
    rw [hg, hes, Seg_append] at hs
    rw [hg, hes, linkAt_append] at hf
    have hLg : same cs.length (linkAt g (.first g) pre) L := by
      rcases linkAt_eq g 0 (.first g) pre with ⟨h1, h2⟩ | ⟨h1, h2⟩ <;>
        rcases hL with ⟨h3, h4⟩ | ⟨h3, _, h4⟩
      · rw [h2, h4]; exact hg
      · exact absurd h1 h3
      · exact absurd h3 h1
      · rw [h2, h4]; exact add_mod_congr _ hg
    refine ⟨hs.1.frame fun l hl => ?_, ?_, ?_⟩
    · rcases hs.1.reads hl with ⟨hne, rfl⟩ | ⟨y, hy, hlt, rfl⟩
      · refine hread _ (fun h => h) ?_
        rcases hL with ⟨h1, _⟩ | ⟨_, _, rfl⟩
        · exact absurd h1 hne
        · exact fun h => h
      · refine hstay g hg y (hpreM y hy) ?_ (.inr (by omega))
        have := harr.2.1
        omega
    · cases hpost : post with
      | nil => trivial
      | cons y ps =>
        rw [hpost] at hv hs
        have h1 := harr.2.2 y (by rw [hpost]; simp)
        have h2 := harr.2.1
        refine ⟨by omega, ?_, ?_⟩
        · rw [hreadL _ hLg, hv]; rfl
        · refine hs.2.2.2.2.2.frame fun l hl => ?_
          rcases hs.2.2.2.2.2.reads hl with ⟨_, rfl⟩ | ⟨z, hz, _, rfl⟩
          · exact hstay g hg y (hpostM y (by rw [hpost]; simp)) (by omega) (.inr (by omega))
          · have := harr.2.2 z (by rw [hpost]; simp [hz])
            exact hstay g hg z (hpostM z (by rw [hpost]; simp [hz])) (by omega) (.inr (by omega))
    · rw [linkAt_append]
      cases hpost : post with
      | nil =>
        rw [hpost] at hv
        show readLink cs'' (linkAt g (.first g) pre) = some 0
        rw [hreadL _ hLg, hv]; rfl
      | cons y ps =>
        have hdm : distAt y ps ∈ post := by
          rw [hpost]
          rcases distAt_mem y ps with ⟨_, h1⟩ | h1
          · rw [h1]; simp
          · exact List.mem_cons_of_mem _ h1
        have he1 : linkAt g (linkAt g (.first g) pre) (y :: ps) = .next (g + distAt y ps) := by
          rcases linkAt_eq g 0 (linkAt g (.first g) pre) (y :: ps) with ⟨h1, _⟩ | ⟨_, h1⟩
          · cases h1
          · exact h1
        have he2 : linkAt g (linkAt g (.first g) pre) (e :: post) = .next (g + distAt y ps) := by
          rw [hpost]
          rcases linkAt_eq g 0 (linkAt g (.first g) pre) (e :: y :: ps) with ⟨h1, _⟩ | ⟨_, h1⟩
          · cases h1
          · exact h1
        have h1 := harr.2.2 _ hdm
        have h2 := harr.2.1
        rw [he1, hstay g hg _ (hpostM _ hdm) (by omega) (.inr (by omega)), ← he2]
        exact hf
  constructor
  · rw [hlen]; exact hi.pos
  · rw [items_writeLink hw]
    exact keys_clear (items_clear hc hx hdi) hi.keys
  · intro i c' hc'
    rcases hcell i c' hc' with ⟨_, h2, h3⟩ | ⟨hne, c0, h0, _, h2, h3⟩
    · rw [h2, h3]; simp
    · rw [h2, ← hi.occ i c0 h0]
      rcases h3 with h3 | ⟨h3, h4⟩
      · rw [h3]
      · rw [h4]
        rcases hL with ⟨_, rfl⟩ | ⟨h5, h6, rfl⟩
        · exact h3.elim
        · refine ⟨fun h => absurd h (hv2 h5), fun h7 => ?_⟩
          obtain ⟨c1, z, h8, h9, _⟩ := hi.mem h _ (hpreM _ h6)
          rw [← cell_congr (show i % cs.length = (h + distAt 0 pre) % cs.length from h3), h0] at h8
          cases h8
          rw [(hi.occ i _ h0).1 h7] at h9
          cases h9
  · intro i c' y hc' hy
    rcases hcell i c' hc' with ⟨_, h2, _⟩ | ⟨_, c0, h0, h1, h2, _⟩
    · rw [h2] at hy; cases hy
    · rw [h2] at hy; rw [h1]; exact hi.hash i c0 y h0 hy
  · have hother : ∀ g l, g % cs.length ≠ h % cs.length →
        (l ∈ reads g (.first g) (ch (g % cs.length)) ∨ l = linkAt g (.first g) (ch (g % cs.length))) →
        readLink cs'' l = readLink cs l := by
      intro g l hg hl
      exact hread l (hi.link_other hg (hi.link_cases hl) (.inr ⟨e, heM, rfl⟩))
        (hi.link_other hg (hi.link_cases hl) hL')
    intro g
    rw [hlen]
    by_cases hg : g % cs.length = h % cs.length
    · rw [hg, setChain_same, Seg_append]
      exact ⟨(hsegEnd g hg).1, (hsegEnd g hg).2.1⟩
    · rw [setChain_ne _ _ hg]
      exact (hi.seg g).frame fun l hl => hother g l hg (.inl hl)
  · intro g
    rw [hlen]
    by_cases hg : g % cs.length = h % cs.length
    · rw [hg, setChain_same]
      exact (hsegEnd g hg).2.2
    · rw [setChain_ne _ _ hg, hread _
        (hi.link_other hg (hi.link_cases (.inr rfl)) (.inr ⟨e, heM, rfl⟩))
        (hi.link_other hg (hi.link_cases (.inr rfl)) hL')]
      exact hi.fin g
  · intro g
    rw [hlen]
    by_cases hg : g % cs.length = h % cs.length
    · rw [hg, setChain_same]
      intro y hy
      rcases List.mem_append.1 hy with hy | hy
      · exact hi.dist h y (hpreM y hy)
      · exact hi.dist h y (hpostM y hy)
    · rw [setChain_ne _ _ hg]; exact hi.dist g
  · intro g y hy
    rw [hlen] at hy ⊢
    have hy' : y ∈ ch (g % cs.length) ∧ (g + y) % cs.length ≠ (h + e) % cs.length := by
      by_cases hg : g % cs.length = h % cs.length
      · rw [hg, setChain_same] at hy
        have h1 := harr.2.1
        rcases List.mem_append.1 hy with hy | hy
        · refine ⟨by rw [hg]; exact hpreM y hy, fun h2 => ?_⟩
          have := (hi.unique (h := g) (by rw [hg]; exact hpreM y hy) heM h2).2
          have := harr.1 y hy
          omega
        · refine ⟨by rw [hg]; exact hpostM y hy, fun h2 => ?_⟩
          have := (hi.unique (h := g) (by rw [hg]; exact hpostM y hy) heM h2).2
          have := harr.2.2 y hy
          omega
      · rw [setChain_ne _ _ hg] at hy
        exact ⟨hy, fun h2 => hg (hi.unique hy heM h2).1⟩
    obtain ⟨c0, z, h0, hz, hb⟩ := hi.mem g y hy'.1
    obtain ⟨c', hc'⟩ := cell_some (cs := cs'') (by rw [hlen]; exact hi.pos) (g + y)
    rcases hcell _ c' hc' with ⟨h1, _⟩ | ⟨_, c1, h1, _, h2, _⟩
    · exact absurd h1 hy'.2
    · rw [h0] at h1; cases h1; exact ⟨c', z, hc', by rw [h2, hz], hb⟩
  · intro i c' y hc' hy
    rw [hlen]
    rcases hcell i c' hc' with ⟨_, h2, _⟩ | ⟨hne, c0, h0, _, h2, h3⟩
    · rw [h2] at hy; cases hy
    · rw [h2] at hy
      rcases hi.owner i c0 y h0 hy with ⟨h4, h5⟩ | ⟨z, hz, h4⟩
      · left
        refine ⟨h4, ?_⟩
        rcases h3 with h3 | ⟨h3, _⟩
        · rw [h3, h5]
        · exfalso
          rcases hL' with rfl | ⟨w, hw', rfl⟩
          · exact h3
          · have h3 : i % cs.length = (h + w) % cs.length := h3
            obtain ⟨c1, a, h6, h7, h8⟩ := hi.mem h w hw'
            rw [← cell_congr h3, h0] at h6
            cases h6
            rw [hy] at h7
            cases h7
            exact hi.not_home hw' (by rw [← h3, ← h4, h8])
      · right
        refine ⟨z, ?_, h4⟩
        by_cases hg : T.hash y.1 % cs.length = h % cs.length
        · rw [hg, setChain_same]
          rw [hg, hes] at hz
          rcases List.mem_append.1 hz with hz | hz
          · exact List.mem_append_left _ hz
          · rcases List.mem_cons.1 hz with rfl | hz
            · exact absurd (by rw [← h4]; exact add_mod_congr z hg) hne
            · exact List.mem_append_right _ hz
        · rw [setChain_ne _ _ hg]; exact hz

end Verif.HMap
