import Verif.Seq.LemmasIter
import Verif.Seq.Spec

/-! # Lemmas: many operations on a sequence -/
namespace Verif.Seq

variable {α : Type}

theorem prefix_get? {β : Type} {a b : List β} (h : a <+: b) {k : Nat} (hk : k < a.length) : b[k]? = a[k]? := by
  obtain ⟨r, rfl⟩ := h
  rw [List.getElem?_append_left hk]

theorem doOp_good {sz : Nat} (hsz : 0 < sz) (h2 : sz ≤ 2048) {s : St α} {a : List (E α)} {t : E α}
    (G : Good sz s a t) (o : Op α) (ho : Allowed sz (flat (a ++ [t])) o) :
    ∃ q a' t', doOp sz s o = some q ∧ Good sz q a' t' ∧ flat (a' ++ [t']) = after (flat (a ++ [t])) o ∧
      q.dead.Perm (s.dead ++ killed (flat (a ++ [t])) o) ∧
      (o = .clear ∨ locs (a ++ [t]) <+: locs (a' ++ [t']) ∨ locs (a' ++ [t']) <+: locs (a ++ [t])) := by
  cases o with
  | append x =>
    obtain ⟨q, c, a', t', h, G', hf, hd, hl, _⟩ := append_good G.toRep hsz h2 x
    exact ⟨q, a', t', by simp [doOp, h], G', hf, by rw [hd]; simp [killed],
      Or.inr (Or.inl (by rw [hl]; exact List.prefix_append _ _))⟩
  | write xs =>
    obtain ⟨q, a', t', h, G', hf, hd, hl, _⟩ := writeAll_good hsz h2 xs.length G xs (Nat.le_refl _)
    exact ⟨q, a', t', h, G', hf, by rw [hd]; simp [killed], Or.inr (Or.inl hl)⟩
  | pop n =>
    obtain ⟨q, a', t', h, G', hf, hd, hl⟩ := popLoop_good n n G (Nat.le_refl _) ho.1
    refine ⟨q, a', t', ?_, G', hf, hd, Or.inr (Or.inr hl)⟩
    simp only [doOp, popTail]
    rw [if_neg (by have := ho.2; omega), h]
  | truncate k =>
    obtain ⟨c, h1, hc⟩ := begin_pos G
    obtain ⟨c', h3, hc'⟩ := advance_pos G k 0 hc (by have : k ≤ _ := ho; omega)
    obtain ⟨pre, e, rest, he, hce, hk, hi⟩ := hc'
    obtain ⟨q, a', t', h, G', hf, hd, hl⟩ := truncate_good G.toRep he c'.idx (by omega)
    refine ⟨q, a', t', ?_, G', ?_, by rw [hd]; simp [killed], Or.inr (Or.inr hl)⟩
    · simp only [doOp]
      rw [h1]
      dsimp only
      rw [h3]
      dsimp only
      rw [hce]
      exact h
    · rw [hf]
      simp only [after]
      rw [Nat.zero_add] at hk
      rw [he, flat_append, flat_cons, hk, List.take_length_add_append, List.take_append_of_le_length (by omega)]
  | clear =>
    obtain ⟨q, t', h, G', hf, hd⟩ := clear_good G.toRep h2
    exact ⟨q, [], t', h, G', hf, by rw [hd]; exact List.Perm.refl _, Or.inl rfl⟩

/-- `beginWrite` when the last block is full. -/
theorem beginWrite_full {sz : Nat} {s : St α} {a : List (E α)} {t : E α} (R : Rep sz s a t) (h2 : sz ≤ 2048)
    (hfull : t.cap - sz * t.items.length < sz) :
    ∃ q, beginWrite sz s = some (q, 2048 / sz) ∧ Rep sz q (a ++ [t]) ⟨s.fresh, 2048, []⟩ := by
  have hb := R.tail_block
  have hm : max defaultBlockSize sz = 2048 := by simp [defaultBlockSize]; omega
  unfold beginWrite
  rw [hb]
  dsimp only
  rw [unused_mk, if_pos hfull, hm]
  obtain ⟨q, hq, R', hd⟩ := appendBlock_rep R (n := 2048) (by omega) h2 hfull
  rw [hq]
  dsimp only
  rw [R'.tail_block]
  dsimp only
  rw [unused_mk]
  exact ⟨q, by simp, R'⟩

/-- `append` when the last block is full. -/
theorem append_full {sz : Nat} {s : St α} {a : List (E α)} {t : E α} (R : Rep sz s a t) (h2 : sz ≤ 2048)
    (hfull : t.cap - sz * t.items.length < sz) (x : α) :
    ∃ q, append sz s x = some (q, ⟨s.fresh, 0⟩) ∧ Rep sz q (a ++ [t]) ⟨s.fresh, 2048, [x]⟩ := by
  obtain ⟨q, h1, R1⟩ := beginWrite_full R h2 hfull
  obtain ⟨q', h3, R3, _⟩ := endWrite_rep R1 [x] (by simpa using h2)
  unfold append
  rw [h1]
  dsimp only
  rw [R1.tail_block]
  dsimp only
  rw [h3, R1.tail]
  exact ⟨q', rfl, R3⟩

theorem run_good {sz : Nat} (hsz : 0 < sz) (h2 : sz ≤ 2048) : ∀ (ops : List (Op α)) {s : St α} {a : List (E α)} {t : E α},
    Good sz s a t → AllAllowed sz (flat (a ++ [t])) ops →
    ∃ q a' t', run sz ops s = some q ∧ Good sz q a' t' ∧ flat (a' ++ [t']) = contents (flat (a ++ [t])) ops ∧
      q.dead.Perm (s.dead ++ allKilled (flat (a ++ [t])) ops) ∧
      ∀ k, Kept k (flat (a ++ [t])) ops → (locs (a' ++ [t']))[k]? = (locs (a ++ [t]))[k]? := by
  intro ops
  induction ops with
  | nil =>
    intro s a t G _
    exact ⟨s, a, t, rfl, G, rfl, by simp [allKilled], fun _ _ => rfl⟩
  | cons o ops ih =>
    rintro s a t G ⟨ho, hos⟩
    obtain ⟨q, a', t', h, G', hf, hd, hl⟩ := doOp_good hsz h2 G o ho
    obtain ⟨q2, a2, t2, h', G2, hf2, hd2, hl2⟩ := ih G' (by rw [hf]; exact hos)
    refine ⟨q2, a2, t2, by rw [run, h]; exact h', G2, by rw [hf2, hf]; rfl, ?_, ?_⟩
    · refine hd2.trans ?_
      rw [allKilled, ← List.append_assoc, hf]
      exact hd.append_right _
    · rintro k ⟨hk, hk2⟩
      have hk3 : k < (after (flat (a ++ [t])) o).length := by
        cases ops with
        | nil => exact hk2
        | cons _ _ => exact hk2.1
      rw [hl2 k (by rw [hf]; exact hk2)]
      rcases hl with rfl | hl | hl
      · simp [after] at hk3
      · exact prefix_get? hl (by rw [locs_length]; exact hk)
      · exact (prefix_get? hl (by rw [locs_length, hf]; exact hk3)).symm

end Verif.Seq
