import Verif.Proc.Spec

/-!
# Lemmas about tables
-/

namespace Verif.Proc

theorem get_put (t : Table) (i j : Nat) (e : Option Entry) : (t.put i e).get j = if j = i then e else t.get j := by
  unfold Table.put Table.get
  simp only [List.getD_eq_getElem?_getD]
  by_cases h : j = i
  · subst h
    rw [if_pos rfl, List.getElem?_set_self]
    · rfl
    · simp; omega
  · rw [if_neg h, List.getElem?_set_ne (Ne.symm h), List.getElem?_append]
    split
    · rfl
    · rename_i h1
      rw [List.getElem?_eq_none (Nat.le_of_not_lt h1), List.getElem?_replicate]
      split <;> rfl

theorem get_lowest (t : Table) : t.get t.lowest = none := by
  unfold Table.get Table.lowest
  rw [List.getD_eq_getElem?_getD]
  by_cases h : t.findIdx (fun e => e.isNone) < t.length
  · have := List.findIdx_getElem (w := h)
    rw [List.getElem?_eq_getElem h]
    simpa using this
  · rw [List.getElem?_eq_none (Nat.le_of_not_lt h)]; rfl

theorem get_execed (t : Table) (i : Nat) : t.execed.get i = inherited (t.get i) := by
  unfold Table.execed Table.get
  rw [List.getD_eq_getElem?_getD, List.getD_eq_getElem?_getD, List.getElem?_map]
  cases t[i]? with
  | none => rfl
  | some e => cases e <;> rfl

theorem close_some {t t' : Table} {fd : Nat} (h : t.close fd = some t') : t' = t.put fd none ∧ t.get fd ≠ none := by
  unfold Table.close at h
  split at h
  · cases h
  · rename_i e he
    cases h
    exact ⟨rfl, by rw [he]; simp⟩

theorem close_eq {t : Table} {fd : Nat} (h : t.get fd ≠ none) : t.close fd = some (t.put fd none) := by
  unfold Table.close
  split
  · rename_i e; exact absurd e h
  · rfl

theorem dup2_eq {t : Table} {a b : Nat} {e : Entry} (h : t.get a = some e) (hab : a ≠ b) :
    t.dup2 a b = some (t.put b (some ⟨e.file, false⟩)) := by
  unfold Table.dup2
  rw [h]
  dsimp only
  rw [if_neg hab]

theorem childSide_spec {t : Table} {f : Fds} {a b c : Entry} (ha : t.get f.in0 = some a) (hb : t.get f.out1 = some b)
    (hc : t.get f.err1 = some c) (h1 : 3 ≤ f.in0) (h2 : 3 ≤ f.out1) (h3 : 3 ≤ f.err1) (d1 : f.in0 ≠ f.out1)
    (d2 : f.in0 ≠ f.err1) : ∃ t', childSide t f = some t' ∧ t'.get 0 = some ⟨a.file, false⟩ ∧
      t'.get 1 = some ⟨b.file, false⟩ ∧ t'.get 2 = some ⟨c.file, false⟩ ∧
      ∀ i, 3 ≤ i → t'.get i = if i = f.in0 ∨ i = f.out1 ∨ i = f.err1 then none else inherited (t.get i) := by
  unfold childSide
  rw [dup2_eq ha (by omega)]
  simp only [Option.bind_eq_bind, Option.bind_some]
  rw [close_eq (by rw [get_put, if_neg (by omega), ha]; simp)]
  simp only [Option.bind_some]
  rw [dup2_eq (e := b) (by rw [get_put, if_neg (Ne.symm d1), get_put, if_neg (by omega), hb]) (by omega)]
  simp only [Option.bind_some]
  by_cases hd : f.out1 = f.err1
  · rw [if_neg (by simpa using hd)]
    rw [dup2_eq (e := c) (by
      rw [get_put, if_neg (by omega), get_put, if_neg (Ne.symm d2), get_put, if_neg (by omega), hc]) (by omega)]
    simp only [Option.bind_some]
    rw [close_eq (by
      rw [get_put, if_neg (by omega), get_put, if_neg (by omega), get_put, if_neg (Ne.symm d2), get_put,
        if_neg (by omega), hc]; simp)]
    simp only [Option.bind_some]
    refine ⟨_, rfl, ?_, ?_, ?_, ?_⟩
    · rw [get_execed]; simp only [get_put]
      rw [if_neg (by omega), if_neg (by omega), if_neg (by omega), if_neg (by omega), if_pos trivial]; rfl
    · rw [get_execed]; simp only [get_put]
      rw [if_neg (by omega), if_neg (by omega), if_pos trivial]; rfl
    · rw [get_execed]; simp only [get_put]
      rw [if_neg (by omega), if_pos trivial]; rfl
    · intro i hi
      rw [get_execed]; simp only [get_put]
      by_cases e1 : i = f.err1
      · rw [if_pos e1, if_pos (by omega)]; rfl
      · rw [if_neg e1, if_neg (by omega), if_neg (by omega)]
        by_cases e2 : i = f.in0
        · rw [if_pos e2, if_pos (by omega)]; rfl
        · rw [if_neg e2, if_neg (by omega), if_neg (by omega)]
  · rw [if_pos hd]
    rw [close_eq (by
      rw [get_put, if_neg (by omega), get_put, if_neg (by omega), get_put, if_neg (by omega), hb]; simp)]
    simp only [Option.bind_some]
    rw [dup2_eq (e := c) (by
      rw [get_put, if_neg (by omega), get_put, if_neg (by omega), get_put, if_neg (by omega), get_put,
        if_neg (by omega), hc]) (by omega)]
    simp only [Option.bind_some]
    rw [close_eq (by
      rw [get_put, if_neg (by omega), get_put, if_neg (by omega), get_put, if_neg (by omega), get_put,
        if_neg (by omega), get_put, if_neg (by omega), hc]; simp)]
    simp only [Option.bind_some]
    refine ⟨_, rfl, ?_, ?_, ?_, ?_⟩
    · rw [get_execed]; simp only [get_put]
      rw [if_neg (by omega), if_neg (by omega), if_neg (by omega), if_neg (by omega), if_neg (by omega), if_pos trivial]; rfl
    · rw [get_execed]; simp only [get_put]
      rw [if_neg (by omega), if_neg (by omega), if_neg (by omega), if_pos trivial]; rfl
    · rw [get_execed]; simp only [get_put]
      rw [if_neg (by omega), if_pos trivial]; rfl
    · intro i hi
      rw [get_execed]; simp only [get_put]
      by_cases e1 : i = f.err1
      · rw [if_pos e1, if_pos (by omega)]; rfl
      · rw [if_neg e1, if_neg (by omega)]
        by_cases e3 : i = f.out1
        · rw [if_pos e3, if_pos (by omega)]; rfl
        · rw [if_neg e3, if_neg (by omega)]
          by_cases e2 : i = f.in0
          · rw [if_pos e2, if_pos (by omega)]; rfl
          · rw [if_neg e2, if_neg (by omega), if_neg (by omega)]

theorem parentSide_spec {s : Sys} {f : Fds} (ha : s.table.get f.in0 ≠ none) (hb : s.table.get f.out1 ≠ none)
    (hc : s.table.get f.err1 ≠ none) (d1 : f.in0 ≠ f.out1) (d2 : f.in0 ≠ f.err1) :
    ∃ s', parentSide s f = some (s', ⟨f.in1, f.out0, f.err0⟩) ∧ s'.limit = s.limit ∧ s'.pipes = s.pipes ∧
      s'.nullIn = s.nullIn ∧ s'.nullOut = s.nullOut ∧
      ∀ i, s'.table.get i = if i = f.in0 ∨ i = f.out1 ∨ i = f.err1 then none else s.table.get i := by
  unfold parentSide
  rw [close_eq ha]
  simp only [Option.bind_eq_bind, Option.bind_some]
  rw [close_eq (by rw [get_put, if_neg (Ne.symm d1)]; exact hb)]
  simp only [Option.bind_some]
  by_cases hd : f.out1 = f.err1
  · rw [if_neg (by simpa using hd)]
    refine ⟨_, rfl, rfl, rfl, rfl, rfl, fun i => ?_⟩
    dsimp only
    rw [get_put, get_put]
    by_cases e1 : i = f.out1
    · rw [if_pos e1, if_pos (by omega)]
    · rw [if_neg e1]
      by_cases e2 : i = f.in0
      · rw [if_pos e2, if_pos (by omega)]
      · rw [if_neg e2, if_neg (by omega)]
  · rw [if_pos hd]
    rw [close_eq (by rw [get_put, if_neg (by omega), get_put, if_neg (by omega)]; exact hc)]
    refine ⟨_, rfl, rfl, rfl, rfl, rfl, fun i => ?_⟩
    dsimp only
    rw [get_put, get_put, get_put]
    by_cases e1 : i = f.err1
    · rw [if_pos e1, if_pos (by omega)]
    · rw [if_neg e1]
      by_cases e3 : i = f.out1
      · rw [if_pos e3, if_pos (by omega)]
      · rw [if_neg e3]
        by_cases e2 : i = f.in0
        · rw [if_pos e2, if_pos (by omega)]
        · rw [if_neg e2, if_neg (by omega)]

end Verif.Proc
