import Verif.Seq.LemmasPop

/-! # Lemmas: positions, iteration and observers of sequences -/
namespace Verif.Seq

variable {α : Type}

theorem Rep.block {sz : Nat} {s : St α} {a0 : List (E α)} {t0 : E α} (R : Rep sz s a0 t0)
    {pre rest : List (E α)} {e : E α} (he : a0 ++ [t0] = pre ++ e :: rest) :
    s.heap e.id = some ⟨e.cap, e.items, firstId none rest, lastId none pre, sz * (flat pre).length⟩ := by
  have h := R.seg
  rw [he] at h
  have := (seg_append.1 h).2.1
  simpa using this

/-- A position before the `k`th item: never at the end of a block that is not the last one. -/
def Pos (es : List (E α)) (c : Cur) (k : Nat) : Prop :=
  ∃ pre e rest, es = pre ++ e :: rest ∧ c = ⟨e.id, c.idx⟩ ∧ k = (flat pre).length + c.idx ∧
    (c.idx < e.items.length ∨ c.idx = e.items.length ∧ rest = [])

theorem Good.nonempty_rest {sz : Nat} {s : St α} {a0 : List (E α)} {t0 : E α} (G : Good sz s a0 t0)
    {pre rest : List (E α)} {e : E α} (he : a0 ++ [t0] = pre ++ e :: rest) : ∀ x ∈ rest, x.items ≠ [] := by
  intro x hx
  have hm : x ∈ a0 ++ [t0] := by rw [he]; simp [hx]
  rcases List.mem_append.1 hm with h | h
  · exact G.toRep.nonempty x h
  · simp at h
    subst h
    refine G.last ?_
    rintro rfl
    have := congrArg List.length he
    have : 0 < rest.length := List.length_pos_of_mem hx
    simp at *
    omega

theorem Good.nonempty_pre {sz : Nat} {s : St α} {a0 : List (E α)} {t0 : E α} (G : Good sz s a0 t0)
    {pre rest : List (E α)} {e : E α} (he : a0 ++ [t0] = pre ++ e :: rest) : ∀ x ∈ pre, x.items ≠ [] := by
  intro x hx
  obtain ⟨p1, p2, rfl⟩ := List.append_of_mem hx
  have hm : x ∈ a0 := by
    have h1 : a0 = (p1 ++ x :: p2) ++ (e :: rest).dropLast := by
      have := congrArg List.dropLast he
      rw [List.dropLast_concat, List.dropLast_append_of_ne_nil (by simp)] at this
      exact this
    rw [h1]; simp
  exact G.toRep.nonempty x hm

theorem pos_le {es : List (E α)} {c : Cur} {k : Nat} (h : Pos es c k) : k ≤ (flat es).length := by
  obtain ⟨pre, e, rest, rfl, _, rfl, hi⟩ := h
  simp only [flat_append, flat_cons, List.length_append]
  omega

theorem deref_pos {sz : Nat} {s : St α} {a0 : List (E α)} {t0 : E α} (R : Rep sz s a0 t0) {c : Cur} {k : Nat}
    (h : Pos (a0 ++ [t0]) c k) : deref s c = (flat (a0 ++ [t0]))[k]? := by
  obtain ⟨pre, e, rest, he, hc, rfl, hi⟩ := h
  unfold deref
  rw [hc, R.block he, he, flat_append, flat_cons]
  dsimp only
  rw [List.getElem?_append_right (by omega), Nat.add_sub_cancel_left]
  rcases hi with hi | ⟨hi, rfl⟩
  · rw [List.getElem?_append_left hi]
  · simp [flat]

theorem inc_pos {sz : Nat} {s : St α} {a0 : List (E α)} {t0 : E α} (G : Good sz s a0 t0) {c : Cur} {k : Nat}
    (h : Pos (a0 ++ [t0]) c k) (hk : k < (flat (a0 ++ [t0])).length) :
    ∃ c', inc s c = some c' ∧ Pos (a0 ++ [t0]) c' (k + 1) := by
  obtain ⟨pre, e, rest, he, hc, rfl, hi⟩ := h
  have hb := G.toRep.block he
  have hlt : c.idx < e.items.length := by
    rcases hi with hi | ⟨hi, rfl⟩
    · exact hi
    · rw [he, flat_append, flat_cons] at hk
      simp [flat] at hk
      omega
  unfold inc
  rw [hc, hb]
  dsimp only
  rw [if_pos hlt]
  by_cases h1 : c.idx + 1 = e.items.length
  · rw [if_pos h1]
    unfold jumpNext
    cases rest with
    | nil =>
      refine ⟨⟨e.id, c.idx + 1⟩, rfl, pre, e, [], he, rfl, rfl, Or.inr ⟨h1, rfl⟩⟩
    | cons e2 rest =>
      have he2 : a0 ++ [t0] = (pre ++ [e]) ++ e2 :: rest := by rw [he]; simp
      dsimp only [firstId]
      rw [G.toRep.block he2]
      have hne := G.nonempty_rest he e2 List.mem_cons_self
      refine ⟨⟨e2.id, 0⟩, rfl, pre ++ [e], e2, rest, he2, rfl, ?_, Or.inl (List.length_pos_iff.2 hne)⟩
      rw [Rep.flat_eq, List.length_append]
      dsimp only
      omega
  · rw [if_neg h1]
    exact ⟨_, rfl, pre, e, rest, he, rfl, rfl, Or.inl (by dsimp only; omega)⟩

theorem read_pos {sz : Nat} {s : St α} {a0 : List (E α)} {t0 : E α} (G : Good sz s a0 t0) {c : Cur} {k : Nat}
    (h : Pos (a0 ++ [t0]) c k) (hk : k < (flat (a0 ++ [t0])).length) :
    ∃ c', read s c = some ((flat (a0 ++ [t0]))[k], c') ∧ inc s c = some c' := by
  obtain ⟨c', h1, _⟩ := inc_pos G h hk
  refine ⟨c', ?_, h1⟩
  have h2 := deref_pos G.toRep h
  rw [List.getElem?_eq_getElem hk] at h2
  unfold deref at h2
  unfold inc at h1
  unfold read
  cases hb : s.heap c.block with
  | none => rw [hb] at h2; cases h2
  | some b =>
    rw [hb] at h1 h2
    dsimp only at h1 h2 ⊢
    rw [h2]
    dsimp only
    split at h1
    · split at h1
      · rw [if_pos (by assumption), h1]
      · rw [if_neg (by assumption), Option.some.inj h1]
    · cases h1

theorem dec_pos {sz : Nat} {s : St α} {a0 : List (E α)} {t0 : E α} (G : Good sz s a0 t0) {c : Cur} {k : Nat}
    (h : Pos (a0 ++ [t0]) c (k + 1)) : ∃ c', dec s c = some c' ∧ Pos (a0 ++ [t0]) c' k := by
  obtain ⟨pre, e, rest, he, hc, hk, hi⟩ := h
  have hb := G.toRep.block he
  unfold dec
  rw [hc, hb]
  dsimp only
  by_cases h0 : c.idx = 0
  · rw [if_pos h0]
    have hp : pre ≠ [] := by
      rintro rfl
      simp [flat] at hk
      omega
    obtain ⟨pre', e', rfl⟩ := exists_last hp
    rw [lastId_snoc]
    dsimp only
    have he2 : a0 ++ [t0] = pre' ++ e' :: e :: rest := by rw [he]; simp
    rw [G.toRep.block he2]
    dsimp only
    have hne := List.length_pos_iff.2 (G.nonempty_pre he e' (by simp))
    rw [if_neg (by omega)]
    refine ⟨_, rfl, pre', e', e :: rest, he2, rfl, ?_, Or.inl (by dsimp only; omega)⟩
    rw [Rep.flat_eq, List.length_append] at hk
    dsimp only
    omega
  · rw [if_neg h0]
    exact ⟨_, rfl, pre, e, rest, he, rfl, by dsimp only; omega, Or.inl (by dsimp only; omega)⟩

theorem begin_pos {sz : Nat} {s : St α} {a0 : List (E α)} {t0 : E α} (G : Good sz s a0 t0) :
    ∃ c, begin s = some c ∧ Pos (a0 ++ [t0]) c 0 := by
  unfold begin
  rw [G.head]
  cases a0 with
  | nil =>
    refine ⟨⟨t0.id, 0⟩, rfl, [], t0, [], rfl, rfl, rfl, ?_⟩
    rcases Nat.eq_zero_or_pos t0.items.length with h | h
    · exact Or.inr ⟨h.symm, rfl⟩
    · exact Or.inl h
  | cons e a0 =>
    exact ⟨⟨e.id, 0⟩, rfl, [], e, a0 ++ [t0], rfl, rfl, rfl,
      Or.inl (List.length_pos_iff.2 (G.toRep.nonempty e List.mem_cons_self))⟩

theorem end_pos {sz : Nat} {s : St α} {a0 : List (E α)} {t0 : E α} (R : Rep sz s a0 t0) :
    «end» s = some ⟨t0.id, t0.items.length⟩ ∧ Pos (a0 ++ [t0]) ⟨t0.id, t0.items.length⟩ (flat (a0 ++ [t0])).length := by
  constructor
  · unfold «end»
    rw [R.tail_block, R.tail]
  · exact ⟨a0, t0, [], rfl, rfl, by simp [Rep.flat_eq], Or.inr ⟨rfl, rfl⟩⟩

theorem pos_unique {es : List (E α)} {c c' : Cur} {k : Nat} (h : Pos es c k) (h' : Pos es c' k) : c = c' := by
  obtain ⟨pre, e, rest, he, hc, hk, hi⟩ := h
  obtain ⟨pre', e', rest', he', hc', hk', hi'⟩ := h'
  rw [he] at he'
  rcases List.append_eq_append_iff.1 he' with ⟨m, h1, h2⟩ | ⟨m, h1, h2⟩
  · cases m with
    | nil =>
      simp at h1 h2
      rw [h1] at hk'
      rw [hc, hc', h2.1]
      congr 1
      omega
    | cons x m =>
      simp at h2
      obtain ⟨rfl, rfl⟩ := h2
      rw [h1, flat_append, flat_cons] at hk'
      simp only [List.length_append] at hk'
      simp at hi
      omega
  · cases m with
    | nil =>
      simp at h1 h2
      rw [h1] at hk
      rw [hc, hc', h2.1]
      congr 1
      omega
    | cons x m =>
      simp at h2
      obtain ⟨rfl, rfl⟩ := h2
      rw [h1, flat_append, flat_cons] at hk
      simp only [List.length_append] at hk
      simp at hi'
      omega

theorem pos_index {es : List (E α)} (hn : (ids es).Nodup) {c : Cur} {k k' : Nat} (h : Pos es c k)
    (h' : Pos es c k') : k = k' := by
  obtain ⟨pre, e, rest, he, hc, hk, hi⟩ := h
  obtain ⟨pre', e', rest', he', hc', hk', hi'⟩ := h'
  have hid : e.id = e'.id := by
    have h1 := congrArg Cur.block hc
    have h2 := congrArg Cur.block hc'
    exact h1.symm.trans h2
  rw [he] at hn he'
  have key : ∀ {p : List (E α)} {x : E α} {m r : List (E α)} {y : E α}, (ids (p ++ x :: (m ++ y :: r))).Nodup →
      x.id ≠ y.id := by
    intro p x m r y h hxy
    rw [ids_append, List.nodup_append] at h
    have := h.2.1
    simp [ids] at this
    exact this.1.2.1 hxy
  rcases List.append_eq_append_iff.1 he' with ⟨m, h1, h2⟩ | ⟨m, h1, h2⟩
  · cases m with
    | nil => simp at h1; subst h1; omega
    | cons x m =>
      simp at h2
      obtain ⟨rfl, rfl⟩ := h2
      exact absurd hid (key hn)
  · cases m with
    | nil => simp at h1; subst h1; omega
    | cons x m =>
      simp at h2
      obtain ⟨rfl, rfl⟩ := h2
      rw [h1] at hn
      refine absurd hid.symm (key (p := pre') (m := m) (r := rest) ?_)
      simpa using hn

theorem collect_pos {sz : Nat} {s : St α} {a0 : List (E α)} {t0 : E α} (G : Good sz s a0 t0) :
    ∀ (fuel k : Nat) {c e : Cur}, Pos (a0 ++ [t0]) c k → Pos (a0 ++ [t0]) e (flat (a0 ++ [t0])).length →
      (flat (a0 ++ [t0])).length - k < fuel → collect fuel s c e = some ((flat (a0 ++ [t0])).drop k) := by
  intro fuel
  induction fuel with
  | zero => intro k c e _ _ h; omega
  | succ fuel ih =>
    intro k c e hc he hf
    have hle := pos_le hc
    rw [collect]
    rcases Nat.lt_or_ge k (flat (a0 ++ [t0])).length with hk | hk
    · have hne : c ≠ e := by
        rintro rfl
        have := pos_index G.nodup hc he
        omega
      rw [if_neg hne, deref_pos G.toRep hc, List.getElem?_eq_getElem hk]
      obtain ⟨c', h1, h2⟩ := inc_pos G hc hk
      dsimp only
      rw [h1]
      dsimp only
      rw [ih (k + 1) h2 he (by omega)]
      dsimp only
      rw [← List.drop_eq_getElem_cons hk]
    · have : k = (flat (a0 ++ [t0])).length := by omega
      subst this
      rw [if_pos (pos_unique hc he)]
      simp

theorem collectBack_pos {sz : Nat} {s : St α} {a0 : List (E α)} {t0 : E α} (G : Good sz s a0 t0) :
    ∀ (fuel k : Nat) {b e : Cur}, Pos (a0 ++ [t0]) b 0 → Pos (a0 ++ [t0]) e k → k < fuel →
      collectBack fuel s b e = some ((flat (a0 ++ [t0])).take k).reverse := by
  intro fuel
  induction fuel with
  | zero => intro k c e _ _ h; omega
  | succ fuel ih =>
    intro k b e hb he hf
    have hle := pos_le he
    rw [collectBack]
    cases k with
    | zero =>
      rw [if_pos (pos_unique he hb)]
      simp
    | succ k =>
      have hne : e ≠ b := by
        rintro rfl
        have := pos_index G.nodup hb he
        omega
      obtain ⟨e', h1, h2⟩ := dec_pos G he
      rw [if_neg hne, h1]
      dsimp only
      rw [deref_pos G.toRep h2, List.getElem?_eq_getElem (by omega)]
      dsimp only
      rw [ih k hb h2 (by omega)]
      dsimp only
      rw [List.take_succ_eq_append_getElem (show k < _ by omega)]
      rw [List.reverse_append]
      rfl

theorem advance_pos {sz : Nat} {s : St α} {a0 : List (E α)} {t0 : E α} (G : Good sz s a0 t0) :
    ∀ (k j : Nat) {c : Cur}, Pos (a0 ++ [t0]) c j → j + k ≤ (flat (a0 ++ [t0])).length →
      ∃ c', advance s k c = some c' ∧ Pos (a0 ++ [t0]) c' (j + k) := by
  intro k
  induction k with
  | zero => intro j c h _; exact ⟨c, rfl, h⟩
  | succ k ih =>
    intro j c h hk
    obtain ⟨c1, h1, h2⟩ := inc_pos G h (by omega)
    obtain ⟨c2, h3, h4⟩ := ih (j + 1) h2 (by omega)
    refine ⟨c2, ?_, by rw [show j + (k + 1) = j + 1 + k by omega]; exact h4⟩
    rw [advance, h1]
    exact h3

/-- The address of an item. -/
theorem pos_locs {es : List (E α)} {c : Cur} {k : Nat} (h : Pos es c k) (hk : k < (flat es).length) :
    (locs es)[k]? = some c := by
  obtain ⟨pre, e, rest, rfl, hc, rfl, hi⟩ := h
  have hlt : c.idx < e.items.length := by
    rcases hi with hi | ⟨hi, rfl⟩
    · exact hi
    · rw [flat_append, flat_cons] at hk
      simp [flat] at hk
      omega
  rw [locs_append, List.getElem?_append_right (by rw [locs_length]; omega), locs_length, Nat.add_sub_cancel_left,
    show locs (e :: rest) = e.locs ++ locs rest by simp [locs],
    List.getElem?_append_left (by simpa [E.locs] using hlt)]
  simp only [E.locs, List.getElem?_map, List.getElem?_range hlt]
  exact congrArg some hc.symm

/-- The place of an address. -/
theorem locs_pos {es : List (E α)} : ∀ {c : Cur} {k : Nat}, (locs es)[k]? = some c →
    ∃ pre e rest, es = pre ++ e :: rest ∧ c.block = e.id ∧ k = (flat pre).length + c.idx ∧
      c.idx < e.items.length := by
  induction es with
  | nil => intro c k h; simp [locs] at h
  | cons e es ih =>
    intro c k h
    rw [show locs (e :: es) = e.locs ++ locs es by simp [locs]] at h
    have hl : e.locs.length = e.items.length := by simp [E.locs]
    rcases Nat.lt_or_ge k e.items.length with hk | hk
    · rw [List.getElem?_append_left (by omega)] at h
      simp only [E.locs, List.getElem?_map, List.getElem?_range hk, Option.map_some, Option.some.injEq] at h
      subst h
      exact ⟨[], e, es, rfl, rfl, by simp [flat], hk⟩
    · rw [List.getElem?_append_right (by omega), hl] at h
      obtain ⟨pre, x, rest, rfl, h1, h2, h3⟩ := ih h
      refine ⟨e :: pre, x, rest, rfl, h1, ?_, h3⟩
      rw [flat_cons, List.length_append]
      omega

theorem endRead_block {sz : Nat} {s : St α} {a0 : List (E α)} {t0 : E α} (R : Rep sz s a0 t0)
    {pre rest : List (E α)} {e : E α} {idx : Nat} (he : a0 ++ [t0] = pre ++ e :: rest) (hi : idx ≤ e.items.length) :
    endRead s ⟨e.id, idx⟩ (e.items.drop idx).length = some ⟨e.id, e.items.length⟩ := by
  have h1 : idx + (e.items.drop idx).length = e.items.length := by rw [List.length_drop]; omega
  unfold endRead
  dsimp only
  rw [R.block he]
  dsimp only
  rw [if_pos (by omega), h1]

/-- Reading by views from the end of a block. -/
theorem collectViews_end {sz : Nat} {s : St α} {a0 : List (E α)} {t0 : E α} (G : Good sz s a0 t0) :
    ∀ (rest pre : List (E α)) (e : E α) (fuel : Nat), a0 ++ [t0] = pre ++ e :: rest → rest.length + 1 ≤ fuel →
      collectViews fuel s ⟨e.id, e.items.length⟩ = some (flat rest) := by
  intro rest
  induction rest with
  | nil =>
    intro pre e fuel he hf
    obtain ⟨fuel, rfl⟩ : ∃ f, fuel = f + 1 := ⟨fuel - 1, by simp at hf; omega⟩
    rw [collectViews]
    unfold beginRead
    dsimp only
    rw [G.toRep.block he]
    dsimp only
    rw [if_pos rfl]
    rfl
  | cons e2 rest ih =>
    intro pre e fuel he hf
    simp only [List.length_cons] at hf
    have he2 : a0 ++ [t0] = (pre ++ [e]) ++ e2 :: rest := by rw [he]; simp
    obtain ⟨fuel, rfl⟩ : ∃ f, fuel = f + 1 := ⟨fuel - 1, by omega⟩
    rw [collectViews]
    unfold beginRead
    dsimp only
    rw [G.toRep.block he]
    dsimp only
    rw [if_pos rfl]
    dsimp only [firstId]
    rw [G.toRep.block he2]
    dsimp only
    have hne := G.nonempty_rest he e2 List.mem_cons_self
    have hr := endRead_block (idx := 0) G.toRep he2 (Nat.zero_le _)
    have h3 := ih (pre ++ [e]) e2 fuel he2 (by omega)
    rw [List.drop_zero] at hr
    rw [flat_cons]
    cases hd : e2.items with
    | nil => exact absurd hd hne
    | cons x xs =>
      rw [hd] at hr h3
      dsimp only
      rw [hr]
      dsimp only
      rw [h3]

/-- Reading by views, from any position. -/
theorem collectViews_pos {sz : Nat} {s : St α} {a0 : List (E α)} {t0 : E α} (G : Good sz s a0 t0)
    {rest pre : List (E α)} {e : E α} {idx fuel : Nat} (he : a0 ++ [t0] = pre ++ e :: rest)
    (hi : idx ≤ e.items.length) (hf : rest.length + 2 ≤ fuel) :
    collectViews fuel s ⟨e.id, idx⟩ = some (e.items.drop idx ++ flat rest) := by
  rcases Nat.lt_or_ge idx e.items.length with hlt | hge
  · obtain ⟨fuel, rfl⟩ : ∃ f, fuel = f + 1 := ⟨fuel - 1, by omega⟩
    rw [collectViews]
    unfold beginRead
    dsimp only
    rw [G.toRep.block he]
    dsimp only
    rw [if_neg (by omega), if_neg (by omega)]
    have hr := endRead_block G.toRep he hi
    have h3 := collectViews_end G rest pre e fuel he (by omega)
    cases hd : e.items.drop idx with
    | nil =>
      have := congrArg List.length hd
      simp at this
      omega
    | cons x xs =>
      rw [hd] at hr
      dsimp only
      rw [hr]
      dsimp only
      rw [h3]
  · have : idx = e.items.length := by omega
    subst this
    rw [collectViews_end G rest pre e fuel he (by omega)]
    simp

theorem totalLoop_spec {sz : Nat} {h : Heap α} : ∀ (es : List (E α)) (fuel : Nat) {p : Option Nat} {fo : Nat},
    Seg sz h p fo none es → es.length ≤ fuel →
    totalLoop sz fuel h (firstId none es) = some (sz * (flat es).length) := by
  intro es
  induction es with
  | nil => intro fuel p fo _ _; cases fuel <;> simp [totalLoop, firstId, flat]
  | cons e es ih =>
    intro fuel p fo hs hf
    simp only [List.length_cons] at hf
    obtain ⟨fuel, rfl⟩ : ∃ f, fuel = f + 1 := ⟨fuel - 1, by omega⟩
    dsimp only [firstId]
    rw [totalLoop, hs.1]
    dsimp only
    rw [ih fuel hs.2 (by omega)]
    dsimp only
    rw [used_mk, flat_cons, List.length_append, Nat.mul_add]

theorem viewsLoop_spec {sz : Nat} {h : Heap α} : ∀ (es : List (E α)) (e : E α) (fuel : Nat) {p : Option Nat} {fo : Nat},
    Seg sz h p fo none (e :: es) → es.length < fuel → sz * (flat (e :: es)).length < 2 ^ 32 →
    viewsLoop sz fuel h e.id 0 = some (flat (e :: es)) := by
  intro es
  induction es with
  | nil =>
    intro e fuel p fo hs hf _
    obtain ⟨fuel, rfl⟩ : ∃ f, fuel = f + 1 := ⟨fuel - 1, by omega⟩
    rw [viewsLoop, hs.1]
    dsimp only [firstId]
    rw [if_neg (by simp)]
    simp [flat]
  | cons e2 es ih =>
    intro e fuel p fo hs hf hl
    simp only [List.length_cons] at hf
    obtain ⟨fuel, rfl⟩ : ∃ f, fuel = f + 1 := ⟨fuel - 1, by omega⟩
    rw [flat_cons, List.length_append, Nat.mul_add] at hl
    rw [viewsLoop, hs.1]
    dsimp only [firstId]
    rw [if_neg (by simp), hs.2.1]
    dsimp only
    rw [used_mk, used_mk, Nat.add_sub_cancel_left, Nat.sub_self, if_neg (by omega), ih e2 fuel hs.2 (by omega) (by omega)]
    dsimp only
    rw [Nat.zero_div, List.drop_zero, flat_cons e]

theorem moveToArray_spec {sz : Nat} (hsz : 0 < sz) {s : St α} {a : List (E α)} {t : E α} (R : Rep sz s a t)
    (hl : sz * (flat (a ++ [t])).length < 2 ^ 32) :
    ∃ q, moveToArray sz s = some (flat (a ++ [t]), q) ∧ (∀ j, q.heap j = none) ∧ q.dead = s.dead ∧ q.head = none := by
  unfold moveToArray
  rw [R.head]
  cases a with
  | nil =>
    have hs : s.heap t.id = _ := R.seg.1
    dsimp only [List.nil_append, firstId]
    rw [hs]
    dsimp only [firstId]
    rw [show flat [t] = t.items by simp [flat]]
    refine ⟨_, rfl, ?_, rfl, rfl⟩
    intro j
    dsimp only
    by_cases hj : j = t.id
    · rw [hj, set_same]
    · rw [set_other _ _ hj]
      exact R.dom j (by simpa [ids] using hj)
  | cons e a =>
    have hs : s.heap e.id = some ⟨e.cap, e.items, firstId none (a ++ [t]), none, 0⟩ := R.seg.1
    have hlen := R.length_le
    have hv := viewsLoop_spec (a ++ [t]) e (s.fresh + 1) R.seg (by simp at hlen ⊢; omega) hl
    obtain ⟨h', g1, g2, g3⟩ := freeChain_spec (e :: a ++ [t]) (s.fresh + 1) s.heap (by omega) R.nodup (seg_nx R.seg)
    dsimp only [List.cons_append, firstId] at g1 g2 g3 hl ⊢
    rw [hs]
    dsimp only
    obtain ⟨n, hn⟩ : ∃ n, firstId none (a ++ [t]) = some n := by cases a <;> exact ⟨_, rfl⟩
    rw [hn]
    dsimp only
    rw [hv]
    dsimp only
    rw [if_neg (by omega), g1]
    dsimp only
    rw [Nat.mul_div_cancel_left _ hsz, List.take_length]
    refine ⟨_, rfl, ?_, rfl, rfl⟩
    intro j
    dsimp only
    by_cases hj : j ∈ ids (e :: a ++ [t])
    · exact g2 j hj
    · rw [g3 j hj]; exact R.dom j hj

theorem headItem_spec {sz : Nat} {s : St α} {a : List (E α)} {t : E α} (R : Rep sz s a t) :
    headItem s = (flat (a ++ [t])).head? ∧ isEmpty s = some (flat (a ++ [t])).isEmpty := by
  unfold headItem isEmpty
  rw [R.head]
  cases a with
  | nil =>
    have hs : s.heap t.id = _ := R.seg.1
    dsimp only [List.nil_append, firstId]
    rw [hs]
    simp [flat]
  | cons e a =>
    have hs := R.seg.1
    have hne := R.nonempty e List.mem_cons_self
    dsimp only [List.cons_append, firstId]
    rw [hs]
    dsimp only
    rw [flat_cons]
    cases he : e.items with
    | nil => exact absurd he hne
    | cons x xs => simp

theorem tailItem_spec {sz : Nat} {s : St α} {a : List (E α)} {t : E α} (G : Good sz s a t) :
    tailItem s = (flat (a ++ [t])).getLast? := by
  unfold tailItem
  rw [G.tail_block, Rep.flat_eq]
  dsimp only
  cases a with
  | nil => simp [flat]
  | cons e a =>
    have := G.last (by simp)
    rw [List.getLast?_append]
    cases hl : t.items.getLast? with
    | none => exact absurd (List.getLast?_eq_none_iff.1 hl) this
    | some x => rfl

end Verif.Seq
