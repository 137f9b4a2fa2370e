import Verif.Seq.LemmasRun

/-!
# C73 — Sequences of items in linked blocks behave like lists

The type of the items is `α` and their size `sz`, between 1 and 2048 bytes (the size of a block).
-/
namespace Verif.Seq

variable {α : Type}

/-- After any allowed operations the sequence can be iterated with range-for, backwards with `--`, and by views;
all give the items that the same operations give for a list.  `isEmpty`, `head` and `tail` agree, and what was
destructed is exactly what was removed by `popTail` and `clear`, nothing twice. -/
theorem C73_contents {sz : Nat} (hsz : 0 < sz) (h2 : sz ≤ 2048) (ops : List (Op α)) (h : AllAllowed sz [] ops) :
    ∃ s b e, run sz ops create = some s ∧ begin s = some b ∧ «end» s = some e ∧
      (∀ fuel, (contents [] ops).length < fuel → collect fuel s b e = some (contents [] ops)) ∧
      (∀ fuel, (contents [] ops).length < fuel → collectBack fuel s b e = some (contents [] ops).reverse) ∧
      (∀ fuel, s.fresh < fuel → collectViews fuel s b = some (contents [] ops)) ∧
      isEmpty s = some (contents [] ops).isEmpty ∧ headItem s = (contents [] ops).head? ∧
      tailItem s = (contents [] ops).getLast? ∧ s.dead.Perm (allKilled [] ops) := by
  obtain ⟨s, a, t, h1, G, hf, hd, _⟩ := run_good hsz h2 ops (create_good h2) h
  have hc : flat (a ++ [t]) = contents [] ops := hf
  obtain ⟨b, hb, hbp⟩ := begin_pos G
  obtain ⟨he, hep⟩ := end_pos G.toRep
  refine ⟨s, b, _, h1, hb, he, ?_, ?_, ?_, ?_, ?_, ?_, ?_⟩
  · intro fuel hfu
    have := collect_pos G fuel 0 hbp hep (by rw [hc]; omega)
    rw [this, hc]; rfl
  · intro fuel hfu
    have := collectBack_pos G fuel _ hbp hep (by rw [hc]; omega)
    rw [this, List.take_length, hc]
  · intro fuel hfu
    obtain ⟨pre, e, rest, hes, hbe, hk, hi⟩ := hbp
    have hlen := G.toRep.length_le
    rw [hes] at hlen
    simp at hlen
    have hp : flat pre = [] := List.length_eq_zero_iff.1 (by omega)
    have hidx : b.idx = 0 := by omega
    rw [hbe, collectViews_pos G hes (by omega) (by omega), hidx, ← hc, hes, flat_append, hp, flat_cons]
    rfl
  · rw [(headItem_spec G.toRep).2, hc]
  · rw [(headItem_spec G.toRep).1, hc]
  · rw [tailItem_spec G, hc]
  · exact hd

example : AllAllowed (α := Nat) 8 [] [.append 1, .write [2, 3, 4], .pop 2, .append 5, .truncate 2, .append 6] ∧
    contents (α := Nat) [] [.append 1, .write [2, 3, 4], .pop 2, .append 5, .truncate 2, .append 6] = [1, 2, 6] ∧
    allKilled (α := Nat) [] [.append 1, .write [2, 3, 4], .pop 2, .append 5, .truncate 2, .append 6] = [3, 4] := by
  refine ⟨?_, rfl, rfl⟩
  simp [AllAllowed, Allowed, after]

/-- Two blocks: items of 1000 bytes. -/
example : ((run 1000 [.write [1, 2, 3], .pop 2, .write [4, 5, 6, 7]] (create : St Nat)).bind fun s =>
    (begin s).bind fun b => («end» s).bind fun e => collect 10 s b e) = some [1, 4, 5, 6, 7] := by decide +kernel

/-- `numItems` gives the number of items, as long as they fill less than 4 GB. -/
theorem C73_count {sz : Nat} (hsz : 0 < sz) (h2 : sz ≤ 2048) (ops : List (Op α)) (h : AllAllowed sz [] ops) :
    ∃ s, run sz ops create = some s ∧
      numItems sz s = some (sz * (contents [] ops).length % 2 ^ 32 / sz) ∧
      (sz * (contents [] ops).length < 2 ^ 32 → numItems sz s = some (contents [] ops).length) := by
  obtain ⟨s, a, t, h1, G, hf, _⟩ := run_good hsz h2 ops (create_good h2) h
  have hc : flat (a ++ [t]) = contents [] ops := hf
  have hn : numItems sz s = some (sz * (contents [] ops).length % 2 ^ 32 / sz) := by
    unfold numItems
    rw [G.head, totalLoop_spec _ _ G.seg G.toRep.length_le, hc]
  refine ⟨s, h1, hn, fun hl => ?_⟩
  rw [hn, Nat.mod_eq_of_lt hl, Nat.mul_div_cancel_left _ hsz]

example : ((run 1000 [.write [1, 2, 3], .pop 2, .write [4, 5, 6, 7]] (create : St Nat)).bind fun s =>
    numItems 1000 s) = some 5 := by decide +kernel

/-- A sequence of 2³² / `sz` items (or a multiple) is counted as empty, although it is not. -/
theorem C73_count_wraps {sz : Nat} (hsz : 0 < sz) (h2 : sz ≤ 2048) (xs : List α) (hne : xs ≠ [])
    (hx : sz * xs.length % 2 ^ 32 = 0) :
    ∃ s, run sz [.write xs] create = some s ∧ numItems sz s = some 0 ∧ isEmpty s = some false := by
  obtain ⟨s, h1, hn, _⟩ := C73_count hsz h2 [.write xs] (by simp [AllAllowed, Allowed])
  obtain ⟨s', _, _, h1', _, _, _, _, _, he, _⟩ := C73_contents hsz h2 [.write xs] (by simp [AllAllowed, Allowed])
  rw [h1] at h1'
  cases h1'
  refine ⟨s, h1, ?_, ?_⟩
  · rw [hn]
    simp [contents, after, hx]
  · rw [he]
    cases xs with
    | nil => exact absurd rfl hne
    | cons x xs => rfl

example : (1024 : Nat) * (List.replicate (2 ^ 22) 'a').length % 2 ^ 32 = 0 := by rw [List.length_replicate]

/-- `append` returns the address of the new item, which is the last one. -/
theorem C73_append {sz : Nat} (hsz : 0 < sz) (h2 : sz ≤ 2048) (ops : List (Op α)) (h : AllAllowed sz [] ops) (x : α) :
    ∃ s q b c, run sz ops create = some s ∧ append sz s x = some (q, c) ∧ deref q c = some x ∧
      begin q = some b ∧ advance q (contents [] ops).length b = some c := by
  obtain ⟨s, a, t, h1, G, hf, _⟩ := run_good hsz h2 ops (create_good h2) h
  have hc : flat (a ++ [t]) = contents [] ops := hf
  obtain ⟨q, c, a', t', h3, G', hf', _, hl, _⟩ := append_good G.toRep hsz h2 x
  obtain ⟨b, hb, hbp⟩ := begin_pos G'
  have hlen : (flat (a' ++ [t'])).length = (contents [] ops).length + 1 := by rw [hf', hc]; simp
  obtain ⟨c', h4, hp⟩ := advance_pos G' (contents [] ops).length 0 hbp (by omega)
  rw [Nat.zero_add] at hp
  have h5 := pos_locs hp (by omega)
  rw [hl, List.getElem?_append_right (by rw [locs_length, hc]; omega), locs_length, hc, Nat.sub_self] at h5
  simp at h5
  subst h5
  refine ⟨s, q, b, c, h1, h3, ?_, hb, h4⟩
  rw [deref_pos G'.toRep hp, hf', hc]
  simp

example : ((run 1000 [.write [1, 2]] (create : St Nat)).bind fun s => append 1000 s 3).map (·.2) =
    some ⟨1, 0⟩ := by decide +kernel

/-- Items do not move: an item that is not removed by any of the later operations keeps its address. -/
theorem C73_stable {sz : Nat} (hsz : 0 < sz) (h2 : sz ≤ 2048) (ops later : List (Op α))
    (h : AllAllowed sz [] (ops ++ later)) (k : Nat) (hk : Kept k (contents [] ops) later) :
    ∃ s q b b' c, run sz ops create = some s ∧ run sz later s = some q ∧ begin s = some b ∧ begin q = some b' ∧
      advance s k b = some c ∧ advance q k b' = some c ∧ deref s c = (contents [] ops)[k]? ∧
      deref q c = (contents [] (ops ++ later))[k]? := by
  have hsplit : ∀ (o1 : List (Op α)) (l : List α), AllAllowed sz l (o1 ++ later) →
      AllAllowed sz l o1 ∧ AllAllowed sz (contents l o1) later := by
    intro o1
    induction o1 with
    | nil => intro l hl; exact ⟨trivial, hl⟩
    | cons o o1 ih =>
      rintro l ⟨ha, hb⟩
      exact ⟨⟨ha, (ih _ hb).1⟩, (ih _ hb).2⟩
  have hcont : ∀ (o1 : List (Op α)) (l : List α), contents l (o1 ++ later) = contents (contents l o1) later := by
    intro o1
    induction o1 with
    | nil => intro l; rfl
    | cons o o1 ih => intro l; exact ih _
  have hkept : ∀ (o1 : List (Op α)) (l : List α), Kept k l o1 → k < l.length ∧ k < (contents l o1).length := by
    intro o1
    induction o1 with
    | nil => intro l hl; exact ⟨hl, hl⟩
    | cons o o1 ih => rintro l ⟨ha, hb⟩; exact ⟨ha, (ih _ hb).2⟩
  obtain ⟨s, a, t, h1, G, hf, _⟩ := run_good hsz h2 ops (create_good h2) (hsplit ops [] h).1
  have hc : flat (a ++ [t]) = contents [] ops := hf
  obtain ⟨q, a', t', h3, G', hf', _, hl⟩ := run_good hsz h2 later G (by rw [hc]; exact (hsplit ops [] h).2)
  rw [hc] at hf' hl
  obtain ⟨b, hb, hbp⟩ := begin_pos G
  obtain ⟨b', hb', hbp'⟩ := begin_pos G'
  obtain ⟨hk1, hk2⟩ := hkept later _ hk
  obtain ⟨c, h4, hp⟩ := advance_pos G k 0 hbp (by rw [hc]; omega)
  obtain ⟨c', h4', hp'⟩ := advance_pos G' k 0 hbp' (by rw [hf']; omega)
  rw [Nat.zero_add] at hp hp'
  have e1 := pos_locs hp (by rw [hc]; omega)
  have e2 := pos_locs hp' (by rw [hf']; omega)
  rw [hl k hk, e1] at e2
  cases e2
  exact ⟨s, q, b, b', c, h1, h3, hb, hb', h4, h4', by rw [deref_pos G.toRep hp, hc],
    by rw [deref_pos G'.toRep hp', hf', hcont]⟩

example : Kept (α := Nat) 1 (contents [] [.write [1, 2, 3]]) [.write [4, 5, 6], .pop 4, .append 7] := by
  simp [Kept, contents, after]

/-- At the end of its life a sequence destructs the items it has left, each once, and frees every block. -/
theorem C73_destructed {sz : Nat} (hsz : 0 < sz) (h2 : sz ≤ 2048) (ops : List (Op α)) (h : AllAllowed sz [] ops) :
    ∃ s q, run sz ops create = some s ∧ destruct s = some q ∧ (∀ i, q.heap i = none) ∧
      q.dead.Perm (allKilled [] ops ++ contents [] ops) := by
  obtain ⟨s, a, t, h1, G, hf, hd, _⟩ := run_good hsz h2 ops (create_good h2) h
  have hc : flat (a ++ [t]) = contents [] ops := hf
  obtain ⟨q, h3, h4, h5, _⟩ := destruct_spec G.toRep
  refine ⟨s, q, h1, h3, h4, ?_⟩
  rw [h5, hc]
  exact List.Perm.append_right _ hd

example : ((run 1000 [.write [1, 2, 3], .pop 2, .write [4, 5, 6, 7]] (create : St Nat)).bind destruct).map (·.dead) =
    some [3, 2, 1, 4, 5, 6, 7] := by decide +kernel

/-- `truncate` destructs nothing: the items behind the position are lost without their destructors. -/
theorem C73_truncate_leaks {sz : Nat} (hsz : 0 < sz) (h2 : sz ≤ 2048) (xs : List α) :
    ∃ s q, run sz [.write xs, .truncate 0] create = some s ∧ destruct s = some q ∧ q.dead = [] ∧
      ∀ i, q.heap i = none := by
  obtain ⟨s, q, h1, h3, h4, h5⟩ := C73_destructed hsz h2 [.write xs, .truncate 0] (by simp [AllAllowed, Allowed, after])
  refine ⟨s, q, h1, h3, ?_, h4⟩
  have := h5.length_eq
  simp [allKilled, killed, contents, after] at this
  exact this

example : (run 1000 [.write [1, 2, 3], .truncate 0] (create : St Nat)).isSome = true := by decide +kernel

/-- `moveToArray` gives the items in order, frees every block and destructs nothing; the items must fill less
than 4 GB. -/
theorem C73_array {sz : Nat} (hsz : 0 < sz) (h2 : sz ≤ 2048) (ops : List (Op α)) (h : AllAllowed sz [] ops)
    (hl : sz * (contents [] ops).length < 2 ^ 32) :
    ∃ s q, run sz ops create = some s ∧ moveToArray sz s = some (contents [] ops, q) ∧ (∀ i, q.heap i = none) ∧
      q.dead.Perm (allKilled [] ops) := by
  obtain ⟨s, a, t, h1, G, hf, hd, _⟩ := run_good hsz h2 ops (create_good h2) h
  have hc : flat (a ++ [t]) = contents [] ops := hf
  obtain ⟨q, h3, h4, h5, _⟩ := moveToArray_spec hsz G.toRep (by rw [hc]; exact hl)
  rw [hc] at h3
  exact ⟨s, q, h1, h3, h4, by rw [h5]; exact hd⟩

example : ((run 1000 [.write [1, 2, 3], .pop 2, .write [4, 5, 6, 7]] (create : St Nat)).bind (moveToArray 1000)).map
    (·.1) = some [1, 4, 5, 6, 7] := by decide +kernel

/-- `read` at any position but the end gives the item and steps to the next position, like `*` and `++`. -/
theorem C73_read {sz : Nat} (hsz : 0 < sz) (h2 : sz ≤ 2048) (ops : List (Op α)) (h : AllAllowed sz [] ops) (k : Nat)
    (hk : k < (contents [] ops).length) :
    ∃ s b c c', run sz ops create = some s ∧ begin s = some b ∧ advance s k b = some c ∧
      read s c = some ((contents [] ops)[k], c') ∧ advance s (k + 1) b = some c' := by
  obtain ⟨s, a, t, h1, G, hf, _⟩ := run_good hsz h2 ops (create_good h2) h
  have hc : flat (a ++ [t]) = contents [] ops := hf
  obtain ⟨b, hb, hbp⟩ := begin_pos G
  obtain ⟨c, h4, hp⟩ := advance_pos G k 0 hbp (by rw [hc]; omega)
  rw [Nat.zero_add] at hp
  obtain ⟨c', h5, h6⟩ := read_pos G hp (by rw [hc]; exact hk)
  have hadv : ∀ (j : Nat) (b c c' : Cur), advance s j b = some c → inc s c = some c' → advance s (j + 1) b = some c' := by
    intro j
    induction j with
    | zero => intro b c c' hb hc'; cases hb; rw [advance, hc']; rfl
    | succ j ih =>
      intro b c c' hb hc'
      rw [advance] at hb
      cases hi : inc s b with
      | none => rw [hi] at hb; cases hb
      | some b1 =>
        rw [hi] at hb
        rw [advance, hi]
        exact ih b1 c c' hb hc'
  refine ⟨s, b, c, c', h1, hb, h4, ?_, hadv k b c c' h4 h6⟩
  rw [h5]
  simp [hc]

example : ((run 1000 [.write [1, 2, 3]] (create : St Nat)).bind fun s => read s ⟨0, 1⟩) = some (2, ⟨1, 0⟩) := by
  decide +kernel

/-- Writing `more` items. -/
private theorem write_more {sz : Nat} (hsz : 0 < sz) (h2 : sz ≤ 2048) : ∀ (more : List (Op α)) {s : St α}
    {a : List (E α)} {t : E α}, (∀ o ∈ more, (∃ x, o = .append x) ∨ ∃ xs, o = .write xs) → Good sz s a t →
    ∃ q a' t', run sz more s = some q ∧ Good sz q a' t' ∧ flat (a ++ [t]) <+: flat (a' ++ [t']) ∧
      locs (a ++ [t]) <+: locs (a' ++ [t']) ∧ q.head = s.head ∧ q.dead = s.dead := by
  intro more
  induction more with
  | nil => intro s a t _ G; exact ⟨s, a, t, rfl, G, List.prefix_refl _, List.prefix_refl _, rfl, rfl⟩
  | cons o more ih =>
    intro s a t ho G
    have step : ∃ q a' t', doOp sz s o = some q ∧ Good sz q a' t' ∧ flat (a ++ [t]) <+: flat (a' ++ [t']) ∧
        locs (a ++ [t]) <+: locs (a' ++ [t']) ∧ q.head = s.head ∧ q.dead = s.dead := by
      rcases ho o List.mem_cons_self with ⟨x, rfl⟩ | ⟨xs, rfl⟩
      · obtain ⟨q, c, a', t', h, G', hf, hd, hl, hh⟩ := append_good G.toRep hsz h2 x
        exact ⟨q, a', t', by simp [doOp, h], G', by rw [hf]; exact List.prefix_append _ _,
          by rw [hl]; exact List.prefix_append _ _, hh, hd⟩
      · obtain ⟨q, a', t', h, G', hf, hd, hl, hh⟩ := writeAll_good hsz h2 xs.length G xs (Nat.le_refl _)
        exact ⟨q, a', t', h, G', by rw [hf]; exact List.prefix_append _ _, hl, hh, hd⟩
    obtain ⟨q, a', t', h, G', hf, hl, hh, hd⟩ := step
    obtain ⟨q2, a2, t2, h', G2, hf2, hl2, hh2, hd2⟩ := ih (fun o' ho' => ho o' (List.mem_cons_of_mem _ ho')) G'
    exact ⟨q2, a2, t2, by rw [run, h]; exact h', G2, hf.trans hf2, hl.trans hl2, hh2.trans hh, hd2.trans hd⟩

/-- A position saved with `end()` still marks the same place after more items were written, whether or not
there was space in the block: `truncate` there gives the items of before. -/
theorem C73_truncate_saved {sz : Nat} (hsz : 0 < sz) (h2 : sz ≤ 2048) (ops more : List (Op α))
    (h : AllAllowed sz [] ops) (hm : ∀ o ∈ more, (∃ x, o = .append x) ∨ ∃ xs, o = .write xs) :
    ∃ s e s' q b e', run sz ops create = some s ∧ «end» s = some e ∧ run sz more s = some s' ∧
      truncate s' e = some q ∧ begin q = some b ∧ «end» q = some e' ∧ q.dead = s.dead ∧
      ∀ fuel, (contents [] ops).length < fuel → collect fuel q b e' = some (contents [] ops) := by
  obtain ⟨s, a, t, h1, G, hf, _⟩ := run_good hsz h2 ops (create_good h2) h
  have hc : flat (a ++ [t]) = contents [] ops := hf
  obtain ⟨s', a', t', h3, G', hf', hl', hh', hd'⟩ := write_more hsz h2 more hm G
  obtain ⟨he, _⟩ := end_pos G.toRep
  have key : ∃ pre e rest, a' ++ [t'] = pre ++ e :: rest ∧ e.id = t.id ∧ t.items.length ≤ e.items.length ∧
      (flat pre).length + t.items.length = (flat (a ++ [t])).length := by
    rcases Nat.eq_zero_or_pos t.items.length with h0 | hpos
    · have ha : a = [] := by
        cases a with
        | nil => rfl
        | cons _ _ => exact absurd (List.length_eq_zero_iff.1 h0) (G.last (by simp))
      subst ha
      have hh2 : firstId none (a' ++ [t']) = some t.id := by
        rw [← G'.head, hh', G.head]; rfl
      cases hx : a' ++ [t'] with
      | nil => simp at hx
      | cons e rest =>
        rw [hx] at hh2
        refine ⟨[], e, rest, rfl, by simpa [firstId] using hh2, by omega, ?_⟩
        simp [flat, h0]
    · have hk : (flat (a ++ [t])).length - 1 < (locs (a ++ [t])).length := by
        rw [locs_length, Rep.flat_eq, List.length_append]
        omega
      have e1 : (locs (a ++ [t]))[(flat (a ++ [t])).length - 1]? = some ⟨t.id, t.items.length - 1⟩ := by
        rw [locs_snoc, Rep.flat_eq, List.length_append, List.getElem?_append_right (by rw [locs_length]; omega),
          locs_length]
        simp only [E.locs, List.getElem?_map]
        rw [List.getElem?_range (by omega)]
        simp
        omega
      rw [← prefix_get? hl' hk] at e1
      obtain ⟨pre, e, rest, g1, g2, g3, g4⟩ := locs_pos e1
      dsimp only at g2 g3 g4
      refine ⟨pre, e, rest, g1, g2.symm, by omega, ?_⟩
      rw [Rep.flat_eq, List.length_append] at g3 ⊢
      omega
  obtain ⟨pre, e, rest, g1, g2, g3, g4⟩ := key
  obtain ⟨q, a2, t2, h4, G2, hf2, hd2, _⟩ := truncate_good G'.toRep g1 t.items.length g3
  rw [g2] at h4
  obtain ⟨b, hb, hbp⟩ := begin_pos G2
  obtain ⟨he2, hep⟩ := end_pos G2.toRep
  have hc2 : flat (a2 ++ [t2]) = contents [] ops := by
    rw [hf2, ← hc]
    rw [g1, flat_append pre, flat_cons] at hf'
    have hp := List.prefix_iff_eq_take.1 hf'
    rw [hp, ← g4, List.take_length_add_append, List.take_append_of_le_length g3]
  refine ⟨s, _, s', q, b, _, h1, he, h3, h4, hb, he2, hd2.trans hd', ?_⟩
  intro fuel hfu
  rw [collect_pos G2 fuel 0 hbp hep (by rw [hc2]; omega), hc2]
  rfl

example : ((run 1000 [.write [1, 2]] (create : St Nat)).bind fun s => («end» s).bind fun e =>
    (run 1000 [.append 3, .write [4, 5]] s).bind fun s' => (truncate s' e).bind fun q =>
    (begin q).bind fun b => («end» q).bind fun e' => collect 10 q b e') = some [1, 2] := by decide +kernel

/-- Popping more than there is is not noticed, unless the sequence is empty: it is emptied.  (The size of what is
popped must be below 4 GB.) -/
theorem C73_pop_too_many {sz : Nat} (hsz : 0 < sz) (h2 : sz ≤ 2048) (xs : List α) (n : Nat) (hn : xs.length < n)
    (hb : n * sz < 2 ^ 32) :
    (xs ≠ [] → ∃ s, run sz [.write xs, .pop n] create = some s ∧ isEmpty s = some true ∧ s.dead.Perm xs) ∧
    (xs = [] → run sz [.write xs, .pop n] create = none) := by
  constructor
  · intro hne
    obtain ⟨s, b, e, h1, _, _, _, _, _, he, _, _, hd⟩ := C73_contents hsz h2 [.write xs, .pop n] (by
      simp [AllAllowed, Allowed, after, hne, hb])
    refine ⟨s, h1, ?_, ?_⟩
    · rw [he]
      simp [contents, after, show xs.length - n = 0 by omega]
    · refine hd.trans ?_
      simp [allKilled, killed, after, show xs.length - n = 0 by omega]
  · rintro rfl
    obtain ⟨n, rfl⟩ : ∃ m, n = m + 1 := ⟨n - 1, by simp at hn; omega⟩
    simp only [run, doOp, writeAll, popTail]
    rw [if_neg (by omega)]
    rfl

example : ((run 1000 [.write [1, 2, 3], .pop 7] (create : St Nat)).bind isEmpty) = some true := by decide +kernel

/-- The blocks after writing exactly as many items as a block has space for. -/
private theorem full_block {sz : Nat} (hsz : 0 < sz) (h2 : sz ≤ 2048) (xs : List α) (hx : xs.length = 2048 / sz) :
    ∃ s t, run sz [.write xs] create = some s ∧ Good sz s [] t ∧ t.items = xs ∧ t.cap = 2048 ∧ t.id = 0 := by
  have hpos : 0 < 2048 / sz := Nat.div_pos h2 hsz
  have hle : sz * xs.length ≤ 2048 := by rw [hx]; exact Nat.mul_div_le _ _
  have G0 := create_good (α := α) h2
  have hbw : beginWrite sz (create : St α) = some (create, 2048 / sz) := by
    unfold beginWrite
    rw [G0.tail_block]
    dsimp only
    rw [unused_mk, if_neg (by simp [defaultBlockSize]; omega)]
    simp [defaultBlockSize]
  obtain ⟨q, h3, R, hd, _⟩ := endWrite_rep G0.toRep xs (by simpa [defaultBlockSize] using hle)
  refine ⟨q, _, ?_, ⟨R, fun h => absurd rfl h⟩, by simp, rfl, rfl⟩
  cases xs with
  | nil => simp at hx; omega
  | cons x xs =>
    simp only [run, doOp]
    rw [show (x :: xs).length = xs.length + 1 from rfl, writeAll, hbw]
    dsimp only
    rw [List.take_of_length_le (by omega), h3, List.drop_of_length_le (by omega)]
    dsimp only
    cases xs <;> rfl

/-- `beginWrite` without `endWrite` when the last block is full leaves an empty block at the end: `tail()` and
`popTail` fail then, although there are items, and they are still there. -/
theorem C73_empty_tail {sz : Nat} (hsz : 0 < sz) (h2 : sz ≤ 2048) (xs : List α) (hx : xs.length = 2048 / sz) :
    ∃ s q n, run sz [.write xs] create = some s ∧ tailItem s = xs.getLast? ∧ beginWrite sz s = some (q, n) ∧
      tailItem q = none ∧ popTail sz q 1 = none ∧ numItems sz q = some xs.length ∧ isEmpty q = some false := by
  have hpos : 0 < 2048 / sz := Nat.div_pos h2 hsz
  have hle : sz * xs.length ≤ 2048 := by rw [hx]; exact Nat.mul_div_le _ _
  obtain ⟨s, t, h1, G, ht, hcap, _⟩ := full_block hsz h2 xs hx
  have hun : t.cap - sz * t.items.length < sz := by
    rw [hcap, ht, hx]
    have := Nat.div_add_mod 2048 sz
    have := Nat.mod_lt 2048 hsz
    omega
  obtain ⟨q, h3, R⟩ := beginWrite_full G.toRep h2 hun
  have hfl : flat ([] ++ [t] ++ [(⟨s.fresh, 2048, []⟩ : E α)]) = xs := by simp [flat, ht]
  refine ⟨s, q, _, h1, ?_, h3, ?_, ?_, ?_, ?_⟩
  · rw [tailItem_spec G]
    simp [flat, ht]
  · unfold tailItem
    rw [R.tail_block]
    rfl
  · unfold popTail
    rw [if_neg (by omega), popLoop, R.tail_block]
    rfl
  · unfold numItems
    rw [R.head, totalLoop_spec _ _ R.seg R.length_le, hfl]
    dsimp only
    rw [Nat.mod_eq_of_lt (by omega), Nat.mul_div_cancel_left _ hsz]
  · rw [(headItem_spec R).2, hfl]
    cases xs with
    | nil => simp at hx; omega
    | cons x xs => rfl

example : ((run 1000 [.write [1, 2]] (create : St Nat)).bind fun s => (beginWrite 1000 s).bind fun q =>
    popTail 1000 q.1 1).isNone = true := by decide +kernel

/-- `normalized()` fails for a position saved with `end()` when the block was full and another was appended since
(`ObjectStack::deleteRange` calls it for such positions), although the position can be read from: what comes next
is the item appended. -/
theorem C73_normalized_fails {sz : Nat} (hsz : 0 < sz) (h2 : sz ≤ 2048) (xs : List α) (hx : xs.length = 2048 / sz)
    (x : α) :
    ∃ s e q c, run sz [.write xs] create = some s ∧ «end» s = some e ∧ normalized s e = some e ∧
      append sz s x = some (q, c) ∧ beginRead q e = some (c, [x]) ∧ normalized q e = none := by
  obtain ⟨s, t, h1, G, ht, hcap, _⟩ := full_block hsz h2 xs hx
  have hun : t.cap - sz * t.items.length < sz := by
    rw [hcap, ht, hx]
    have := Nat.div_add_mod 2048 sz
    have := Nat.mod_lt 2048 hsz
    omega
  obtain ⟨q, h3, R⟩ := append_full G.toRep h2 hun x
  obtain ⟨he, _⟩ := end_pos G.toRep
  have hb := R.block (pre := []) (e := t) (rest := [⟨s.fresh, 2048, [x]⟩]) rfl
  refine ⟨s, _, q, _, h1, he, ?_, h3, ?_, ?_⟩
  · unfold normalized
    dsimp only
    rw [← G.tail, G.tail_block]
  · unfold beginRead
    dsimp only
    rw [hb]
    dsimp only [firstId]
    rw [if_pos rfl, ← show q.tail = s.fresh from R.tail, R.tail_block]
  · unfold normalized
    dsimp only
    rw [hb]
    dsimp only [firstId]
    rw [if_pos rfl]

example : ((run 1000 [.write [1, 2]] (create : St Nat)).bind fun s => («end» s).bind fun e =>
    (append 1000 s 3).bind fun q => normalized q.1 e) = none := by decide +kernel

/-- A sequence of items that are larger than a block never uses its first block: it has the item, but says it is
empty; `head()` fails, and so does a range-for. -/
theorem C73_large_items {sz : Nat} (h : 2048 < sz) (h2 : sz < 2 ^ 32) (x : α) :
    ∃ s b e, run sz [.append x] create = some s ∧ numItems sz s = some 1 ∧ tailItem s = some x ∧
      isEmpty s = some true ∧ headItem s = none ∧ begin s = some b ∧ «end» s = some e ∧
      ∀ fuel, collect fuel s b e = none := by
  have hm : max defaultBlockSize sz = sz := by simp [defaultBlockSize]; omega
  have hrun : run sz [.append x] (create : St α) = some
      { heap := Heap.set (Heap.set (Heap.set (create : St α).heap 0 (some { cap := 2048, next := some 1 })) 1
          (some { cap := sz, prev := some 0, fileOffset := 0 })) 1
          (some { cap := sz, items := [x], prev := some 0, fileOffset := 0 })
        fresh := 2
        head := some 0
        tail := 1
        dead := [] } := by
    simp only [run, doOp, append, beginWrite]
    rw [show (create : St α).heap (create : St α).tail = some { cap := defaultBlockSize } from rfl]
    dsimp only
    rw [unused_mk, if_pos (by simp [defaultBlockSize]; omega), hm]
    unfold appendBlock
    rw [show (create : St α).heap (create : St α).tail = some { cap := defaultBlockSize } from rfl]
    dsimp only
    rw [if_neg (by simp; omega)]
    dsimp only
    rw [set_same]
    dsimp only
    rw [set_same]
    dsimp only
    unfold endWrite
    dsimp only
    rw [set_same]
    dsimp only
    rw [unused_mk, if_pos (by simp)]
    rfl
  refine ⟨_, ⟨0, 0⟩, ⟨1, 1⟩, hrun, ?_, rfl, rfl, rfl, rfl, rfl, ?_⟩
  · have : totalLoop sz 2 (Heap.set (Heap.set (Heap.set (create : St α).heap 0 (some { cap := 2048, next := some 1 })) 1
          (some { cap := sz, prev := some 0, fileOffset := 0 })) 1
          (some { cap := sz, items := [x], prev := some 0, fileOffset := 0 })) (some 0) = some sz := by
      simp [totalLoop, Heap.set, Block.used]
    unfold numItems
    dsimp only
    rw [this]
    dsimp only
    rw [Nat.mod_eq_of_lt h2, Nat.div_self (by omega)]
  · intro fuel
    cases fuel with
    | zero => rfl
    | succ fuel => rfl

example : ((run 3000 [.append 1] (create : St Nat)).bind isEmpty) = some true := by decide +kernel

end Verif.Seq
