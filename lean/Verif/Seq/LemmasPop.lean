import Verif.Seq.Lemmas
/-!
# Sequences — lemmas: freeing blocks, removing items
-/
namespace Verif.Seq
variable {α : Type}

/-- The blocks are linked forwards, and nothing is behind them. -/
def Nx (h : Heap α) : List (E α) → Prop
  | [] => True
  | e :: es => (∃ b, h e.id = some b ∧ b.next = firstId none es) ∧ Nx h es

theorem nx_congr {h h' : Heap α} : ∀ {es : List (E α)}, (∀ e ∈ es, h' e.id = h e.id) → Nx h es → Nx h' es := by
  intro es
  induction es with
  | nil => intro _ _; trivial
  | cons e es ih =>
    rintro hh ⟨⟨b, h1, h2⟩, h3⟩
    exact ⟨⟨b, (hh e List.mem_cons_self).trans h1, h2⟩, ih (fun x hx => hh x (List.mem_cons_of_mem _ hx)) h3⟩

theorem seg_nx {sz : Nat} {h : Heap α} : ∀ {es : List (E α)} {p : Option Nat} {fo : Nat},
    Seg sz h p fo none es → Nx h es := by
  intro es
  induction es with
  | nil => intro _ _ _; trivial
  | cons e es ih =>
    intro p fo hs
    exact ⟨⟨_, hs.1, rfl⟩, ih hs.2⟩

theorem freeChain_spec : ∀ (es : List (E α)) (fuel : Nat) (h : Heap α), es.length ≤ fuel →
    (ids es).Nodup → Nx h es →
    ∃ h', freeChain fuel h (firstId none es) = some h' ∧ (∀ j ∈ ids es, h' j = none) ∧
      ∀ j, j ∉ ids es → h' j = h j := by
  intro es
  induction es with
  | nil =>
    intro fuel h _ _ _
    exact ⟨h, by cases fuel <;> rfl, by simp [ids], fun j _ => rfl⟩
  | cons e es ih =>
    intro fuel h hf hn hx
    obtain ⟨⟨b, h1, h2⟩, h3⟩ := hx
    cases fuel with
    | zero => simp at hf
    | succ fuel =>
    have hn' : e.id ∉ ids es ∧ (ids es).Nodup := by simpa [ids] using hn
    cases es with
    | nil =>
      refine ⟨h.set e.id none, ?_, ?_, ?_⟩
      · show freeChain (fuel + 1) h (some e.id) = _
        unfold freeChain
        rw [h1]
        dsimp only
        rw [h2]
        rfl
      · intro j hj
        simp [ids] at hj
        rw [hj, set_same]
      · intro j hj
        simp [ids] at hj
        rw [set_other _ _ hj]
    | cons e' es =>
      obtain ⟨⟨b', h4, h5⟩, h6⟩ := h3
      have hne : e'.id ≠ e.id := by
        intro heq
        exact hn'.1 (by rw [← heq]; simp [ids])
      have hn'' : e'.id ∉ ids es ∧ (ids es).Nodup := by simpa [ids] using hn'.2
      obtain ⟨h', g1, g2, g3⟩ := ih fuel ((h.set e.id none).set e'.id (some { b' with prev := none }))
        (by simpa using hf) hn'.2 ⟨⟨_, set_same _ _ _, h5⟩, by
          refine nx_congr ?_ h6
          intro x hx
          rw [set_other, set_other]
          · rintro heq
            exact hn'.1 (by rw [← heq]; simp [ids]; exact Or.inr ⟨x, hx, rfl⟩)
          · rintro heq
            exact hn''.1 (by rw [← heq]; exact mem_ids hx)⟩
      refine ⟨h', ?_, ?_, ?_⟩
      · show freeChain (fuel + 1) h (some e.id) = _
        unfold freeChain
        rw [h1]
        dsimp only
        rw [h2]
        dsimp only [firstId]
        rw [set_other _ _ hne, h4]
        exact g1
      · intro j hj
        rcases List.mem_cons.1 hj with rfl | hj
        · rw [g3 _ hn'.1, set_other _ _ (Ne.symm hne), set_same]
        · exact g2 j hj
      · intro j hj
        have : j ≠ e.id ∧ j ∉ ids (e' :: es) := by simpa [ids] using hj
        have h7 : j ≠ e'.id := by
          rintro rfl
          exact this.2 (by simp [ids])
        rw [g3 j this.2, set_other _ _ h7, set_other _ _ this.1]

/-- Everything behind a block is given up: it is the last one now. -/
theorem clearNext_rep {sz : Nat} {s : St α} {a rest : List (E α)} {t : E α} {nx : Option Nat}
    (hseg : Seg sz s.heap none 0 nx a) (hnx : nx = some t.id)
    (hb : s.heap t.id = some ⟨t.cap, t.items, firstId none rest, lastId none a, sz * (flat a).length⟩)
    (hx : Nx s.heap rest) (hn : (ids (a ++ t :: rest)).Nodup)
    (hd : ∀ j, j ∉ ids (a ++ t :: rest) → s.heap j = none)
    (hf : ∀ e ∈ a ++ t :: rest, e.id < s.fresh) (hl : rest.length ≤ s.fresh + 1)
    (hh : s.head = firstId none (a ++ t :: rest)) (ht : s.tail = t.id)
    (hcap : ∀ e ∈ a ++ [t], sz * e.items.length ≤ e.cap) (hsize : ∀ e ∈ a ++ [t], sz ≤ e.cap)
    (hfull : ∀ e ∈ a, e.cap - sz * e.items.length < sz) :
    ∃ q, clearNext s t.id = some q ∧ Rep sz q a t ∧ q.dead = s.dead := by
  have hsub : ∀ e ∈ a ++ [t], e ∈ a ++ t :: rest := by
    intro e he
    simp only [List.mem_append, List.mem_cons, List.not_mem_nil, or_false] at he ⊢
    rcases he with h | h
    · exact Or.inl h
    · exact Or.inr (Or.inl h)
  have hn1 : ids (a ++ t :: rest) = ids (a ++ [t]) ++ ids rest := by
    rw [← ids_append, List.append_assoc]; rfl
  have hn2 := hn
  rw [hn1, List.nodup_append] at hn2
  obtain ⟨n1, n2, n3⟩ := hn2
  obtain ⟨h', g1, g2, g3⟩ := freeChain_spec rest (s.fresh + 1) s.heap hl n2 hx
  have hti : ∀ e ∈ a ++ [t], e.id ∉ ids rest := fun e he hin => n3 e.id (mem_ids he) e.id hin rfl
  have hat : ∀ e ∈ a, e.id ≠ t.id := by
    intro e he heq
    rw [ids_append, List.nodup_append] at n1
    exact n1.2.2 e.id (mem_ids he) t.id (by simp [ids]) heq
  have htb : h' t.id = s.heap t.id := g3 _ (hti t (by simp))
  unfold clearNext
  rw [hb]
  dsimp only
  rw [g1]
  dsimp only
  rw [htb, hb]
  dsimp only
  refine ⟨_, rfl, ⟨seg_append.2 ⟨?_, ?_, trivial⟩, n1, ?_, ?_, ?_, ht, hcap, hsize, hfull⟩, rfl⟩
  · subst hnx
    refine seg_congr ?_ hseg
    intro e he
    dsimp only
    rw [set_other _ _ (hat e he), g3 _ (hti e (List.mem_append_left _ he))]
  · dsimp only
    rw [set_same, Nat.zero_add]
    rfl
  · intro j hj
    have hjt : j ≠ t.id := by
      rintro rfl
      exact hj (by simp [ids])
    dsimp only
    rw [set_other _ _ hjt]
    by_cases hr : j ∈ ids rest
    · exact g2 j hr
    · rw [g3 j hr]
      refine hd j ?_
      rw [hn1, List.mem_append]
      rintro (h | h)
      · exact hj h
      · exact hr h
  · intro e he
    exact hf e (hsub e he)
  · dsimp only
    rw [hh]
    cases a <;> rfl

theorem nodup_lt_length : ∀ (n : Nat) (l : List Nat), l.Nodup → (∀ i ∈ l, i < n) → l.length ≤ n := by
  intro n
  induction n with
  | zero =>
    intro l _ h
    cases l with
    | nil => exact Nat.le_refl _
    | cons x l => exact absurd (h x List.mem_cons_self) (Nat.not_lt_zero _)
  | succ n ih =>
    intro l hn h
    have h1 : (l.erase n).length ≤ n := by
      refine ih _ (hn.erase n) ?_
      intro i hi
      have := (hn.mem_erase_iff).1 hi
      have := h i this.2
      omega
    have := List.le_length_erase (l := l) (a := n)
    omega

theorem exists_last {a : List (E α)} (h : a ≠ []) : ∃ a' t', a = a' ++ [t'] :=
  ⟨a.dropLast, a.getLast h, (List.dropLast_concat_getLast h).symm⟩

theorem lastId_snoc (p : Option Nat) (a : List (E α)) (t : E α) : lastId p (a ++ [t]) = some t.id := by
  rw [lastId_append]; rfl

theorem popLoop_good {sz : Nat} : ∀ (fuel n : Nat) {s : St α} {a : List (E α)} {t : E α}, Good sz s a t →
    n ≤ fuel → (n = 0 ∨ flat (a ++ [t]) ≠ []) →
    ∃ q a' t', popLoop sz fuel s s.tail n = some q ∧ Good sz q a' t' ∧
      flat (a' ++ [t']) = (flat (a ++ [t])).take ((flat (a ++ [t])).length - n) ∧
      q.dead.Perm (s.dead ++ (flat (a ++ [t])).drop ((flat (a ++ [t])).length - n)) ∧
      locs (a' ++ [t']) <+: locs (a ++ [t]) := by
  intro fuel
  induction fuel with
  | zero =>
    intro n s a t G hn hl
    have : n = 0 := by omega
    subst this
    exact ⟨s, a, t, rfl, G, by simp, by simp, List.prefix_refl _⟩
  | succ fuel ih =>
    intro n s a t G hn hl
    cases n with
    | zero => exact ⟨s, a, t, rfl, G, by simp, by simp, List.prefix_refl _⟩
    | succ n =>
    have R := G.toRep
    have hb := R.tail_block
    have hcap := R.cap t (by simp)
    have hflat := Rep.flat_eq a t
    unfold popLoop
    rw [hb]
    dsimp only
    have hne : t.items ≠ [] := by
      intro h0
      by_cases ha : a = []
      · subst ha
        rw [hflat, h0] at hl
        simp [flat] at hl
      · exact G.last ha h0
    have hpos : 0 < t.items.length := List.length_pos_iff.2 hne
    rw [if_neg (by omega)]
    have hset : ∀ (l : List α) (d : List α), l.length ≤ t.items.length →
        Rep sz { s with
          heap := s.heap.set s.tail (some ⟨t.cap, l, none, lastId none a, sz * (flat a).length⟩)
          dead := d } a ⟨t.id, t.cap, l⟩ := by
      intro l d hlen
      refine R.setTail l ?_ _ rfl rfl rfl rfl
      exact Nat.le_trans (Nat.mul_le_mul_left _ hlen) hcap
    by_cases hk : n + 1 < t.items.length
    · -- the block keeps some items
      have hmin : min (n + 1) t.items.length = n + 1 := by omega
      rw [hmin, if_pos (by omega), if_pos (by omega)]
      refine ⟨_, a, ⟨t.id, t.cap, t.items.take (t.items.length - (n + 1))⟩, rfl, ⟨hset _ _ (by simp), ?_⟩, ?_, ?_, ?_⟩
      · intro _ h0
        have := congrArg List.length h0
        simp at this
        omega
      · rw [Rep.flat_eq]
        dsimp only
        rw [hflat, List.length_append, List.take_append,
          List.take_of_length_le (l := flat a) (by omega)]
        congr 2
        omega
      · dsimp only
        rw [hflat, List.length_append, List.drop_append, List.drop_of_length_le (l := flat a) (by omega)]
        rw [show (flat a).length + t.items.length - (n + 1) - (flat a).length = t.items.length - (n + 1) by omega]
        simp
      · rw [locs_snoc, locs_snoc]
        exact (List.prefix_append_right_inj _).2 (locs_prefix _ _ _ (by simp))
    · have hmin : min (n + 1) t.items.length = t.items.length := by omega
      rw [hmin, if_neg (by omega)]
      simp only [Nat.sub_self, List.take_zero, List.drop_zero]
      by_cases ha : a = []
      · subst ha
        dsimp only [lastId]
        have hn1 : t.items.length - (n + 1) = 0 := by omega
        refine ⟨_, [], ⟨t.id, t.cap, []⟩, rfl, ⟨hset [] _ (by simp), fun h => absurd rfl h⟩, ?_, ?_, ?_⟩
        · rw [hflat]
          simp [flat, hn1]
        · rw [hflat]
          simp [flat, hn1]
        · simp [locs, E.locs]
      · obtain ⟨a', t', rfl⟩ := exists_last ha
        have R1 := hset [] (s.dead ++ t.items) (by simp)
        rw [lastId_snoc] at R1 ⊢
        dsimp only
        obtain ⟨s1, s2⟩ := seg_append.1 (show Seg sz _ none 0 none (a' ++ (t' :: [⟨t.id, t.cap, []⟩])) by
          have := R1.seg; rwa [List.append_assoc] at this)
        obtain ⟨q, hq, Rq, hdq⟩ := clearNext_rep (sz := sz) (a := a') (t := t') (rest := [⟨t.id, t.cap, []⟩])
          (s := { s with
            heap := s.heap.set s.tail (some ⟨t.cap, [], none, some t'.id, sz * (flat (a' ++ [t'])).length⟩)
            dead := s.dead ++ t.items
            tail := t'.id })
          s1 rfl (by have := s2.1; rwa [Nat.zero_add] at this)
          (seg_nx s2.2)
          (by have := R1.nodup; rwa [List.append_assoc] at this)
          (by have := R1.dom; rwa [List.append_assoc] at this)
          (by have := R1.fresh; rwa [List.append_assoc] at this)
          (by simp)
          (by have := R1.head; rwa [List.append_assoc] at this) rfl
          (fun e he => R1.cap e (List.mem_append_left _ he))
          (fun e he => R1.size e (List.mem_append_left _ he))
          (fun e he => R1.full e (List.mem_append_left _ he))
        rw [hq]
        dsimp only
        have Gq : Good sz q a' t' := ⟨Rq, fun _ => R.nonempty t' (by simp)⟩
        have hne' : flat (a' ++ [t']) ≠ [] := by
          rw [Rep.flat_eq]
          intro h0
          exact R.nonempty t' (by simp) (List.append_eq_nil_iff.1 h0).2
        obtain ⟨q', a'', t'', h1, h2, h3, h4, h5⟩ := ih (n + 1 - t.items.length) Gq (by omega) (Or.inr hne')
        rw [Rq.tail] at h1
        refine ⟨q', a'', t'', h1, h2, ?_, ?_, ?_⟩
        · rw [h3, hflat, List.length_append,
            show (flat (a' ++ [t'])).length + t.items.length - (n + 1) =
              (flat (a' ++ [t'])).length - (n + 1 - t.items.length) by omega]
          rw [List.take_append_of_le_length (by omega)]
        · refine h4.trans ?_
          rw [hdq]
          dsimp only
          rw [hflat, List.length_append,
            show (flat (a' ++ [t'])).length + t.items.length - (n + 1) =
              (flat (a' ++ [t'])).length - (n + 1 - t.items.length) by omega]
          rw [List.drop_append_of_le_length (by omega), List.append_assoc]
          exact List.Perm.append_left _ List.perm_append_comm
        · refine h5.trans ?_
          rw [locs_snoc (a' ++ [t'])]
          exact List.prefix_append _ _

/-- Truncation at any position of any block, also behind the last item of a block. -/
theorem truncate_good {sz : Nat} {s : St α} {a rest : List (E α)} {e : E α} {a0 : List (E α)} {t0 : E α}
    (R : Rep sz s a0 t0) (he : a0 ++ [t0] = a ++ e :: rest) (idx : Nat) (hi : idx ≤ e.items.length) :
    ∃ q a' t', truncate s ⟨e.id, idx⟩ = some q ∧ Good sz q a' t' ∧
      flat (a' ++ [t']) = flat a ++ e.items.take idx ∧ q.dead = s.dead ∧
      locs (a' ++ [t']) <+: locs (a0 ++ [t0]) := by
  have hseg := R.seg
  have hnd := R.nodup
  have hdom := R.dom
  have hfr := R.fresh
  have hhead := R.head
  have hcap := R.cap
  have hsize := R.size
  rw [he] at hseg hnd hdom hfr hhead hcap hsize
  have hfull : ∀ x ∈ a, x.cap - sz * x.items.length < sz := by
    intro x hx
    refine R.full x ?_
    rcases exists_last (show e :: rest ≠ [] by simp) with ⟨r', z, hr⟩
    rw [hr, ← List.append_assoc] at he
    have := (List.append_inj' he rfl).1
    rw [this]
    exact List.mem_append_left _ hx
  have hnon : ∀ x ∈ a, x.items ≠ [] := by
    intro x hx h0
    have h1 := hfull x hx
    have h2 := hsize x (List.mem_append_left _ hx)
    rw [h0] at h1
    simp at h1
    omega
  have hlenfresh : (a ++ e :: rest).length ≤ s.fresh := by
    have h1 := nodup_lt_length s.fresh (ids (a ++ e :: rest)) hnd (by
      intro j hj
      obtain ⟨x, hx, rfl⟩ := List.mem_map.1 hj
      exact hfr x hx)
    simpa [ids] using h1
  obtain ⟨s1, s2⟩ := seg_append.1 hseg
  have hb : s.heap e.id = some ⟨e.cap, e.items, firstId none rest, lastId none a, sz * (flat a).length⟩ := by
    have := s2.1
    rwa [Nat.zero_add] at this
  unfold truncate
  dsimp only
  rw [hb]
  dsimp only
  by_cases h0 : idx = 0 ∧ a ≠ []
  · obtain ⟨rfl, ha⟩ := h0
    obtain ⟨a', t', rfl⟩ := exists_last ha
    rw [lastId_snoc, if_pos ⟨rfl, rfl⟩]
    dsimp only
    have hassoc : a' ++ [t'] ++ e :: rest = a' ++ t' :: (e :: rest) := by simp
    obtain ⟨u1, u2⟩ := seg_append.1 (show Seg sz s.heap none 0 none (a' ++ t' :: (e :: rest)) by rwa [hassoc] at hseg)
    obtain ⟨q, hq, Rq, hdq⟩ := clearNext_rep (sz := sz) (a := a') (t := t') (rest := e :: rest)
      (s := { s with tail := t'.id }) u1 rfl (by have := u2.1; rwa [Nat.zero_add] at this) (seg_nx u2.2)
      (by rwa [hassoc] at hnd) (by rwa [hassoc] at hdom) (by rwa [hassoc] at hfr)
      (by
        simp only [List.length_append, List.length_cons, List.length_nil] at hlenfresh ⊢
        omega)
      (by rwa [hassoc] at hhead) rfl
      (fun x hx => hcap x (List.mem_append_left _ hx))
      (fun x hx => hsize x (List.mem_append_left _ hx))
      (fun x hx => hfull x (List.mem_append_left _ hx))
    exact ⟨q, a', t', hq, ⟨Rq, fun _ => hnon t' (by simp)⟩, by simp, hdq, by rw [he, locs_append _ (e :: rest)]; exact List.prefix_append _ _⟩
  · have hif : ¬ (idx = 0 ∧ (lastId none a).isSome = true) := by
      rintro ⟨h1, h2⟩
      refine h0 ⟨h1, ?_⟩
      rintro rfl
      cases h2
    rw [if_neg hif, if_neg (by omega)]
    have hid : ids (a ++ (⟨e.id, e.cap, e.items.take idx⟩ : E α) :: rest) = ids (a ++ e :: rest) := by
      simp [ids]
    have hnd' := hnd
    rw [ids_append, List.nodup_append] at hnd'
    obtain ⟨_, n2, n3⟩ := hnd'
    have n2' : e.id ∉ ids rest := by
      have : (e.id :: ids rest).Nodup := n2
      exact (List.nodup_cons.1 this).1
    obtain ⟨q, hq, Rq, hdq⟩ := clearNext_rep (sz := sz) (a := a) (t := ⟨e.id, e.cap, e.items.take idx⟩) (rest := rest)
      (s := { s with
                heap := s.heap.set e.id
                  (some ⟨e.cap, e.items.take idx, firstId none rest, lastId none a, sz * (flat a).length⟩)
                tail := e.id })
      (nx := some e.id)
      (seg_congr (by
        intro x hx
        dsimp only
        rw [set_other]
        intro heq
        exact n3 x.id (mem_ids hx) e.id (by simp [ids]) heq) s1) rfl
      (by dsimp only; rw [set_same])
      (nx_congr (by
        intro x hx
        dsimp only
        rw [set_other]
        intro heq
        exact n2' (by rw [← heq]; exact mem_ids hx)) (seg_nx s2.2))
      (by rw [hid]; exact hnd)
      (by
        intro j hj
        rw [hid] at hj
        dsimp only
        rw [set_other]
        · exact hdom j hj
        · rintro rfl
          exact hj (by simp [ids]))
      (by
        intro x hx
        have : x.id ∈ ids (a ++ e :: rest) := by rw [← hid]; exact mem_ids hx
        obtain ⟨y, hy, hxy⟩ := List.mem_map.1 this
        rw [← hxy]
        exact hfr y hy)
      (by
        simp only [List.length_append, List.length_cons] at hlenfresh ⊢
        omega)
      (by dsimp only; rw [hhead]; cases a <;> rfl) rfl
      (by
        intro x hx
        rcases List.mem_append.1 hx with h | h
        · exact hcap x (List.mem_append_left _ h)
        · simp at h
          subst h
          have := hcap e (by simp)
          refine Nat.le_trans (Nat.mul_le_mul_left _ ?_) this
          simp
          omega)
      (by
        intro x hx
        rcases List.mem_append.1 hx with h | h
        · exact hsize x (List.mem_append_left _ h)
        · simp at h
          subst h
          exact hsize e (by simp))
      hfull
    refine ⟨q, a, _, hq, ⟨Rq, ?_⟩, Rep.flat_eq _ _, hdq, ?_⟩
    rotate_left
    · rw [he, locs_snoc, show a ++ e :: rest = a ++ [e] ++ rest by simp, locs_append, locs_snoc, List.append_assoc]
      refine (List.prefix_append_right_inj _).2 (List.IsPrefix.trans ?_ (List.prefix_append _ _))
      exact locs_prefix _ _ _ (by simp; omega)
    intro ha hn
    by_cases hi0 : idx = 0
    · exact h0 ⟨hi0, ha⟩
    · have := congrArg List.length hn
      simp at this
      rcases this with h | h
      · exact hi0 h
      · rw [h] at hi
        simp at hi
        exact hi0 hi

theorem destructLoop_spec : ∀ (es : List (E α)) (fuel : Nat) (h : Heap α) (dead : List α), es.length ≤ fuel →
    (ids es).Nodup → Nx h es → (∀ e ∈ es, ∃ b, h e.id = some b ∧ b.items = e.items) →
    ∃ h', destructLoop fuel h dead (firstId none es) = some (h', dead ++ flat es) ∧ (∀ j ∈ ids es, h' j = none) ∧
      ∀ j, j ∉ ids es → h' j = h j := by
  intro es
  induction es with
  | nil =>
    intro fuel h dead _ _ _ _
    exact ⟨h, by cases fuel <;> simp [destructLoop, firstId, flat], by simp [ids], fun j _ => rfl⟩
  | cons e es ih =>
    intro fuel h dead hf hn hx hi
    obtain ⟨⟨b, h1, h2⟩, h3⟩ := hx
    cases fuel with
    | zero => simp at hf
    | succ fuel =>
    have hn' : e.id ∉ ids es ∧ (ids es).Nodup := by simpa [ids] using hn
    have hother : ∀ x ∈ es, (h.set e.id none) x.id = h x.id := by
      intro x hx
      rw [set_other]
      intro heq
      exact hn'.1 (by rw [← heq]; exact mem_ids hx)
    obtain ⟨h', g1, g2, g3⟩ := ih fuel (h.set e.id none) (dead ++ b.items) (by simpa using hf) hn'.2
      (nx_congr hother h3)
      (fun x hx => by
        obtain ⟨b', hb', hi'⟩ := hi x (List.mem_cons_of_mem _ hx)
        exact ⟨b', by rw [hother x hx]; exact hb', hi'⟩)
    have hbi : b.items = e.items := by
      obtain ⟨b', hb', hi'⟩ := hi e List.mem_cons_self
      rw [h1] at hb'
      cases hb'
      exact hi'
    refine ⟨h', ?_, ?_, ?_⟩
    · show destructLoop (fuel + 1) h dead (some e.id) = _
      unfold destructLoop
      rw [h1]
      dsimp only
      rw [h2, g1, hbi, flat_cons, List.append_assoc]
    · intro j hj
      rcases List.mem_cons.1 hj with rfl | hj
      · rw [g3 _ hn'.1, set_same]
      · exact g2 j hj
    · intro j hj
      have : j ≠ e.id ∧ j ∉ ids es := by simpa [ids] using hj
      rw [g3 j this.2, set_other _ _ this.1]

theorem Rep.length_le {sz : Nat} {s : St α} {a : List (E α)} {t : E α} (R : Rep sz s a t) :
    (a ++ [t]).length ≤ s.fresh := by
  have h1 := nodup_lt_length s.fresh (ids (a ++ [t])) R.nodup (by
    intro j hj
    obtain ⟨x, hx, rfl⟩ := List.mem_map.1 hj
    exact R.fresh x hx)
  simpa [ids] using h1

theorem seg_items {sz : Nat} {h : Heap α} {nx : Option Nat} {es : List (E α)} {p : Option Nat} {fo : Nat}
    (hs : Seg sz h p fo nx es) : ∀ e ∈ es, ∃ b, h e.id = some b ∧ b.items = e.items := by
  intro e he
  obtain ⟨b, h1, h2, _⟩ := seg_mem hs e he
  exact ⟨b, h1, h2⟩

theorem destruct_spec {sz : Nat} {s : St α} {a : List (E α)} {t : E α} (R : Rep sz s a t) :
    ∃ q, destruct s = some q ∧ (∀ j, q.heap j = none) ∧ q.dead = s.dead ++ flat (a ++ [t]) ∧ q.head = none := by
  obtain ⟨h', g1, g2, g3⟩ := destructLoop_spec (a ++ [t]) s.fresh s.heap s.dead R.length_le R.nodup (seg_nx R.seg)
    (seg_items R.seg)
  unfold destruct
  rw [R.head, g1]
  refine ⟨_, rfl, ?_, rfl, rfl⟩
  intro j
  dsimp only
  by_cases hj : j ∈ ids (a ++ [t])
  · exact g2 j hj
  · rw [g3 j hj]; exact R.dom j hj

theorem clear_good {sz : Nat} {s : St α} {a : List (E α)} {t : E α} (R : Rep sz s a t) (h2 : sz ≤ 2048) :
    ∃ q t', clear s = some q ∧ Good sz q [] t' ∧ flat [t'] = [] ∧ q.dead = s.dead ++ flat (a ++ [t]) := by
  have hfr : ∀ e ∈ a ++ [t], (s.heap.set s.fresh (some { cap := defaultBlockSize })) e.id = s.heap e.id := by
    intro e he
    rw [set_other _ _ (Nat.ne_of_lt (R.fresh e he))]
  have hnf : s.fresh ∉ ids (a ++ [t]) := by
    intro h
    obtain ⟨x, hx, hxe⟩ := List.mem_map.1 h
    have := R.fresh x hx
    omega
  obtain ⟨h', g1, g2, g3⟩ := destructLoop_spec (a ++ [t]) s.fresh
    (s.heap.set s.fresh (some { cap := defaultBlockSize })) s.dead R.length_le R.nodup
    (nx_congr hfr (seg_nx R.seg))
    (fun e he => by
      obtain ⟨b, hb, hi⟩ := seg_items R.seg e he
      exact ⟨b, by rw [hfr e he]; exact hb, hi⟩)
  unfold clear
  rw [R.head, g1]
  dsimp only
  refine ⟨_, ⟨s.fresh, defaultBlockSize, []⟩, rfl, ⟨⟨⟨?_, trivial⟩, by simp [ids], ?_, ?_, rfl, rfl, ?_, ?_, ?_⟩,
    fun h => absurd rfl h⟩, rfl, rfl⟩
  · dsimp only
    rw [g3 _ hnf, set_same]
    rfl
  · intro j hj
    simp [ids] at hj
    dsimp only
    by_cases hj' : j ∈ ids (a ++ [t])
    · exact g2 j hj'
    · rw [g3 j hj', set_other _ _ hj]
      exact R.dom j hj'
  · intro e he
    simp at he
    subst he
    exact Nat.lt_succ_self _
  · intro e he
    simp at he
    subst he
    simp
  · intro e he
    simp at he
    subst he
    exact h2
  · intro e he; cases he

end Verif.Seq
