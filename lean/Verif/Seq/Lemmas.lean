import Verif.Seq.Model
/-!
# Sequences — lemmas: chains of blocks
-/
namespace Verif.Seq
variable {α : Type}

/-- A block with its name, as the lemmas see it. -/
structure E (α : Type) where
  id : Nat
  cap : Nat
  items : List α

/-- The first name in a list of blocks, or another. -/
def firstId (nx : Option Nat) : List (E α) → Option Nat
  | [] => nx
  | e :: _ => some e.id

/-- The last name in a list of blocks, or another. -/
def lastId (p : Option Nat) : List (E α) → Option Nat
  | [] => p
  | e :: es => lastId (some e.id) es

/-- The items of some blocks. -/
def flat (es : List (E α)) : List α := es.flatMap (·.items)

theorem flat_cons (e : E α) (es : List (E α)) : flat (e :: es) = e.items ++ flat es := by
  simp [flat]

theorem flat_append (a b : List (E α)) : flat (a ++ b) = flat a ++ flat b := by
  simp [flat]

theorem flat_nil : flat ([] : List (E α)) = [] := rfl

/-- The addresses of the items of a block. -/
def E.locs (e : E α) : List Cur := (List.range e.items.length).map (Cur.mk e.id)

/-- The addresses of the items of some blocks. -/
def locs (es : List (E α)) : List Cur := es.flatMap (·.locs)

theorem locs_append (a b : List (E α)) : locs (a ++ b) = locs a ++ locs b := by
  simp [locs]

theorem locs_snoc (a : List (E α)) (t : E α) : locs (a ++ [t]) = locs a ++ t.locs := by
  simp [locs]

theorem locs_length (es : List (E α)) : (locs es).length = (flat es).length := by
  induction es with
  | nil => rfl
  | cons e es ih =>
    rw [flat_cons, List.length_append, ← ih]
    simp [locs, E.locs]

theorem range_prefix {m n : Nat} (h : m ≤ n) : List.range m <+: List.range n := by
  have := List.take_prefix m (List.range n)
  rwa [List.take_range, Nat.min_eq_left h] at this

theorem locs_prefix (id c1 c2 : Nat) {l l' : List α} (h : l.length ≤ l'.length) :
    (E.mk id c1 l).locs <+: (E.mk id c2 l').locs := (range_prefix h).map _

/-- The blocks are linked in the heap: before them `p`, behind them `nx`, the first at offset `fo`. -/
def Seg (sz : Nat) (h : Heap α) (p : Option Nat) (fo : Nat) (nx : Option Nat) : List (E α) → Prop
  | [] => True
  | e :: es => h e.id = some ⟨e.cap, e.items, firstId nx es, p, fo⟩ ∧
      Seg sz h (some e.id) (fo + sz * e.items.length) nx es

theorem firstId_append (nx : Option Nat) (a b : List (E α)) : firstId nx (a ++ b) = firstId (firstId nx b) a := by
  cases a <;> rfl

theorem lastId_append (p : Option Nat) (a b : List (E α)) : lastId p (a ++ b) = lastId (lastId p a) b := by
  induction a generalizing p with
  | nil => rfl
  | cons e a ih => exact ih _

theorem seg_append {sz : Nat} {h : Heap α} {nx : Option Nat} {b : List (E α)} : ∀ {a : List (E α)} {p : Option Nat} {fo : Nat},
    Seg sz h p fo nx (a ++ b) ↔
      Seg sz h p fo (firstId nx b) a ∧ Seg sz h (lastId p a) (fo + sz * (flat a).length) nx b := by
  intro a
  induction a with
  | nil => intro p fo; simp [Seg, lastId, flat]
  | cons e a ih =>
    intro p fo
    simp only [List.cons_append, Seg, ih, firstId_append, lastId, flat_cons, List.length_append,
      Nat.mul_add, Nat.add_assoc, and_assoc]

theorem seg_congr {sz : Nat} {h h' : Heap α} {nx : Option Nat} : ∀ {es : List (E α)} {p : Option Nat} {fo : Nat},
    (∀ e ∈ es, h' e.id = h e.id) → Seg sz h p fo nx es → Seg sz h' p fo nx es := by
  intro es
  induction es with
  | nil => intro p fo _ _; trivial
  | cons e es ih =>
    intro p fo hh hs
    exact ⟨(hh e List.mem_cons_self).trans hs.1, ih (fun x hx => hh x (List.mem_cons_of_mem _ hx)) hs.2⟩

theorem seg_mem {sz : Nat} {h : Heap α} {nx : Option Nat} : ∀ {es : List (E α)} {p : Option Nat} {fo : Nat},
    Seg sz h p fo nx es → ∀ e ∈ es, ∃ b, h e.id = some b ∧ b.items = e.items ∧ b.cap = e.cap := by
  intro es
  induction es with
  | nil => intro p fo _ e he; cases he
  | cons x es ih =>
    intro p fo hs e he
    rcases List.mem_cons.1 he with rfl | he
    · exact ⟨_, hs.1, rfl, rfl⟩
    · exact ih hs.2 e he

/-- The names of some blocks. -/
def ids (es : List (E α)) : List Nat := es.map (·.id)

theorem ids_append (a b : List (E α)) : ids (a ++ b) = ids a ++ ids b := by simp [ids]

theorem mem_ids {es : List (E α)} {e : E α} (h : e ∈ es) : e.id ∈ ids es := List.mem_map.2 ⟨e, h, rfl⟩

theorem set_same (h : Heap α) (i : Nat) (b : Option (Block α)) : h.set i b i = b := by simp [Heap.set]

theorem set_other (h : Heap α) {i j : Nat} (b : Option (Block α)) (hj : j ≠ i) : h.set i b j = h j := by
  simp [Heap.set, hj]

/-- The blocks `es` (at least one) are the sequence: they are the heap. -/
structure Rep (sz : Nat) (s : St α) (a : List (E α)) (t : E α) : Prop where
  seg : Seg sz s.heap none 0 none (a ++ [t])
  nodup : (ids (a ++ [t])).Nodup
  dom : ∀ j, j ∉ ids (a ++ [t]) → s.heap j = none
  fresh : ∀ e ∈ a ++ [t], e.id < s.fresh
  head : s.head = firstId none (a ++ [t])
  tail : s.tail = t.id
  cap : ∀ e ∈ a ++ [t], sz * e.items.length ≤ e.cap
  size : ∀ e ∈ a ++ [t], sz ≤ e.cap
  full : ∀ e ∈ a, e.cap - sz * e.items.length < sz

/-- …and only the first block may be empty, when there is no other. -/
structure Good (sz : Nat) (s : St α) (a : List (E α)) (t : E α) : Prop extends Rep sz s a t where
  last : a ≠ [] → t.items ≠ []

theorem Rep.nonempty {sz : Nat} {s : St α} {a : List (E α)} {t : E α} (R : Rep sz s a t) :
    ∀ e ∈ a, e.items ≠ [] := by
  intro e he hn
  have h1 := R.full e he
  have h2 := R.size e (List.mem_append_left _ he)
  rw [hn] at h1
  simp at h1
  omega

theorem Rep.tail_block {sz : Nat} {s : St α} {a : List (E α)} {t : E α} (R : Rep sz s a t) :
    s.heap s.tail = some ⟨t.cap, t.items, none, lastId none a, sz * (flat a).length⟩ := by
  have := (seg_append.1 R.seg).2
  simp only [Seg, Nat.zero_add] at this
  rw [R.tail, this.1]
  rfl

theorem Rep.tail_notin {sz : Nat} {s : St α} {a : List (E α)} {t : E α} (R : Rep sz s a t) :
    ∀ e ∈ a, e.id ≠ t.id := by
  intro e he heq
  have := R.nodup
  rw [ids_append, List.nodup_append] at this
  exact this.2.2 e.id (mem_ids he) t.id (by simp [ids]) heq

theorem create_good {sz : Nat} (h2 : sz ≤ 2048) :
    Good sz (create : St α) [] ⟨0, defaultBlockSize, []⟩ := by
  refine ⟨⟨⟨rfl, trivial⟩, by simp [ids], ?_, ?_, rfl, rfl, ?_, ?_, ?_⟩, fun h => absurd rfl h⟩
  · intro j hj
    simp [ids] at hj
    simp [create, Heap.set, hj]
  · intro e he
    simp at he
    subst he
    exact Nat.zero_lt_one
  · intro e he
    simp at he
    subst he
    simp
  · intro e he
    simp at he
    subst he
    exact h2
  · intro e he; cases he

/-- A change of the last block's items. -/
theorem Rep.setTail {sz : Nat} {s : St α} {a : List (E α)} {t : E α} (R : Rep sz s a t) (l : List α)
    (hl : sz * l.length ≤ t.cap) (q : St α)
    (hq : q.heap = s.heap.set s.tail (some ⟨t.cap, l, none, lastId none a, sz * (flat a).length⟩))
    (hf : q.fresh = s.fresh) (hh : q.head = s.head) (ht : q.tail = s.tail) :
    Rep sz q a ⟨t.id, t.cap, l⟩ := by
  have hne := R.tail_notin
  obtain ⟨s1, s2⟩ := seg_append.1 R.seg
  refine ⟨seg_append.2 ⟨?_, ?_, trivial⟩, ?_, ?_, ?_, ?_, ?_, ?_, ?_, R.full⟩
  · refine seg_congr ?_ s1
    intro e he
    rw [hq, R.tail, set_other _ _ (hne e he)]
  · rw [hq, R.tail, set_same, Nat.zero_add]
    rfl
  · have := R.nodup
    simpa [ids_append, ids] using this
  · intro j hj
    have hj' : j ∉ ids (a ++ [t]) := by simpa [ids_append, ids] using hj
    have : j ≠ t.id := by
      rintro rfl
      exact hj' (by simp [ids])
    rw [hq, R.tail, set_other _ _ this]
    exact R.dom j hj'
  · intro e he
    rw [hf]
    rcases List.mem_append.1 he with h | h
    · exact R.fresh e (List.mem_append_left _ h)
    · simp at h
      subst h
      exact R.fresh t (by simp)
  · rw [hh, R.head]
    cases a <;> rfl
  · rw [ht, R.tail]
  · intro e he
    rcases List.mem_append.1 he with h | h
    · exact R.cap e (List.mem_append_left _ h)
    · simp at h
      subst h
      exact hl
  · intro e he
    rcases List.mem_append.1 he with h | h
    · exact R.size e (List.mem_append_left _ h)
    · simp at h
      subst h
      exact R.size t (by simp)

theorem appendBlock_rep {sz n : Nat} {s : St α} {a : List (E α)} {t : E α} (R : Rep sz s a t)
    (hn : 100 < n) (hsn : sz ≤ n) (hfull : t.cap - sz * t.items.length < sz) :
    ∃ q, appendBlock sz s n = some q ∧ Rep sz q (a ++ [t]) ⟨s.fresh, n, []⟩ ∧ q.dead = s.dead := by
  have hb := R.tail_block
  have hne := R.tail_notin
  have hfr : ∀ e ∈ a ++ [t], e.id ≠ s.fresh := fun e he => Nat.ne_of_lt (R.fresh e he)
  obtain ⟨s1, s2⟩ := seg_append.1 R.seg
  unfold appendBlock
  rw [hb]
  dsimp only
  rw [if_neg (by simp; omega)]
  refine ⟨_, rfl, ⟨?_, ?_, ?_, ?_, ?_, rfl, ?_, ?_, ?_⟩, rfl⟩
  · rw [List.append_assoc]
    refine seg_append.2 ⟨?_, ?_⟩
    · refine seg_congr ?_ s1
      intro e he
      dsimp only
      rw [set_other _ _ (hfr e (List.mem_append_left _ he)), R.tail, set_other _ _ (hne e he)]
    · refine ⟨?_, ?_, trivial⟩
      · dsimp only
        rw [set_other _ _ (hfr t (by simp)), R.tail, set_same, Nat.zero_add]
        rfl
      · dsimp only
        rw [set_same, R.tail, Nat.zero_add]
        rfl
  · rw [ids_append, List.nodup_append]
    refine ⟨R.nodup, by simp [ids], ?_⟩
    intro i hi j hj
    simp [ids] at hj
    subst hj
    obtain ⟨e, he, rfl⟩ := List.mem_map.1 hi
    exact hfr e he
  · intro j hj
    rw [ids_append, List.mem_append, not_or] at hj
    have h1 : j ≠ s.fresh := by
      rintro rfl
      exact hj.2 (by simp [ids])
    have h2 : j ≠ t.id := by
      rintro rfl
      exact hj.1 (by simp [ids])
    dsimp only
    rw [set_other _ _ h1, R.tail, set_other _ _ h2]
    exact R.dom j hj.1
  · intro e he
    dsimp only
    rcases List.mem_append.1 he with h | h
    · exact Nat.lt_succ_of_lt (R.fresh e h)
    · simp at h
      subst h
      exact Nat.lt_succ_self _
  · dsimp only
    rw [R.head]
    cases a <;> rfl
  · intro e he
    rcases List.mem_append.1 he with h | h
    · exact R.cap e h
    · simp at h
      subst h
      simp
  · intro e he
    rcases List.mem_append.1 he with h | h
    · exact R.size e h
    · simp at h
      subst h
      exact hsn
  · intro e he
    rcases List.mem_append.1 he with h | h
    · exact R.full e h
    · simp at h
      subst h
      exact hfull

theorem Rep.flat_eq (a : List (E α)) (t : E α) : flat (a ++ [t]) = flat a ++ t.items := by
  rw [flat_append, flat_cons, flat_nil, List.append_nil]

theorem unused_mk (sz c : Nat) (l : List α) (n p : Option Nat) (f : Nat) :
    Block.unused sz ⟨c, l, n, p, f⟩ = c - sz * l.length := rfl

theorem used_mk (sz c : Nat) (l : List α) (n p : Option Nat) (f : Nat) :
    Block.used sz ⟨c, l, n, p, f⟩ = sz * l.length := rfl

/-- There is space after `beginWrite`, and the items are the same. -/
theorem beginWrite_rep {sz : Nat} {s : St α} {a : List (E α)} {t : E α} (R : Rep sz s a t)
    (hsz : 0 < sz) (h2 : sz ≤ 2048) :
    ∃ q n a' t', beginWrite sz s = some (q, n) ∧ Rep sz q a' t' ∧ flat (a' ++ [t']) = flat (a ++ [t]) ∧
      q.dead = s.dead ∧ 1 ≤ n ∧ n * sz ≤ t'.cap - sz * t'.items.length ∧
      locs (a' ++ [t']) = locs (a ++ [t]) ∧ q.head = s.head := by
  have hb := R.tail_block
  unfold beginWrite
  rw [hb]
  dsimp only
  rw [unused_mk]
  by_cases hu : t.cap - sz * t.items.length < sz
  · rw [if_pos hu]
    obtain ⟨q, hq, R', hd⟩ := appendBlock_rep R (n := max defaultBlockSize sz)
      (by simp [defaultBlockSize]; omega) (by omega) hu
    rw [hq]
    dsimp only
    rw [R'.tail_block]
    dsimp only
    rw [unused_mk]
    refine ⟨q, _, _, _, rfl, R', ?_, hd, ?_, ?_, ?_, ?_⟩
    · rw [Rep.flat_eq (a ++ [t])]; simp
    · simp only [List.length_nil, Nat.mul_zero, Nat.sub_zero]
      rw [Nat.le_div_iff_mul_le hsz]
      simp [defaultBlockSize]
      omega
    · simp only [List.length_nil, Nat.mul_zero, Nat.sub_zero]
      exact Nat.div_mul_le_self _ _
    · rw [locs_snoc (a ++ [t])]
      simp [E.locs]
    · rw [R'.head, R.head]
      cases a <;> rfl
  · rw [if_neg hu]
    refine ⟨s, _, a, t, rfl, R, rfl, rfl, ?_, Nat.div_mul_le_self _ _, rfl, rfl⟩
    rw [Nat.le_div_iff_mul_le hsz]
    omega

theorem endWrite_rep {sz : Nat} {s : St α} {a : List (E α)} {t : E α} (R : Rep sz s a t) (xs : List α)
    (hx : sz * xs.length ≤ t.cap - sz * t.items.length) :
    ∃ q, endWrite sz s xs = some q ∧ Rep sz q a ⟨t.id, t.cap, t.items ++ xs⟩ ∧ q.dead = s.dead ∧
      q.head = s.head := by
  have hb := R.tail_block
  unfold endWrite
  rw [hb]
  dsimp only
  rw [unused_mk]
  rw [if_pos hx]
  refine ⟨_, rfl, R.setTail (t.items ++ xs) ?_ _ rfl rfl rfl rfl, rfl, rfl⟩
  have := R.cap t (by simp)
  rw [List.length_append, Nat.mul_add]
  omega

theorem append_good {sz : Nat} {s : St α} {a : List (E α)} {t : E α} (R : Rep sz s a t)
    (hsz : 0 < sz) (h2 : sz ≤ 2048) (x : α) :
    ∃ q c a' t', append sz s x = some (q, c) ∧ Good sz q a' t' ∧ flat (a' ++ [t']) = flat (a ++ [t]) ++ [x] ∧
      q.dead = s.dead ∧ locs (a' ++ [t']) = locs (a ++ [t]) ++ [c] ∧ q.head = s.head := by
  obtain ⟨q, n, a', t', h, R', hf, hd, hn, hc, hlo, hhe⟩ := beginWrite_rep R hsz h2
  have hx : sz * [x].length ≤ t'.cap - sz * t'.items.length := by
    have : 1 * sz ≤ n * sz := Nat.mul_le_mul_right _ hn
    simp
    omega
  obtain ⟨q', h', R'', hd', hhe'⟩ := endWrite_rep R' [x] hx
  unfold append
  rw [h]
  dsimp only
  rw [R'.tail_block]
  dsimp only
  rw [h']
  refine ⟨q', _, a', _, rfl, ⟨R'', fun _ => by simp⟩, ?_, by rw [hd', hd], ?_, by rw [hhe', hhe]⟩
  · rw [Rep.flat_eq]
    dsimp only
    rw [← List.append_assoc, ← Rep.flat_eq, hf]
  · rw [← hlo, locs_snoc, locs_snoc, List.append_assoc]
    simp [E.locs, List.range_succ, R'.tail]

theorem writeAll_good {sz : Nat} (hsz : 0 < sz) (h2 : sz ≤ 2048) : ∀ (fuel : Nat) {s : St α} {a : List (E α)} {t : E α}
    (_ : Good sz s a t) (xs : List α), xs.length ≤ fuel →
    ∃ q a' t', writeAll sz fuel s xs = some q ∧ Good sz q a' t' ∧ flat (a' ++ [t']) = flat (a ++ [t]) ++ xs ∧
      q.dead = s.dead ∧ locs (a ++ [t]) <+: locs (a' ++ [t']) ∧ q.head = s.head := by
  intro fuel
  induction fuel with
  | zero =>
    intro s a t R xs hx
    cases xs with
    | nil => exact ⟨s, a, t, rfl, R, by simp, rfl, List.prefix_refl _, rfl⟩
    | cons x xs => simp at hx
  | succ fuel ih =>
    intro s a t R xs hx
    cases xs with
    | nil => exact ⟨s, a, t, rfl, R, by simp, rfl, List.prefix_refl _, rfl⟩
    | cons x xs =>
      obtain ⟨q, n, a', t', h, R', hf, hd, hn, hc, hlo, hhe⟩ := beginWrite_rep R.toRep hsz h2
      have hlen : ((x :: xs).take n).length ≤ n := by simp; omega
      have hx' : sz * ((x :: xs).take n).length ≤ t'.cap - sz * t'.items.length := by
        have := Nat.mul_le_mul_left sz hlen
        rw [Nat.mul_comm sz n] at this
        omega
      obtain ⟨q', h', R'', hd', hhe'⟩ := endWrite_rep R' _ hx'
      have G : Good sz q' a' ⟨t'.id, t'.cap, t'.items ++ (x :: xs).take n⟩ := by
        refine ⟨R'', fun _ => ?_⟩
        obtain ⟨m, rfl⟩ : ∃ m, n = m + 1 := ⟨n - 1, by omega⟩
        simp
      obtain ⟨q'', a'', t'', h'', G'', hf'', hd'', hlo'', hhe''⟩ := ih G ((x :: xs).drop n) (by
        simp only [List.length_drop, List.length_cons] at hx ⊢
        omega)
      unfold writeAll
      rw [h]
      dsimp only
      rw [h']
      dsimp only
      refine ⟨q'', a'', t'', h'', G'', ?_, by rw [hd'', hd', hd], ?_, by rw [hhe'', hhe', hhe]⟩
      · rw [hf'', Rep.flat_eq]
        dsimp only
        rw [List.append_assoc, List.append_assoc, List.take_append_drop, ← List.append_assoc, ← Rep.flat_eq, hf]
      · refine List.IsPrefix.trans ?_ hlo''
        rw [← hlo, locs_snoc, locs_snoc]
        exact (List.prefix_append_right_inj _).2 (locs_prefix _ _ _ (by simp))

end Verif.Seq
