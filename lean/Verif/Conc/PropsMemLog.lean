import Verif.Conc.ModelMemLog
/-!
# `Trace_MemLog` — properties C40
-/
namespace Verif.Conc.MemLog

/-- The thread owns the mutex. -/
def Owns : PC → Prop
  | .loadTail | .check _ | .addAgain _ | .create _ | .link _ _ | .publish _ | .trim _ | .unlock _ _ => True
  | _ => False

/-- The slot a thread has been given and not yet written. -/
def Has (pc : PC) (p i : Nat) : Prop :=
  pc = .write p i ∨ pc = .unlock p i ∨ ((∃ o, pc = .link o p) ∧ i = 0) ∨ (pc = .publish p ∧ i = 0) ∨
  (pc = .trim p ∧ i = 0)

/-- What the owner of the mutex is doing. -/
def phase (s : St) : PC := match s.owner with
  | none => .outside
  | some t => s.pc t

/-- The new page is not counted yet. -/
def uncounted : PC → Nat
  | .link _ _ | .publish _ | .trim _ => 1
  | _ => 0

/-- The new page is not published yet. -/
def unpublished : PC → Nat
  | .link _ _ | .publish _ => 1
  | _ => 0

/-- The bookkeeping of pages. -/
structure Pages (s : St) : Prop where
  owns : ∀ t, Owns (s.pc t) ↔ s.owner = some t
  freed : ∀ p, s.freed p = true ↔ p < s.head
  count : s.head + s.numPages + uncounted (phase s) = s.created
  tail : s.tail + 1 + unpublished (phase s) = s.created
  pos : 1 ≤ s.numPages
  small : s.numPages ≤ MaxNumPages
  early : s.numPages < MaxNumPages → s.head = 0
  next : ∀ p, p < s.tail → s.next p = some (p + 1)
  atTail : ∀ t p, s.pc t = .check p ∨ s.pc t = .addAgain p ∨ s.pc t = .create p → p = s.tail
  atLink : ∀ t p q, s.pc t = .link p q → p = s.tail ∧ q = s.tail + 1
  atPublish : ∀ t q, s.pc t = .publish q → q = s.tail + 1 ∧ s.next s.tail = some q
  atTrim : ∀ t q, s.pc t = .trim q → q = s.tail
  atAdd : ∀ t p, s.pc t = .add p → p ≤ s.tail

theorem pages_init : Pages init := by
  constructor <;> simp [init, Owns, phase, uncounted, unpublished, MaxNumPages]

theorem pages_step (s s' : St) (hi : Pages s) (h : step s s') (hb : s'.bad = false) : Pages s' := by
  obtain ⟨t, h⟩ := h
  have hM : MaxNumPages = 4 := rfl
  obtain ⟨i1, i2, i3, i4, i5, i6, i7, i8, i9, i10, i11, i12, i13⟩ := hi
  have i9c : ∀ t p, s.pc t = .create p → p = s.tail := fun t p h => i9 t p (.inr (.inr h))
  cases h <;> simp only [touch] at hb ⊢ <;> (try split at hb) <;> (try simp at hb) <;>
    (try rw [if_neg (by assumption)]) <;>
    constructor <;> simp only [upd, phase] at * <;> grind [Owns, uncounted, unpublished]

/-- The bookkeeping of slots: `H t p i` says that thread `t` has been given slot `i` of page `p`. -/
structure Core (E created : Nat) (index : Nat → Nat) (written : List (Tid × Nat × Nat))
    (H : Tid → Nat → Nat → Prop) : Prop where
  fresh : ∀ p, created ≤ p → index p = 0
  hasRange : ∀ t p i, H t p i → p < created ∧ i < E ∧ i < index p
  writtenRange : ∀ t p i, (t, p, i) ∈ written → p < created ∧ i < E ∧ i < index p
  alone : ∀ t u p i, H t p i → H u p i → t = u
  notYet : ∀ t u p i, H t p i → (u, p, i) ∉ written
  once : (written.map (·.2)).Nodup
  noGap : ∀ p i, i < index p → i < E → (∃ t, H t p i) ∨ ∃ t, (t, p, i) ∈ written

/-- A step that gives and takes nothing. -/
theorem Core.keep {E c : Nat} {ix : Nat → Nat} {w : List (Tid × Nat × Nat)}
    {H H' : Tid → Nat → Nat → Prop} (h : Core E c ix w H) (hH : ∀ t p i, H' t p i ↔ H t p i) :
    Core E c ix w H' := by
  have : H' = H := by funext t p i; exact propext (hH t p i)
  rw [this]; exact h

/-- A thread adds 1 to the index of a page. -/
theorem Core.add {E c : Nat} {ix : Nat → Nat} {w : List (Tid × Nat × Nat)}
    {H H' : Tid → Nat → Nat → Prop} (h : Core E c ix w H) (t : Tid) (p : Nat) (hp : p < c)
    (hn : ∀ q i, ¬ H t q i)
    (hH : ∀ u q i, H' u q i ↔ H u q i ∨ (u = t ∧ q = p ∧ i = ix p ∧ ix p < E)) :
    Core E c (upd ix p (ix p + 1)) w H' := by
  obtain ⟨h1, h2, h3, h4, h5, h6, h7⟩ := h
  have hlt : ∀ q i, i < ix q → i < upd ix p (ix p + 1) q := by
    intro q i hi
    by_cases hq : q = p
    · subst hq; rw [upd_same]; omega
    · rw [upd_other _ _ hq]; exact hi
  refine ⟨?_, ?_, ?_, ?_, ?_, h6, ?_⟩
  · intro q hq
    rw [upd_other _ _ (by rintro rfl; exact absurd hp (Nat.not_lt.mpr hq))]
    exact h1 q hq
  · intro u q i hu
    rcases (hH u q i).mp hu with hu | ⟨rfl, rfl, rfl, hE⟩
    · obtain ⟨a, b, c⟩ := h2 u q i hu
      exact ⟨a, b, hlt q i c⟩
    · exact ⟨hp, hE, by rw [upd_same]; omega⟩
  · intro u q i hu
    obtain ⟨a, b, c⟩ := h3 u q i hu
    exact ⟨a, b, hlt q i c⟩
  · intro a b q i ha hb
    rcases (hH a q i).mp ha with ha | ⟨rfl, rfl, rfl, hE⟩
    · rcases (hH b q i).mp hb with hb | ⟨rfl, rfl, rfl, hE⟩
      · exact h4 a b q i ha hb
      · have := (h2 a _ _ ha).2.2; omega
    · rcases (hH b q _).mp hb with hb | ⟨rfl, -, -, -⟩
      · have := (h2 b _ _ hb).2.2; omega
      · rfl
  · intro a b q i ha hb
    rcases (hH a q i).mp ha with ha | ⟨rfl, rfl, rfl, hE⟩
    · exact h5 a b q i ha hb
    · have := (h3 b _ _ hb).2.2; omega
  · intro q i hi hE
    by_cases hq : q = p
    · subst hq
      rw [upd_same] at hi
      by_cases he : i = ix q
      · left
        exact ⟨t, (hH t q i).mpr (.inr ⟨rfl, rfl, he, he ▸ hE⟩)⟩
      · rcases h7 q i (by omega) hE with ⟨u, hu⟩ | hu
        · exact .inl ⟨u, (hH u q i).mpr (.inl hu)⟩
        · exact .inr hu
    · rw [upd_other _ _ hq] at hi
      rcases h7 q i hi hE with ⟨u, hu⟩ | hu
      · exact .inl ⟨u, (hH u q i).mpr (.inl hu)⟩
      · exact .inr hu

/-- A thread creates a page and keeps its first slot. -/
theorem Core.create {E c : Nat} {ix : Nat → Nat} {w : List (Tid × Nat × Nat)}
    {H H' : Tid → Nat → Nat → Prop} (h : Core E c ix w H) (t : Tid) (hE : 0 < E)
    (hH : ∀ u q i, H' u q i ↔ H u q i ∨ (u = t ∧ q = c ∧ i = 0)) :
    Core E (c + 1) (upd ix c 1) w H' := by
  obtain ⟨h1, h2, h3, h4, h5, h6, h7⟩ := h
  have h0 := h1 c (Nat.le_refl _)
  have hne : ∀ q, q < c → upd ix c 1 q = ix q := fun q hq => upd_other _ _ (Nat.ne_of_lt hq)
  refine ⟨?_, ?_, ?_, ?_, ?_, h6, ?_⟩
  · intro q hq
    rw [upd_other _ _ (by rintro rfl; exact absurd hq (by omega))]
    exact h1 q (by omega)
  · intro u q i hu
    rcases (hH u q i).mp hu with hu | ⟨rfl, rfl, rfl⟩
    · obtain ⟨a, b, c⟩ := h2 u q i hu
      exact ⟨by omega, b, by rw [hne q a]; exact c⟩
    · exact ⟨by omega, hE, by rw [upd_same]; omega⟩
  · intro u q i hu
    obtain ⟨a, b, c⟩ := h3 u q i hu
    exact ⟨by omega, b, by rw [hne q a]; exact c⟩
  · intro a b q i ha hb
    rcases (hH a q i).mp ha with ha | ⟨rfl, rfl, rfl⟩
    · rcases (hH b q i).mp hb with hb | ⟨rfl, rfl, rfl⟩
      · exact h4 a b q i ha hb
      · have := (h2 a _ _ ha).1; omega
    · rcases (hH b q _).mp hb with hb | ⟨rfl, -, -⟩
      · have := (h2 b _ _ hb).1; omega
      · rfl
  · intro a b q i ha hb
    rcases (hH a q i).mp ha with ha | ⟨rfl, rfl, rfl⟩
    · exact h5 a b q i ha hb
    · have := (h3 b _ _ hb).1; omega
  · intro q i hi hE
    by_cases hq : q = c
    · subst hq
      rw [upd_same] at hi
      exact .inl ⟨t, (hH t q i).mpr (.inr ⟨rfl, rfl, by omega⟩)⟩
    · rw [upd_other _ _ hq] at hi
      rcases h7 q i hi hE with ⟨u, hu⟩ | hu
      · exact .inl ⟨u, (hH u q i).mpr (.inl hu)⟩
      · exact .inr hu

/-- A thread writes its slot. -/
theorem Core.write {E c : Nat} {ix : Nat → Nat} {w : List (Tid × Nat × Nat)}
    {H H' : Tid → Nat → Nat → Prop} (h : Core E c ix w H) (t : Tid) (p i : Nat) (ht : H t p i)
    (hH : ∀ u q j, H' u q j ↔ H u q j ∧ u ≠ t) (ho : ∀ q j, H t q j → q = p ∧ j = i) :
    Core E c ix ((t, p, i) :: w) H' := by
  obtain ⟨h1, h2, h3, h4, h5, h6, h7⟩ := h
  refine ⟨h1, ?_, ?_, ?_, ?_, ?_, ?_⟩
  · intro u q j hu
    exact h2 u q j ((hH u q j).mp hu).1
  · intro u q j hu
    rcases List.mem_cons.mp hu with hu | hu
    · cases hu; exact h2 _ _ _ ht
    · exact h3 u q j hu
  · intro a b q j ha hb
    exact h4 a b q j ((hH a q j).mp ha).1 ((hH b q j).mp hb).1
  · intro a b q j ha hb
    obtain ⟨ha1, ha2⟩ := (hH a q j).mp ha
    rcases List.mem_cons.mp hb with hb | hb
    · cases hb
      exact ha2 (h4 _ _ _ _ ha1 ht)
    · exact h5 a b q j ha1 hb
  · rw [List.map_cons]
    refine List.nodup_cons.mpr ⟨?_, h6⟩
    intro hm
    obtain ⟨⟨u, q, j⟩, hx, he⟩ := List.mem_map.mp hm
    cases he
    exact h5 t u p i ht hx
  · intro q j hj hE
    rcases h7 q j hj hE with ⟨u, hu⟩ | ⟨u, hu⟩
    · by_cases hut : u = t
      · subst hut
        obtain ⟨rfl, rfl⟩ := ho q j hu
        exact .inr ⟨u, List.mem_cons_self⟩
      · exact .inl ⟨u, (hH u q j).mpr ⟨hu, hut⟩⟩
    · exact .inr ⟨u, List.mem_cons_of_mem _ hu⟩

/-- The slots of a state. -/
def Slots (s : St) : Prop :=
  Core EventsPerPage s.created s.index s.written (fun t p i => Has (s.pc t) p i)

theorem slots_init : Slots init := by
  constructor <;> simp [init, Has]

theorem has_upd (f : Tid → PC) (t u : Tid) (v : PC) (p i : Nat) :
    Has (upd f t v u) p i ↔ (u = t ∧ Has v p i) ∨ (u ≠ t ∧ Has (f u) p i) := by
  by_cases hu : u = t
  · subst hu; rw [upd_same]; simp
  · rw [upd_other _ _ hu]; simp [hu]

theorem has_keep (f : Tid → PC) (t : Tid) (v : PC) (h : ∀ p i, Has v p i ↔ Has (f t) p i) (u : Tid)
    (p i : Nat) : Has (upd f t v u) p i ↔ Has (f u) p i := by
  rw [has_upd]
  by_cases hu : u = t
  · subst hu; simp [h]
  · simp [hu]

theorem slots_step (s s' : St) (hp : Pages s) (hi : Slots s) (h : step s s') (hb : s'.bad = false) :
    Slots s' := by
  obtain ⟨t, h⟩ := h
  have hE : 0 < EventsPerPage := by decide
  have htail : s.tail < s.created := by have := hp.tail; omega
  cases h with
  | call h0 h1 => exact Core.keep hi (has_keep _ _ _ (by simp only [Has, h1]; grind))
  | load h0 h1 => exact Core.keep hi (has_keep _ _ _ (by simp only [Has, h1]; grind))
  | lock h0 h1 => exact Core.keep hi (has_keep _ _ _ (by simp only [Has, h1]; grind))
  | loadTail h0 h1 => exact Core.keep hi (has_keep _ _ _ (by simp only [Has, h1]; grind))
  | publish h0 h1 => exact Core.keep hi (has_keep _ _ _ (by simp only [Has, h1]; grind))
  | count h0 h1 => exact Core.keep hi (has_keep _ _ _ (by simp only [Has, h1]; grind))
  | unlock h0 h1 => exact Core.keep hi (has_keep _ _ _ (by simp only [Has, h1]; grind))
  | deleteLast h0 h1 => simp at hb
  | @delete q h h0 h1 h2 h3 =>
    simp only [touch] at hb ⊢
    split at hb
    · simp at hb
    · rename_i hf
      rw [if_neg hf]
      exact Core.keep hi (has_keep _ _ _ (by simp only [Has, h1]; grind))
  | @link p q h0 h1 =>
    simp only [touch] at hb ⊢
    split at hb
    · simp at hb
    · rename_i hf
      rw [if_neg hf]
      exact Core.keep hi (has_keep _ _ _ (by simp only [Has, h1]; grind))
  | @check p h0 h1 =>
    simp only [touch] at hb ⊢
    split at hb
    · simp at hb
    · rename_i hf
      rw [if_neg hf]
      refine Core.keep hi (has_keep _ _ _ ?_)
      intro p i
      split <;> simp [Has, h1]
  | @add p h0 h1 =>
    simp only [touch] at hb ⊢
    split at hb
    · simp at hb
    · rename_i hf
      rw [if_neg hf]
      refine Core.add hi t p (by have := hp.atAdd t p h1; omega) (by simp [Has, h1]) ?_
      intro u q i
      rw [has_upd]
      by_cases hu : u = t
      · subst hu
        split <;> simp [Has, *] <;> grind
      · simp [hu]
  | @addAgain p h0 h1 =>
    simp only [touch] at hb ⊢
    split at hb
    · simp at hb
    · rename_i hf
      rw [if_neg hf]
      refine Core.add hi t p (by have := hp.atTail t p (.inr (.inl h1)); omega) (by simp [Has, h1]) ?_
      intro u q i
      rw [has_upd]
      by_cases hu : u = t
      · subst hu
        split <;> simp [Has, *] <;> grind
      · simp [hu]
  | @create p h0 h1 =>
    refine Core.create hi t hE ?_
    intro u q i
    rw [has_upd]
    by_cases hu : u = t
    · subst hu
      simp [Has, h1]
      grind
    · simp [hu]
  | @write p i h0 h1 =>
    simp only [touch] at hb ⊢
    split at hb
    · simp at hb
    · rename_i hf
      rw [if_neg hf]
      refine Core.write hi t p i (by simp [Has, h1]) ?_ (by simp only [Has, h1]; grind)
      intro u q j
      rw [has_upd]
      by_cases hu : u = t
      · subst hu; simp [Has]
      · simp [hu]

/-- A page is full before another one is created. -/
structure Full (s : St) : Prop where
  atCreate : ∀ t p, s.pc t = .create p → EventsPerPage ≤ s.index p
  older : ∀ p, p < s.tail → EventsPerPage ≤ s.index p
  atLink : ∀ t p q, s.pc t = .link p q → EventsPerPage ≤ s.index p
  atPublish : ∀ t q, s.pc t = .publish q → EventsPerPage ≤ s.index s.tail

theorem full_init : Full init := by
  constructor <;> simp [init]

theorem full_step (s s' : St) (hp : Pages s) (hi : Full s) (h : step s s') (hb : s'.bad = false) :
    Full s' := by
  obtain ⟨t, h⟩ := h
  obtain ⟨p1, -, -, p4, -, -, -, -, p9, p10, p11, p12, p13⟩ := hp
  have p9c : ∀ t p, s.pc t = .create p → p = s.tail := fun t p h => p9 t p (.inr (.inr h))
  have p4' : s.tail < s.created := by omega
  clear p4 p9 p13
  generalize hE : EventsPerPage = E at *
  obtain ⟨i1, i2, i3, i4⟩ := hi
  rw [hE] at i1 i2 i3 i4
  cases h <;> simp only [touch, hE] at hb ⊢ <;> (try split at hb) <;> (try simp at hb) <;>
    (try rw [if_neg (by assumption)]) <;>
    constructor <;> simp only [upd, hE] at * <;> grind [Owns]

theorem inv_reachable {s : St} (h : Reachable init step s) (hb : s.bad = false) :
    Pages s ∧ Slots s ∧ Full s := by
  induction h with
  | init => exact ⟨pages_init, slots_init, full_init⟩
  | @step s s' _ hs ih =>
    have h0 : s.bad = false := by
      obtain ⟨t, hs⟩ := hs
      cases hs <;> assumption
    obtain ⟨hp, hl, hf⟩ := ih h0
    exact ⟨pages_step s s' hp hs hb, slots_step s s' hp hl hs hb, full_step s s' hp hf hs hb⟩

/-- **C40** (as long as no deleted page has been touched, see `C40_deleted_page`): no slot is ever
written twice, whatever the interleaving, and every slot written lies inside its page. -/
theorem C40_unique_partial (s : St) (h : Reachable init step s) (hb : s.bad = false) :
    (s.written.map (·.2)).Nodup ∧
    (∀ t p i, (t, p, i) ∈ s.written → p < s.created ∧ i < EventsPerPage) ∧
    (∀ t u p i, s.pc t = .write p i → s.pc u = .write p i → t = u) ∧
    (∀ t u p i, s.pc t = .write p i → i < EventsPerPage ∧ (u, p, i) ∉ s.written) := by
  obtain ⟨-, hl, -⟩ := inv_reachable h hb
  refine ⟨hl.once, fun t p i hm => ⟨(hl.writtenRange t p i hm).1, (hl.writtenRange t p i hm).2.1⟩,
    fun t u p i ht hu => hl.alone t u p i (.inl ht) (.inl hu),
    fun t u p i ht => ⟨(hl.hasRange t p i (.inl ht)).2.1, hl.notYet t u p i (.inl ht)⟩⟩

/-- **C40**: no slot is wasted: when no thread is inside `log`, every slot of every page but the last
has been written, and the last page has been written up to its index. -/
theorem C40_no_gaps_partial (s : St) (h : Reachable init step s) (hb : s.bad = false)
    (hidle : ∀ t, s.pc t = .outside) :
    s.tail + 1 = s.created ∧
    (∀ p i, p < s.tail → i < EventsPerPage → ∃ t, (t, p, i) ∈ s.written) ∧
    (∀ i, i < s.index s.tail → i < EventsPerPage → ∃ t, (t, s.tail, i) ∈ s.written) := by
  obtain ⟨hp, hl, hf⟩ := inv_reachable h hb
  have hno : ∀ p i, ¬ ∃ t, Has (s.pc t) p i := by
    rintro p i ⟨t, ht⟩
    rw [hidle t] at ht
    simp [Has] at ht
  refine ⟨?_, ?_, ?_⟩
  · have hph : phase s = .outside := by
      unfold phase
      cases s.owner with
      | none => rfl
      | some t => exact hidle t
    have := hp.tail
    rw [hph] at this
    simpa [unpublished] using this
  · intro p i hpt hi
    exact (hl.noGap p i (Nat.lt_of_lt_of_le hi (hf.older p hpt)) hi).resolve_left (hno p i)
  · intro i hi hE
    exact (hl.noGap _ i hi hE).resolve_left (hno _ i)

/-- **C40**: a thread touches a deleted page only if it has been holding on to a page for so long that
at least `MaxNumPages` newer pages have been created meanwhile. -/
theorem C40_window (s s' : St) (h : Reachable init step s) (t : Tid) (hs : Step t s s')
    (hb : s'.bad = true) :
    ∃ p, (s.pc t = .add p ∨ ∃ i, s.pc t = .write p i) ∧ p + MaxNumPages < s.created := by
  have h0 : s.bad = false := by cases hs <;> assumption
  obtain ⟨hp, -, -⟩ := inv_reachable h h0
  obtain ⟨p1, p2, p3, p4, p5, p6, p7, p8, p9, p10, p11, p12, p13⟩ := hp
  have old : ∀ p, s.freed p = true → p + MaxNumPages < s.created := by
    intro p hp
    have := (p2 p).mp hp
    have : ¬ s.numPages < MaxNumPages := fun h => by have := p7 h; omega
    omega
  have htail : s.freed s.tail = false := by
    cases hf : s.freed s.tail with
    | false => rfl
    | true =>
      exfalso
      have h1 := (p2 _).mp hf
      have : unpublished (phase s) ≤ uncounted (phase s) := by
        cases phase s <;> simp [unpublished, uncounted]
      omega
  cases hs with
  | call => simp [h0] at hb
  | load => simp [h0] at hb
  | lock => simp [h0] at hb
  | loadTail => simp [h0] at hb
  | create => simp [h0] at hb
  | publish => simp [h0] at hb
  | count => simp [h0] at hb
  | unlock => simp [h0] at hb
  | @add p _ h1 =>
    refine ⟨p, .inl h1, old p ?_⟩
    simp only [touch] at hb
    split at hb
    · assumption
    · simp [h0] at hb
  | @write p i _ h1 =>
    refine ⟨p, .inr ⟨i, h1⟩, old p ?_⟩
    simp only [touch] at hb
    split at hb
    · assumption
    · simp [h0] at hb
  | @check p _ h1 =>
    exfalso
    rw [p9 t p (.inl h1)] at hb
    simp [touch, htail, h0] at hb
  | @addAgain p _ h1 =>
    exfalso
    rw [p9 t p (.inr (.inl h1))] at hb
    simp [touch, htail, h0] at hb
  | @link p q _ h1 =>
    exfalso
    rw [(p10 t p q h1).1] at hb
    simp [touch, htail, h0] at hb
  | @delete q h _ h1 h2 h3 =>
    exfalso
    have : s.freed s.head = false := by
      cases hf : s.freed s.head with
      | false => rfl
      | true => have := (p2 _).mp hf; omega
    simp [touch, this, h0] at hb
  | @deleteLast q _ h1 h2 h3 =>
    exfalso
    have hq := p12 t q h1
    have ho := (p1 t).mp (by rw [h1]; trivial)
    have hph : phase s = .trim q := by unfold phase; rw [ho]; exact h1
    rw [hph] at p3 p4
    simp only [uncounted, unpublished] at p3 p4
    have := p8 s.head (by have : MaxNumPages = 4 := rfl; omega)
    rw [h3] at this
    cases this

/-- In particular, as long as no more than `MaxNumPages` pages have been created, that is, no more
than `MaxNumPages * EventsPerPage` slots have been handed out, nothing can go wrong. -/
theorem C40_first_pages (s s' : St) (h : Reachable init step s) (hs : step s s')
    (hc : s.created ≤ MaxNumPages) : s'.bad = false := by
  obtain ⟨t, hs⟩ := hs
  cases hb : s'.bad with
  | false => rfl
  | true =>
    obtain ⟨p, -, hp⟩ := C40_window s s' h t hs hb
    omega

theorem tail_live {s : St} (hp : Pages s) : s.freed s.tail = false := by
  cases hf : s.freed s.tail with
  | false => rfl
  | true =>
    exfalso
    have h1 := (hp.freed _).mp hf
    have h2 : unpublished (phase s) ≤ uncounted (phase s) := by
      cases phase s <;> simp [unpublished, uncounted]
    have h3 := hp.count
    have h4 := hp.tail
    have h5 := hp.pos
    omega

theorem head_live {s : St} (hp : Pages s) : s.freed s.head = false := by
  cases hf : s.freed s.head with
  | false => rfl
  | true => have := (hp.freed _).mp hf; omega

/-- The state has been reached without touching a deleted page, thread 1 is at `pc`, the others are
where they were in `s0`. -/
structure Solo (s0 s : St) (pc : PC) : Prop where
  reach : Reachable init step s
  ok : s.bad = false
  others : ∀ u, u ≠ 1 → s.pc u = s0.pc u
  here : s.pc 1 = pc

theorem Solo.pages {s0 s : St} {pc : PC} (h : Solo s0 s pc) : Pages s :=
  (inv_reachable h.reach h.ok).1

theorem Solo.go {s0 s s' : St} {pc pc' : PC} (h : Solo s0 s pc) (hs : Step 1 s s')
    (hb : s'.bad = false) (hpc : s'.pc = upd s.pc 1 pc') : Solo s0 s' pc' :=
  ⟨h.reach.step ⟨1, hs⟩, hb, fun u hu => by rw [hpc, upd_other _ _ hu]; exact h.others u hu,
    by rw [hpc, upd_same]⟩

/-- Thread 1 calls `log` and gets a slot on the current page. -/
theorem solo_slot {s0 s : St} (h : Solo s0 s .outside) (ho : s.owner = none)
    (hi : s.index s.tail < EventsPerPage) :
    ∃ s', Solo s0 s' .outside ∧ s'.owner = none ∧ s'.created = s.created ∧
      s'.index s'.tail = s.index s.tail + 1 := by
  have g1 := h.go (.call h.ok h.here) h.ok rfl
  have g2 := g1.go (.load g1.ok g1.here) g1.ok rfl
  have hl : s.freed s.tail = false := tail_live h.pages
  have g3 : Solo s0 { s with
      index := upd s.index s.tail (s.index s.tail + 1),
      pc := upd (upd (upd s.pc 1 .load) 1 (.add s.tail)) 1 (.write s.tail (s.index s.tail)) }
      (.write s.tail (s.index s.tail)) := by
    have hs := Step.add g2.ok g2.here
    rw [show touch _ _ _ = _ from if_neg (by simpa using hl)] at hs
    simp only [hi, ↓reduceIte] at hs
    exact g2.go hs h.ok rfl
  have g4 : Solo s0 { s with
      index := upd s.index s.tail (s.index s.tail + 1),
      pc := upd (upd (upd (upd s.pc 1 .load) 1 (.add s.tail)) 1 (.write s.tail (s.index s.tail))) 1 .outside,
      written := (1, s.tail, s.index s.tail) :: s.written } .outside := by
    have hs := Step.write g3.ok g3.here
    rw [show touch _ _ _ = _ from if_neg (by simpa using hl)] at hs
    exact g3.go hs h.ok rfl
  exact ⟨_, g4, ho, rfl, upd_same _ _ _⟩

/-- Thread 1 calls `log` and creates a page. -/
theorem solo_page {s0 s : St} (h : Solo s0 s .outside) (ho : s.owner = none)
    (hi : ¬ s.index s.tail < EventsPerPage) :
    ∃ s', Solo s0 s' .outside ∧ s'.owner = none ∧ s'.created = s.created + 1 := by
  have hl : s.freed s.tail = false := tail_live h.pages
  have g1 := h.go (.call h.ok h.here) h.ok rfl
  have g2 := g1.go (.load g1.ok g1.here) g1.ok rfl
  obtain ⟨s3, g3, o3, c3, t3, i3⟩ : ∃ s3, Solo s0 s3 .lock ∧ s3.owner = none ∧ s3.created = s.created ∧
      s3.tail = s.tail ∧ ¬ s3.index s3.tail < EventsPerPage := by
    have hs := Step.add g2.ok g2.here
    rw [show touch _ _ _ = _ from if_neg (by simpa using hl)] at hs
    simp only [hi, ↓reduceIte] at hs
    refine ⟨_, g2.go hs h.ok rfl, ho, rfl, rfl, ?_⟩
    show ¬ upd s.index s.tail (s.index s.tail + 1) s.tail < _
    rw [upd_same]; omega
  have g4 := g3.go (.lock g3.ok g3.here o3) g3.ok rfl
  have g5 := g4.go (.loadTail g4.ok g4.here) g4.ok rfl
  have hl3 : s3.freed s3.tail = false := tail_live g3.pages
  obtain ⟨s6, g6, c6, t6⟩ : ∃ s6, Solo s0 s6 (.create s6.tail) ∧ s6.created = s.created ∧ True := by
    have hs := Step.check g5.ok g5.here
    rw [show touch _ _ _ = _ from if_neg (by simpa using hl3)] at hs
    simp only [i3, ↓reduceIte] at hs
    exact ⟨_, g5.go hs g5.ok rfl, c3, trivial⟩
  have g7 := g6.go (.create g6.ok g6.here) g6.ok rfl
  obtain ⟨s8, g8, c8⟩ : ∃ s8, Solo s0 s8 (.publish s6.created) ∧ s8.created = s.created + 1 := by
    have hs := Step.link g7.ok g7.here
    rw [show touch _ _ _ = _ from if_neg (by simpa using tail_live g6.pages)] at hs
    exact ⟨_, g7.go hs g7.ok rfl, by show s6.created + 1 = _; rw [c6]⟩
  have g9 := g8.go (.publish g8.ok g8.here) g8.ok rfl
  obtain ⟨s10, g10, c10⟩ : ∃ s10, Solo s0 s10 (.unlock s6.created 0) ∧ s10.created = s.created + 1 := by
    by_cases hn : s8.numPages < MaxNumPages
    · exact ⟨_, g9.go (.count g9.ok g9.here hn) g9.ok rfl, c8⟩
    · have hp := g9.pages
      have hph : phase { s8 with tail := s6.created, pc := upd s8.pc 1 (.trim s6.created) } =
          .trim s6.created := by
        have hown := (hp.owns 1).mp (by rw [g9.here]; trivial)
        change s8.owner = some 1 at hown
        simp only [phase, hown]
        exact upd_same _ _ _
      have hc := hp.count
      have ht := hp.tail
      rw [hph] at hc ht
      simp only [uncounted, unpublished] at hc ht
      have hnext := hp.next s8.head (by
        have : MaxNumPages = 4 := rfl
        show s8.head < s6.created
        omega)
      have hs := Step.delete g9.ok g9.here (by show MaxNumPages ≤ s8.numPages; omega) hnext
      rw [show touch _ _ _ = _ from if_neg (by simpa using head_live hp)] at hs
      exact ⟨_, g9.go hs g9.ok rfl, c8⟩
  have g11 := g10.go (.unlock g10.ok g10.here) g10.ok rfl
  have hw := Step.write g11.ok g11.here
  have hnb : s10.freed s6.created = false := by
    have hp := g11.pages
    have := (inv_reachable g11.reach g11.ok).2.1.hasRange 1 s6.created 0 (by rw [g11.here]; exact .inl rfl)
    cases hf : s10.freed s6.created with
    | false => rfl
    | true =>
      exfalso
      have h1 := (hp.freed _).mp hf
      have h2 := hp.count
      have h3 := hp.pos
      simp only [phase, uncounted] at h1 h2 h3 c10
      omega
  rw [show touch _ _ _ = _ from if_neg (by simpa using hnb)] at hw
  exact ⟨_, g11.go hw g11.ok rfl, rfl, c10⟩

/-- Thread 1, logging on its own, fills up pages. -/
theorem solo_fill {s0 : St} : ∀ (k : Nat) (s : St), Solo s0 s .outside → s.owner = none →
    EventsPerPage - s.index s.tail = k →
    ∃ s', Solo s0 s' .outside ∧ s'.owner = none ∧ s'.created = s.created + 1 := by
  intro k
  induction k with
  | zero => intro s h ho hk; exact solo_page h ho (by omega)
  | succ k ih =>
    intro s h ho hk
    obtain ⟨s1, h1, o1, c1, i1⟩ := solo_slot h ho (by omega)
    obtain ⟨s2, h2, o2, c2⟩ := ih s1 h1 o1 (by omega)
    exact ⟨s2, h2, o2, by rw [c2, c1]⟩

theorem solo_many {s0 : St} (n : Nat) : ∀ (s : St), Solo s0 s .outside → s.owner = none →
    ∃ s', Solo s0 s' .outside ∧ s'.owner = none ∧ s'.created = s.created + n := by
  induction n with
  | zero => intro s h ho; exact ⟨s, h, ho, rfl⟩
  | succ n ih =>
    intro s h ho
    obtain ⟨s1, h1, o1, c1⟩ := solo_fill _ s h ho rfl
    obtain ⟨s2, h2, o2, c2⟩ := ih s1 h1 o1
    exact ⟨s2, h2, o2, by omega⟩

/-- The claim is false in general: a thread that has loaded the current page and is then held up while
another fills `MaxNumPages` pages adds 1 to the index of a page that has been deleted. -/
theorem C40_deleted_page : ∃ s, Reachable init step s ∧ s.bad = true := by
  have r1 : Reachable init step _ := Reachable.init.step ⟨2, .call rfl rfl⟩
  have r2 := r1.step ⟨2, .load rfl rfl⟩
  obtain ⟨s, h, ho, hc⟩ := solo_many 4 _ ⟨r2, rfl, fun _ _ => rfl, rfl⟩ rfl
  have h2 : s.pc 2 = .add 0 := by rw [h.others 2 (by decide)]; rfl
  have hf : s.freed 0 = true := by
    have hp := h.pages
    refine (hp.freed 0).mpr ?_
    have h1 := hp.count
    have h3 := hp.small
    have h4 : uncounted (phase s) ≤ 1 := by cases phase s <;> simp [uncounted]
    have h5 : MaxNumPages = 4 := rfl
    have h6 : (1 : Nat) + 4 = s.created := hc.symm
    have h7 := hp.early
    have h8 : uncounted (phase s) = 0 := by
      simp [phase, ho, uncounted]
    omega
  have hs := Step.add h.ok h2
  rw [show touch _ _ _ = _ from if_pos hf] at hs
  exact ⟨_, h.reach.step ⟨2, hs⟩, rfl⟩

/-- Many slots do get written. -/
example : ∃ s, Reachable init step s ∧ s.bad = false ∧ s.created = 100 := by
  obtain ⟨s, h, -, hc⟩ := solo_many 99 init ⟨.init, rfl, fun _ _ => rfl, rfl⟩ rfl
  exact ⟨s, h.reach, h.ok, hc⟩

end Verif.Conc.MemLog
