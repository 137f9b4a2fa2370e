import Verif.Toc.Lemmas
/-!
# The table of contents of the documentation — C95
-/
namespace Verif.Toc
open Verif Spec

variable {α : Type}

/-- Pages `a`, `b`, `c`; each is its own link ID. -/
def demo : List (List Byte) := [[97], [98], [99]]

/-- **What a tag names.**  The names read from a `childOrder` tag are exactly those in it, whatever white space is
between them, up to the first thing that is neither. -/
theorem C95_names (text : List Byte) (ids : List (List Byte)) :
    readIds (text.length + 1) text = ids ↔ Names text ids := by
  constructor
  · rintro rfl
    obtain ⟨ids, h⟩ := names_some _ text (Nat.lt_succ_self _)
    rwa [read_names h _ (Nat.lt_succ_self _)]
  · exact fun h => read_names h _ (Nat.lt_succ_self _)

example : Names [32, 97, 49, 10, 98, 32] [[97, 49], [98]] :=
  Names.word (ws := [32]) (w := [97, 49]) (r := [10, 98, 32]) (by simp [Blank])
    ⟨97, [49], rfl, by simp [Begins], by simp [Inside]⟩ (by simp [Inside, Begins])
    (Names.word (ws := [10]) (w := [98]) (r := [32]) (by simp [Blank]) ⟨98, [], rfl, by simp [Begins], by simp⟩
      (by simp [Inside, Begins]) (Names.stop (ws := [32]) (r := []) (by simp [Blank]) (by simp)))

example : readIds 9 [97, 45, 98, 32, 99] = [[97]] := by decide

/-- **What a tag does.**  The pages that stay are in the order in which the tag names them; together with those left out
they are the pages there were, each once.  The names that are reported are those that did not find a page, and no page
left out has such a name. -/
theorem C95_order (link : α → List Byte) (ids : List (List Byte)) (l : List α) :
    ∃ kept out bad, order link ids l = (kept, out, bad) ∧ (kept.map link).Sublist ids ∧ bad.Sublist ids ∧
      (kept.map link ++ bad).Perm ids ∧ (kept ++ out).Perm l ∧ ∀ x ∈ out, link x ∉ bad :=
  ⟨_, _, _, rfl, (order_names link ids l).1, (order_names link ids l).2.1, (order_names link ids l).2.2,
    order_perm link ids l, order_apart link ids l⟩

example : order id [[99], [100], [97]] demo = ([[99], [97]], [[98]], [[100]]) := by decide

/-- **Different names.**  If the pages have different link IDs and the tag names none twice, then the pages that stay
are those named that exist, those left out are those not named, and the names reported are those without a page. -/
theorem C95_order_distinct (link : α → List Byte) (ids : List (List Byte)) (l : List α) (hl : (l.map link).Nodup)
    (hi : ids.Nodup) :
    (order link ids l).1.map link = ids.filter (fun w => decide (w ∈ l.map link)) ∧
      (order link ids l).2.2 = ids.filter (fun w => decide (w ∉ l.map link)) ∧
      ∀ x, x ∈ (order link ids l).2.1 ↔ x ∈ l ∧ link x ∉ ids := by
  induction ids generalizing l with
  | nil => simp [order]
  | cons id ids ih =>
    obtain ⟨hid, hi⟩ := List.nodup_cons.1 hi
    rcases hf : l.find? (fun c => link c == id) with _ | x
    · have hno : id ∉ l.map link := by
        rw [List.mem_map]
        rintro ⟨x, hx, rfl⟩
        exact absurd (List.find?_eq_none.1 hf x hx) (by simp)
      obtain ⟨h1, h2, h3⟩ := ih l hl hi
      rw [order_none ids hf, List.filter_cons_of_neg (by simpa using hno), List.filter_cons_of_pos (by simpa using hno)]
      refine ⟨h1, by rw [h2], fun x => ?_⟩
      rw [h3 x, List.mem_cons, not_or]
      constructor
      · rintro ⟨hx, hn⟩
        exact ⟨hx, fun he => hno (he ▸ List.mem_map_of_mem hx), hn⟩
      · rintro ⟨hx, _, hn⟩
        exact ⟨hx, hn⟩
    · have hx : link x = id := by simpa using List.find?_some hf
      have hp := take_perm l _ x hf
      have hpl := hp.map link
      have hnd := (hpl.nodup_iff).2 hl
      rw [List.map_cons] at hnd hpl
      obtain ⟨hxn, hnd⟩ := List.nodup_cons.1 hnd
      obtain ⟨h1, h2, h3⟩ := ih _ hnd hi
      have hmem : ∀ w ∈ ids, (w ∈ (eraseQuick (l.findIdx fun c => link c == id) l).map link ↔ w ∈ l.map link) := by
        intro w hw
        rw [← hpl.mem_iff, List.mem_cons, hx]
        constructor
        · exact .inr
        · rintro (rfl | h)
          · exact absurd hw hid
          · exact h
      have hin : id ∈ l.map link := hx ▸ hpl.mem_iff.1 (List.mem_cons_self ..)
      rw [order_some ids hf, List.filter_cons_of_pos (by simpa using hin), List.filter_cons_of_neg (by simpa using hin)]
      refine ⟨?_, ?_, fun y => ?_⟩
      · rw [List.map_cons, hx, h1]
        congr 1
        exact List.filter_congr fun w hw => by rw [decide_eq_decide]; exact hmem w hw
      · rw [h2]
        exact List.filter_congr fun w hw => by rw [decide_eq_decide]; exact not_congr (hmem w hw)
      · rw [h3 y, ← hp.mem_iff, List.mem_cons, List.mem_cons, not_or]
        constructor
        · rintro ⟨hy, hn⟩
          exact ⟨.inr hy, fun he => hxn (by rw [hx, List.mem_map]; exact ⟨y, hy, he⟩), hn⟩
        · rintro ⟨hy | hy, hne, hn⟩
          · exact absurd (hy ▸ hx) hne
          · exact ⟨hy, hn⟩

example : (demo.map id).Nodup ∧ ([[99], [100], [97]] : List (List Byte)).Nodup := by decide

/-- **No errors.**  A tag reports nothing exactly if it names the link IDs of the pages, each as often as there are pages
with it. -/
theorem C95_clean (link : α → List Byte) (text : List Byte) (l : List α) :
    (childOrder link text l).2 = [] ↔ (readIds (text.length + 1) text).Perm (l.map link) := by
  obtain ⟨h1, h2, h3⟩ := order_names link (readIds (text.length + 1) text) l
  have h4 := order_perm link (readIds (text.length + 1) text) l
  have h5 := order_apart link (readIds (text.length + 1) text) l
  unfold childOrder
  dsimp only
  generalize readIds (text.length + 1) text = ids at *
  generalize order link ids l = r at *
  obtain ⟨kept, out, bad⟩ := r
  dsimp only at *
  rw [List.append_eq_nil_iff, List.map_eq_nil_iff]
  have h6 : (kept.map link ++ out.map link).Perm (l.map link) := by
    rw [← List.map_append]; exact h4.map link
  constructor
  · rintro ⟨rfl, ho⟩
    have ho' : out = [] := by
      by_cases h : out = []
      · exact h
      · rw [if_neg h] at ho; exact absurd ho (List.cons_ne_nil _ _)
    subst ho'
    simp only [List.map_nil, List.append_nil] at h3 h6
    exact h3.symm.trans h6
  · intro hp
    have h7 : bad.Perm (out.map link) :=
      (List.perm_append_left_iff _).1 (h3.trans (hp.trans h6.symm))
    have hb : bad = [] := by
      rw [List.eq_nil_iff_forall_not_mem]
      intro w hw
      obtain ⟨x, hx, he⟩ := List.mem_map.1 (h7.mem_iff.1 hw)
      exact h5 x hx (he ▸ hw)
    subst hb
    have ho : out = [] := by simpa using h7.symm.eq_nil
    exact ⟨rfl, if_pos ho⟩

example : (childOrder id [99, 32, 97, 32, 98] demo) = ([[99], [97], [98]], []) := by decide
example : (childOrder id [99, 44, 97] demo) = ([[99]], [.notListed [[97], [98]]]) := by decide

/-- **Names that cannot be written.**  A page whose link ID is not a name, such as one with a hyphen, is left out by every
`childOrder` tag, whatever its text, and this is reported. -/
theorem C95_unnamable (link : α → List Byte) (text : List Byte) {l : List α} {c : α} (hc : c ∈ l)
    (hn : ¬ Word (link c)) :
    c ∉ (childOrder link text l).1 ∧ ∃ ids, link c ∈ ids ∧ Err.notListed ids ∈ (childOrder link text l).2 := by
  have h1 : c ∉ (childOrder link text l).1 := by
    intro h
    exact hn (read_words _ _ _ ((order_names link _ l).1.subset (List.mem_map_of_mem h)))
  refine ⟨h1, ?_⟩
  have h2 : c ∈ (order link (readIds (text.length + 1) text) l).2.1 := by
    have := (order_perm link (readIds (text.length + 1) text) l).mem_iff.2 hc
    exact (List.mem_append.1 this).resolve_left h1
  refine ⟨_, List.mem_map_of_mem h2, ?_⟩
  unfold childOrder
  dsimp only
  rw [if_neg (List.ne_nil_of_mem h2)]
  exact List.mem_append_right _ (List.mem_singleton.2 rfl)

example : ¬ Word [97, 45, 98] := by
  rintro ⟨c, cs, h, _, h2⟩
  cases h
  have := h2 45 (by simp)
  simp [Inside, Begins] at this

/-- A folder with the files `a` and `b`, the tag naming `b` and then, if asked to, `a`. -/
def folder (text : List Byte) : Page :=
  .mk ⟨[47, 105, 110, 100, 101, 120], true, [72], []⟩ [text]
    [.mk ⟨[47, 97], true, [65], [97]⟩ [] [], .mk ⟨[47, 98], true, [66], [98]⟩ [] []]

/-- **Which pages are made.**  All pages of the documentation are made, each once, exactly if no tag is reported to leave
pages out. -/
theorem C95_made_partial (p : Page) : (visit p).Perm (all p) ↔ ∀ e ∈ errors p, ¬ Err.Lost e := by
  obtain ⟨lost, h1, h2⟩ := visit_lost p
  rw [← h2]
  constructor
  · intro h
    have := (h1.trans h.symm).length_eq
    rw [List.length_append] at this
    exact List.length_eq_zero_iff.1 (by omega)
  · rintro rfl
    rwa [List.append_nil] at h1

example : errors (folder [98, 32, 97]) = [] ∧ (visit (folder [98, 32, 97])).map Info.title = [[72], [66], [65]] := by decide

/-- Nothing is made that is not a page, and no page twice. -/
theorem C95_made_once (p : Page) : ∃ lost, (visit p ++ lost).Perm (all p) := by
  obtain ⟨lost, h1, _⟩ := visit_lost p
  exact ⟨lost, h1⟩

/-- **Pages are lost.**  A page not named in the tag of its folder is not made at all. -/
theorem C95_lost : ¬ ∀ p : Page, ∀ i ∈ all p, i ∈ visit p := by
  intro h
  exact absurd (h (folder [98]) ⟨[47, 97], true, [65], [97]⟩ (by simp [folder, all, allEach])) (by decide)

/-- **The table of contents.**  It shows the titles and addresses of the pages that are made, in the same order. -/
theorem C95_contents (p : Page) : lines (convert p) = (visit p).map fun i => (i.title, linkDestination i) :=
  convert_lines p

example : lines (convert (folder [98])) =
    [([72], some [47]), ([66], some [47, 100, 111, 99, 115, 47, 98])] := by decide

/-- **Addresses.**  Two pages have the same address exactly if they are the same page, or one is a file and the other the
`index` page of the folder of the same name. -/
theorem C95_address {p q : Info} (hp : p.desc.head? = some 47) (hq : q.desc.head? = some 47)
    (mp : p.markdown = true) (mq : q.markdown = true) :
    linkDestination p = linkDestination q ↔ p.desc = q.desc ∨
      p.desc = q.desc ++ indexName ∧ ¬ indexName <:+ q.desc ∨ q.desc = p.desc ++ indexName ∧ ¬ indexName <:+ p.desc := by
  have nroot : ∀ a : List Byte, [47] ≠ docsName ++ a := by
    intro a h
    have := congrArg List.length h
    simp [docsName] at this
  have np : p.desc ≠ [] := by intro h; rw [h] at hp; simp at hp
  have nq : q.desc ≠ [] := by intro h; rw [h] at hq; simp at hq
  by_cases sp : indexName <:+ p.desc
  · have sp' := sp
    obtain ⟨a, ha⟩ := sp
    by_cases sq : indexName <:+ q.desc
    · have sq' := sq
      obtain ⟨b, hb⟩ := sq
      rw [dest_index hp mp ha.symm, dest_index hq mq hb.symm]
      have e : p.desc = q.desc ↔ a = b := by
        rw [← ha, ← hb]; exact List.append_left_inj _
      simp only [sp', sq', not_true, and_false, or_false, e]
      by_cases ea : a = [] <;> by_cases eb : b = []
      · simp [ea, eb]
      · simp only [ea, eb, if_true, if_false, Option.some.injEq]
        exact ⟨fun h => absurd h (nroot _), fun h => absurd h.symm eb⟩
      · rw [if_neg ea, if_pos eb, Option.some.injEq]
        exact ⟨fun h => absurd h.symm (nroot _), fun h => absurd (h.trans eb) ea⟩
      · simp [ea, eb]
    · rw [dest_index hp mp ha.symm, dest_page hq mq sq]
      constructor
      · intro h
        by_cases ea : a = []
        · rw [if_pos ea] at h
          exact absurd (Option.some.inj h) (nroot _)
        · rw [if_neg ea] at h
          have := List.append_cancel_left (Option.some.inj h)
          exact .inr (.inl ⟨by rw [← ha, this], sq⟩)
      · rintro (h | ⟨h, _⟩ | ⟨_, h⟩)
        · exact absurd (h ▸ sp') sq
        · have : a = q.desc := List.append_cancel_right (ha.trans h)
          rw [if_neg (this ▸ nq), this]
        · exact absurd sp' h
  · by_cases sq : indexName <:+ q.desc
    · have sq' := sq
      obtain ⟨b, hb⟩ := sq
      rw [dest_page hp mp sp, dest_index hq mq hb.symm]
      constructor
      · intro h
        by_cases eb : b = []
        · rw [if_pos eb] at h
          exact absurd (Option.some.inj h).symm (nroot _)
        · rw [if_neg eb] at h
          have := List.append_cancel_left (Option.some.inj h)
          exact .inr (.inr ⟨by rw [← hb, this], sp⟩)
      · rintro (h | ⟨_, h⟩ | ⟨h, _⟩)
        · exact absurd (h ▸ sq') sp
        · exact absurd sq' h
        · have : b = p.desc := List.append_cancel_right (hb.trans h)
          rw [if_neg (this ▸ np), this]
    · rw [dest_page hp mp sp, dest_page hq mq sq, Option.some.injEq, List.append_right_inj]
      constructor
      · exact .inl
      · rintro (h | ⟨h, _⟩ | ⟨h, _⟩)
        · exact h
        · exact absurd ⟨_, h.symm⟩ sp
        · exact absurd ⟨_, h.symm⟩ sq

/-- The file `a` and the page of the folder `a` have the same address; the page at the root has its own. -/
example : linkDestination ⟨[47, 97], true, [], []⟩ = some [47, 100, 111, 99, 115, 47, 97] ∧
    linkDestination ⟨[47, 97, 47, 105, 110, 100, 101, 120], true, [], []⟩ = some [47, 100, 111, 99, 115, 47, 97] ∧
    linkDestination ⟨[47, 105, 110, 100, 101, 120], true, [], []⟩ = some [47] := by decide

end Verif.Toc
