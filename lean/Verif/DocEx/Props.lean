import Verif.DocEx.Lemmas
/-!
# Documentation comments — C92
-/
namespace Verif.DocEx
open Verif

/-- C92: from a class documented as meant, each documented member or group becomes one entry, in order, with its text and
in the category that was begun last; no error is reported and no assertion fails. -/
theorem C92_extract_partial (is : List Item) (h : ∀ i ∈ is, i.Fine) :
    ∃ st, extract (is.flatMap Item.events) = some st ∧ st.errs = [] ∧ st.categories = mentioned [] is ∧
      st.entries.map (asShown st.categories) = shown none is ∧ (∀ e ∈ st.entries, Good st.categories e) ∧ Idle st := by
  obtain ⟨st, new, e1, e2, e3, e4, e5, e6, e7⟩ :=
    items_events is ⟨[], false, false, none, -1, [], [], []⟩ none h ⟨rfl, rfl, rfl, rfl⟩ (Or.inl ⟨rfl, rfl⟩)
  have e5' : st.entries = new := e5
  refine ⟨exitClass st, ?_, ?_, ?_, ?_, ?_, ?_⟩
  · unfold extract
    rw [e1]
    rfl
  all_goals
    obtain ⟨h1, h2, h3, h4⟩ := e2
    have ex : exitClass st = { st with category := -1 } := by
      unfold exitClass dropStray
      simp [h2, h3]
    rw [ex]
  · exact e3
  · exact e4
  · dsimp only; rw [e5']; exact e6
  · dsimp only; rw [e5']; exact e7
  · exact ⟨h1, h2, h3, h4⟩

/-- A class: `a` with text, a category, a group of the functions `f` and `g` without text, and `b` undocumented. -/
def exampleItems : List Item :=
  [.one [[116], [117]] ⟨[97], false⟩, .category [67], .group [] [[⟨[102], true⟩], [⟨[103], true⟩]], .undocumented [⟨[98], false⟩]]

/-- Beside it. -/
example : (∀ i ∈ exampleItems, i.Fine) ∧ (extract (exampleItems.flatMap Item.events)).map St.entries =
    some [⟨[⟨[97], false⟩], [116, 117], -1⟩, ⟨[⟨[102], true⟩, ⟨[103], true⟩], [], 0⟩] ∧
    shown none exampleItems = [⟨[⟨[97], false⟩], [116, 117], none⟩, ⟨[⟨[102], true⟩, ⟨[103], true⟩], [], some [67]⟩] := by
  refine ⟨?_, by decide, by decide⟩
  intro i hi
  simp only [exampleItems, List.mem_cons, List.not_mem_nil, or_false] at hi
  rcases hi with rfl | rfl | rfl | rfl
  · show [] ∉ _; decide
  · trivial
  · exact ⟨by decide, _, _, _, rfl⟩
  · trivial

/-- C92: the page of such a class has the data members, then the functions of each category under its name, then the other
functions, each part with its heading and only if there is something in it. -/
theorem C92_page (is : List Item) (h : ∀ i ∈ is, i.Fine) :
    ∃ st toks, extract (is.flatMap Item.events) = some st ∧ dump st.entries st.categories = some toks ∧
      see st.categories toks = layout (parts (shown none is) (mentioned [] is)) ∧
      leftOpen toks = ((mentioned [] is).filter fun c => !((shown none is).filter fun e =>
        e.function && e.category = some c).isEmpty).length := by
  obtain ⟨st, h1, _, h3, h4, h5, _⟩ := C92_extract_partial is h
  have hn : st.categories.Nodup := by rw [h3]; exact mentioned_nodup is [] List.nodup_nil
  have ht : ∀ e ∈ st.entries, e.titles ≠ [] := fun e he => (h5 e he).1
  obtain ⟨out, c1, c2, c3⟩ := categories_eq hn h5 st.categories [] rfl
  have s1 := section_eq sData (fun f _ => !f) st.entries false ht
  have s2 := section_eq sFunctions (fun f k => f && decide (k < 0)) st.entries false ht
  have f1 : (st.entries.filter fun e => !isFn e).map (asShown st.categories) = (shown none is).filter fun e => !e.function := by
    rw [← h4]
    exact shown_filter _ _ _ _ fun e _ => by rw [asShown_fn]
  have f2 : (st.entries.filter fun e => isFn e && decide (e.category < 0)).map (asShown st.categories) =
      (shown none is).filter fun e => e.function && e.category = none := by
    rw [← h4]
    refine shown_filter _ _ _ _ fun e he => ?_
    rw [asShown_fn]
    obtain ⟨_, cur, hcur⟩ := h5 e he
    have hx : (asShown st.categories e).category = cur := catIs_shown hcur
    rw [hx]
    rcases hcur with ⟨rfl, hk⟩ | ⟨i, c, rfl, hk, _⟩
    · simp [hk]
    · have : ¬ e.category < 0 := by omega
      simp [this]
  have c1' : categorySections st.entries 0 st.categories = some out := c1
  refine ⟨st, _, h1, dump_of s1 c1' s2, ?_, ?_⟩
  · rw [see_append, see_append, see_append, see_append, see_close, see_close, List.append_nil, List.append_nil, see_part,
      see_part, f1, f2, c2, h4, h3]
    unfold parts
    rw [layout_append, layout_append]
  · have hcnt : ∀ a b, leftOpen (a ++ b) = leftOpen a + leftOpen b := by
      intro a b
      unfold leftOpen
      rw [List.count_append, List.count_append]
      omega
    have hent : ∀ l : List Entry, leftOpen (l.map .entry) = 0 := by
      intro l
      induction l with
      | nil => rfl
      | cons e l ihl => simpa [leftOpen] using ihl
    have hsec : ∀ (head : List Byte) (l : List Entry),
        leftOpen (if l = [] then [] else (if false = true then [] else [.heading head, .openList]) ++ l.map .entry) +
          leftOpen (if (false || !l.isEmpty) = true then [.closeList] else []) = 0 := by
      intro head l
      cases l with
      | nil => rfl
      | cons e l =>
        rw [if_neg (by simp), hcnt, hent]
        simp [leftOpen]
    rw [hcnt, hcnt, hcnt, hcnt, hsec, hsec, c3, h4, h3]
    omega

/-- Beside it: the page of the class above. -/
example : (extract (exampleItems.flatMap Item.events)).bind (fun st => dump st.entries st.categories) = some
    [.heading sData, .openList, .entry ⟨[⟨[97], false⟩], [116, 117], -1⟩, .closeList, .heading [67], .openList,
     .entry ⟨[⟨[102], true⟩, ⟨[103], true⟩], [], 0⟩] := by decide

theorem shown_category : ∀ (is : List Item) (cur : Option (List Byte)) (seen : List (List Byte)),
    (∀ c, cur = some c → c ∈ seen) → ∀ s ∈ shown cur is, ∀ c, s.category = some c → c ∈ mentioned seen is := by
  intro is
  induction is with
  | nil => intro cur seen _ s hs; cases hs
  | cons i is ih =>
    intro cur seen hc s hs c hsc
    have hm : ∀ x ∈ seen, x ∈ mentioned seen is := by
      intro x hx
      obtain ⟨more, h⟩ := mentioned_more is seen
      rw [h]
      exact List.mem_append_left _ hx
    cases i with
    | one t m =>
      rcases List.mem_cons.1 hs with rfl | hs
      · exact hm c (hc c hsc)
      · exact ih cur seen hc s hs c hsc
    | group t ds =>
      rcases List.mem_cons.1 hs with rfl | hs
      · exact hm c (hc c hsc)
      · exact ih cur seen hc s hs c hsc
    | category d =>
      refine ih (some d) _ ?_ s hs c hsc
      intro x hx
      cases hx
      split
      · rename_i h; exact h
      · simp
    | undocumented ms => exact ih cur seen hc s hs c hsc

/-- C92: all that is documented is in the page, and exactly once. -/
theorem C92_each_once (is : List Item) :
    ((parts (shown none is) (mentioned [] is)).flatMap Prod.snd).Perm (shown none is) := by
  have hcat := shown_category is none [] (fun c h => by cases h)
  have hn := mentioned_nodup is [] List.nodup_nil
  generalize shown none is = es at *
  generalize mentioned [] is = cats at *
  have hpart : ∀ head l, (part head l).flatMap Prod.snd = l := by
    intro head l
    unfold part
    cases l <;> simp
  have hmid : (cats.flatMap fun c => part c (es.filter fun e => e.function && e.category = some c)).flatMap Prod.snd =
      (cats.map some).flatMap fun k => (es.filter Shown.function).filter fun e => e.category = k := by
    rw [List.flatMap_assoc, List.flatMap_map]
    congr 1
    funext c
    rw [hpart, List.filter_filter]
    apply List.filter_congr
    intro e _
    exact Bool.and_comm _ _
  unfold parts
  rw [List.flatMap_append, List.flatMap_append, hpart, hpart, hmid]
  have hns : (cats.map some).Nodup := by
    rw [List.Nodup, List.pairwise_map]
    exact hn.imp fun h he => h (Option.some.inj he)
  have hp := Cpu.flat_filter Shown.category (es.filter Shown.function) (cats.map some) hns
  have hp' := hp.trans (List.Perm.of_eq (List.filter_congr (q := fun a => !decide (a.category = none)) (by
    intro e he
    cases hc : e.category with
    | none => simp
    | some c =>
      have := hcat e (List.mem_filter.1 he).1 c hc
      simp [this])))
  refine List.Perm.trans ((hp'.append_left _).append_right _) ?_
  have h3 : es.filter (fun e => e.function && e.category = none) =
      (es.filter Shown.function).filter (fun a => decide (a.category = none)) := by
    rw [List.filter_filter]
    apply List.filter_congr
    intro e _
    exact Bool.and_comm _ _
  rw [h3, List.append_assoc]
  have h4 : ((es.filter Shown.function).filter (fun a => !decide (a.category = none)) ++
      (es.filter Shown.function).filter (fun a => decide (a.category = none))).Perm (es.filter Shown.function) :=
    (List.perm_append_comm).trans (List.filter_append_perm _ _)
  refine (h4.append_left _).trans ?_
  exact (List.perm_append_comm).trans (List.filter_append_perm _ _)

/-- Beside it. -/
example : (parts (shown none exampleItems) (mentioned [] exampleItems)).map (fun p => (p.1, p.2.length)) =
    [(sData, 1), ([67], 1)] := by decide

/-- C92, false of the code: with a category that has functions in it, a list is left open in the page. -/
theorem C92_list_left_open (is : List Item) (h : ∀ i ∈ is, i.Fine) {e : Shown} (he : e ∈ shown none is)
    (hf : e.function = true) {c : List Byte} (hc : e.category = some c) :
    ∃ st toks, extract (is.flatMap Item.events) = some st ∧ dump st.entries st.categories = some toks ∧ 0 < leftOpen toks := by
  obtain ⟨st, toks, h1, h2, _, h4⟩ := C92_page is h
  refine ⟨st, toks, h1, h2, ?_⟩
  rw [h4]
  have hm := shown_category is none [] (fun c h => by cases h) e he c hc
  have : c ∈ (mentioned [] is).filter fun c => !((shown none is).filter fun e => e.function && e.category = some c).isEmpty := by
    rw [List.mem_filter]
    refine ⟨hm, ?_⟩
    have hx : e ∈ (shown none is).filter fun e => e.function && e.category = some c := by
      rw [List.mem_filter]
      exact ⟨he, by simp [hf, hc]⟩
    cases hl : (shown none is).filter fun e => e.function && e.category = some c with
    | nil => rw [hl] at hx; cases hx
    | cons _ _ => rfl
  have := List.length_pos_of_mem this
  omega

/-- Beside it: the group in the class above. -/
example : ⟨[⟨[102], true⟩, ⟨[103], true⟩], [], some [67]⟩ ∈ shown none exampleItems := by decide

/-- C92, false of the code: documenting a declaration of several members, outside of a group, fails an assertion. -/
theorem C92_two_members_assert {is : List Item} (h : ∀ i ∈ is, i.Fine) {t : List (List Byte)} (ht : [] ∉ t)
    (m m' : Member) (ms : List Member) (es : List Event) :
    extract (is.flatMap Item.events ++ (.comment (t.map .text) :: .decl (m :: m' :: ms) :: es)) = none := by
  obtain ⟨st, new, e1, e2, _⟩ :=
    items_events is ⟨[], false, false, none, -1, [], [], []⟩ none h ⟨rfl, rfl, rfl, rfl⟩ (Or.inl ⟨rfl, rfl⟩)
  obtain ⟨h1, h2, h3, h4⟩ := e2
  have hc : comment st (t.map .text) = some { st with markdown := t.flatten, pending := true } := texts ht h1 h2 h4
  have hd : declaration { st with markdown := t.flatten, pending := true } (m :: m' :: ms) = none := by
    obtain ⟨_, _, _, _, _, _, _, _⟩ := st
    dsimp only at h1 h2 h3 h4
    subst h1 h2 h3 h4
    rfl
  unfold extract
  rw [events_append, e1]
  dsimp only [Option.bind]
  conv => lhs; unfold events
  rw [hc]
  dsimp only
  conv => lhs; unfold events
  rw [hd]
  rfl

/-- Beside it: `/*! t */ int x, y;` -/
example : extract [.comment [.text [116]], .decl [⟨[120], false⟩, ⟨[121], false⟩]] = none := by decide

/-- C92, false of the code: text inside of a group, after its first member, fails an assertion though it is meant to be
reported; so does an empty comment, or one that begins a group, after a comment with text. -/
theorem C92_comments_assert :
    extract [.comment [.beginGroup, .text [116]], .decl [⟨[120], false⟩], .comment [.text [117]]] = none ∧
    extract [.comment [.text [116]], .comment []] = none ∧
    extract [.comment [.text [116]], .comment [.beginGroup]] = none := by decide

/-- C92: text that no member follows is reported. -/
theorem C92_stray {is : List Item} (h : ∀ i ∈ is, i.Fine) {t : List (List Byte)} (ht : [] ∉ t) :
    ∃ st, extract (is.flatMap Item.events ++ [.comment (t.map .text)]) = some st ∧ st.errs = [.strayMarkdown] ∧
      st.entries.map (asShown st.categories) = shown none is := by
  obtain ⟨st, new, e1, e2, e3, _, e5, e6, _⟩ :=
    items_events is ⟨[], false, false, none, -1, [], [], []⟩ none h ⟨rfl, rfl, rfl, rfl⟩ (Or.inl ⟨rfl, rfl⟩)
  obtain ⟨h1, h2, h3, h4⟩ := e2
  have hc : comment st (t.map .text) = some { st with markdown := t.flatten, pending := true } := texts ht h1 h2 h4
  have e5' : st.entries = new := e5
  have e3' : st.errs = [] := e3
  refine ⟨exitClass { st with markdown := t.flatten, pending := true }, ?_, ?_, ?_⟩
  · unfold extract
    rw [events_append, e1]
    simp only [Option.bind, events, hc]
    rfl
  · unfold exitClass dropStray
    simp [h3, e3']
  · have : exitClass { st with markdown := t.flatten, pending := true } =
        { st with markdown := [], pending := false, category := -1, errs := st.errs ++ [.strayMarkdown] } := by
      unfold exitClass dropStray
      simp [h3]
    rw [this]
    dsimp only
    rw [e5']
    exact e6

/-- Beside it. -/
example : (extract (exampleItems.flatMap Item.events ++ [.comment [.text [120]]])).map St.errs = some [.strayMarkdown] := by decide

end Verif.DocEx
