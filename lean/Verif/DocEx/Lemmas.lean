import Verif.DocEx.Spec
import Verif.Cpu.Lemmas
/-!
# Documentation comments — lemmas
-/
namespace Verif.DocEx
open Verif

/-! ## Comments and declarations -/

theorem more_text : ∀ (bs : List (List Byte)) (st : St) (v : Loc), v.mout ≠ [] → v.gotMarkdown = true →
    commentLoop st v (bs.map .text) = commentLoop st { v with mout := v.mout ++ bs.flatten } [] := by
  intro bs
  induction bs with
  | nil => intro st v _ _; rw [List.flatten_nil, List.append_nil]; rfl
  | cons b bs ih =>
    intro st v h1 h2
    have e : line st v (.text b) = (st, { v with mout := v.mout ++ b }) := by
      unfold line
      dsimp only
      rw [if_neg h1]
      obtain ⟨_, _, _⟩ := v
      dsimp only at h2
      subst h2
      rfl
    rw [List.map_cons]
    conv => lhs; unfold commentLoop
    rw [e]
    dsimp only
    have hne : v.mout ++ b ≠ [] := by simp [h1]
    rw [ih st { v with mout := v.mout ++ b } hne h2]
    dsimp only
    rw [List.flatten_cons, List.append_assoc]

theorem texts {t : List (List Byte)} (ht : [] ∉ t) {st : St} (h1 : st.markdown = []) (h2 : st.pending = false)
    (h3 : st.groupEntry = none) :
    commentLoop st ⟨[], false, false⟩ (t.map .text) = some { st with markdown := t.flatten, pending := true } := by
  cases t with
  | nil =>
    unfold commentLoop
    obtain ⟨_, _, _, _, _, _, _, _⟩ := st
    dsimp only at h1
    subst h1
    rfl
  | cons b bs =>
    have hb : b ≠ [] := fun h => ht (h ▸ List.mem_cons_self ..)
    have e : line st ⟨[], false, false⟩ (.text b) = ({ st with markdown := [], pending := true }, ⟨b, false, true⟩) := by
      unfold line
      dsimp only
      rw [if_pos rfl, h3, h2]
      simp
    rw [List.map_cons]
    conv => lhs; unfold commentLoop
    rw [e]
    rw [more_text _ _ _ hb rfl]
    unfold commentLoop
    dsimp only
    rw [if_pos (by simp [hb]), if_pos ⟨rfl, rfl⟩]
    rfl

/-- Nothing has been begun. -/
def Idle (st : St) : Prop :=
  st.markdown = [] ∧ st.pending = false ∧ st.group = false ∧ st.groupEntry = none

theorem one_events {t : List (List Byte)} (ht : [] ∉ t) {st : St} (h : Idle st) (m : Member) (es : List Event) :
    events st ((Item.one t m).events ++ es) =
      events { st with entries := st.entries ++ [⟨[m], t.flatten, st.category⟩] } es := by
  obtain ⟨h1, h2, h3, h4⟩ := h
  have hc : comment st (t.map .text) = some { st with markdown := t.flatten, pending := true } := texts ht h1 h2 h4
  show events st (.comment (t.map .text) :: .decl [m] :: es) = _
  conv => lhs; unfold events
  rw [hc]
  dsimp only
  conv => lhs; unfold events
  have hd : declaration { st with markdown := t.flatten, pending := true } [m] =
      some { st with entries := st.entries ++ [⟨[m], t.flatten, st.category⟩] } := by
    obtain ⟨_, _, _, _, _, _, _, _⟩ := st
    dsimp only at h1 h2 h3 h4
    subst h1 h2 h3 h4
    rfl
  rw [hd]

/-- In a group whose entry is the last one. -/
def grouped (st : St) (d : List Byte) (ts : List Member) : St :=
  { st with markdown := [], pending := false, group := true, groupEntry := some st.entries.length,
            entries := st.entries ++ [⟨ts, d, st.category⟩] }

theorem grouped_members (st : St) (d : List Byte) : ∀ (ms ts : List Member),
    addMembers (grouped st d ts) ms = some (grouped st d (ts ++ ms)) := by
  intro ms
  induction ms with
  | nil => intro ts; rw [List.append_nil]; rfl
  | cons m ms ih =>
    intro ts
    have e : addMember (grouped st d ts) m = some (grouped st d (ts ++ [m])) := by
      unfold addMember grouped
      dsimp only
      rw [List.getElem?_append_right (Nat.le_refl _), Nat.sub_self]
      simp
    unfold addMembers
    rw [e]
    dsimp only
    rw [ih, List.append_assoc]
    rfl

theorem grouped_decl (st : St) (d : List Byte) (ts ms : List Member) :
    declaration (grouped st d ts) ms = some (grouped st d (ts ++ ms)) := by
  unfold declaration
  have : (grouped st d ts).groupEntry.isSome = true := rfl
  rw [this, Bool.true_or, if_pos rfl, grouped_members]
  rfl

theorem grouped_decls (st : St) (d : List Byte) (es : List Event) : ∀ (ds : List (List Member)) (ts : List Member),
    events (grouped st d ts) (ds.map .decl ++ es) = events (grouped st d (ts ++ ds.flatten)) es := by
  intro ds
  induction ds with
  | nil => intro ts; rw [List.flatten_nil, List.append_nil]; rfl
  | cons ms ds ih =>
    intro ts
    rw [List.map_cons, List.cons_append]
    conv => lhs; unfold events
    rw [grouped_decl]
    dsimp only
    rw [ih, List.append_assoc, List.flatten_cons]

theorem group_events {t : List (List Byte)} (ht : [] ∉ t) {st : St} (h : Idle st) (m : Member) (ms : List Member)
    (rest : List (List Member)) (es : List Event) :
    events st ((Item.group t ((m :: ms) :: rest)).events ++ es) =
      events { st with entries := st.entries ++ [⟨((m :: ms) :: rest).flatten, t.flatten, st.category⟩] } es := by
  obtain ⟨h1, h2, h3, h4⟩ := h
  have hc : comment st (.beginGroup :: t.map .text) =
      some { st with group := true, markdown := t.flatten, pending := true } := by
    unfold comment commentLoop
    have e : line st ⟨[], false, false⟩ .beginGroup = ({ st with group := true }, ⟨[], false, false⟩) := by
      unfold line directive
      obtain ⟨_, _, _, _, _, _, _, _⟩ := st
      dsimp only at h3
      subst h3
      rfl
    rw [e]
    exact texts (st := { st with group := true }) ht h1 h2 h4
  have hd : declaration { st with group := true, markdown := t.flatten, pending := true } (m :: ms) =
      some (grouped st t.flatten (m :: ms)) := by
    unfold declaration
    rw [if_pos (by simp)]
    unfold addMembers
    have e : addMember { st with group := true, markdown := t.flatten, pending := true } m =
        some (grouped st t.flatten [m]) := by
      unfold addMember
      dsimp only
      rw [h4]
      rfl
    rw [e]
    dsimp only
    rw [grouped_members]
    rfl
  have he : comment (grouped st t.flatten ((m :: ms) ++ rest.flatten)) [.endGroup] =
      some { st with entries := st.entries ++ [⟨((m :: ms) :: rest).flatten, t.flatten, st.category⟩] } := by
    obtain ⟨_, _, _, _, _, _, _, _⟩ := st
    dsimp only at h1 h2 h3 h4
    subst h1 h2 h3 h4
    simp [comment, commentLoop, line, directive, grouped]
  have e0 : (Item.group t ((m :: ms) :: rest)).events ++ es =
      .comment (.beginGroup :: t.map .text) :: .decl (m :: ms) :: (rest.map .decl ++ (.comment [.endGroup] :: es)) := by
    simp [Item.events]
  rw [e0]
  conv => lhs; unfold events
  rw [hc]
  dsimp only
  conv => lhs; unfold events
  rw [hd]
  dsimp only
  rw [grouped_decls]
  conv => lhs; unfold events
  rw [he]

theorem undocumented_events {st : St} (h : Idle st) (ms : List Member) (es : List Event) :
    events st ((Item.undocumented ms).events ++ es) = events st es := by
  obtain ⟨_, h2, _, h4⟩ := h
  show events st (.decl ms :: es) = _
  conv => lhs; unfold events
  have : declaration st ms = some st := by
    unfold declaration
    rw [h2, h4]
    rfl
  rw [this]

/-- The category with that name. -/
def inCategory (st : St) (c : List Byte) : St := directive st (.category c)

theorem category_events {st : St} (c : List Byte) (es : List Event) :
    events st ((Item.category c).events ++ es) = events (inCategory st c) es := by
  show events st (.comment [.category c] :: es) = _
  conv => lhs; unfold events
  have : comment st [.category c] = some (inCategory st c) := rfl
  rw [this]

theorem findIdx_mem {c : List Byte} {l : List (List Byte)} :
    (c ∈ l → ∃ i, l.findIdx? (· = c) = some i ∧ l[i]? = some c) ∧ (c ∉ l → l.findIdx? (· = c) = none) := by
  induction l with
  | nil => exact ⟨fun h => (by cases h), fun _ => rfl⟩
  | cons x l ih =>
    rw [List.findIdx?_cons]
    by_cases hx : x = c
    · subst hx
      simp
    · simp only [hx, decide_false, Bool.false_eq_true, if_false]
      refine ⟨fun h => ?_, fun h => ?_⟩
      · rcases List.mem_cons.1 h with h | h
        · exact absurd h.symm hx
        · obtain ⟨i, h1, h2⟩ := ih.1 h
          exact ⟨i + 1, by rw [h1]; rfl, by simpa using h2⟩
      · rw [ih.2 fun hm => h (List.mem_cons_of_mem _ hm)]
        rfl

/-- The number of the category stands for its name. -/
def CatIs (cats : List (List Byte)) (k : Int) (cur : Option (List Byte)) : Prop :=
  (cur = none ∧ k = -1) ∨ ∃ (i : Nat) (c : List Byte), cur = some c ∧ k = i ∧ cats[i]? = some c

theorem catIs_shown {cats : List (List Byte)} {k : Int} {cur : Option (List Byte)} (h : CatIs cats k cur) :
    (if k < 0 then none else cats[k.toNat]?) = cur := by
  rcases h with ⟨rfl, rfl⟩ | ⟨i, c, rfl, rfl, h⟩
  · rfl
  · rw [if_neg (by omega)]
    simpa using h

theorem catIs_more {cats more : List (List Byte)} {k : Int} {cur : Option (List Byte)} (h : CatIs cats k cur) :
    CatIs (cats ++ more) k cur := by
  rcases h with h | ⟨i, c, h1, h2, h3⟩
  · exact Or.inl h
  · exact Or.inr ⟨i, c, h1, h2, by rw [List.getElem?_append_left (List.getElem?_eq_some_iff.1 h3).1]; exact h3⟩

theorem inCategory_is (st : St) (c : List Byte) :
    (inCategory st c).categories = (if c ∈ st.categories then st.categories else st.categories ++ [c]) ∧
    CatIs (inCategory st c).categories (inCategory st c).category (some c) ∧
    (inCategory st c).entries = st.entries ∧ (inCategory st c).errs = st.errs ∧
    (Idle st → Idle (inCategory st c)) := by
  unfold inCategory directive
  by_cases h : c ∈ st.categories
  · obtain ⟨i, h1, h2⟩ := findIdx_mem.1 h
    dsimp only
    rw [h1, if_pos h]
    exact ⟨rfl, Or.inr ⟨i, c, rfl, rfl, h2⟩, rfl, rfl, fun h => h⟩
  · dsimp only
    rw [findIdx_mem.2 h, if_neg h]
    exact ⟨rfl, Or.inr ⟨_, c, rfl, rfl, by simp⟩, rfl, rfl, fun h => h⟩

theorem mentioned_more : ∀ (is : List Item) (seen : List (List Byte)), ∃ more, mentioned seen is = seen ++ more := by
  intro is
  induction is with
  | nil => intro seen; exact ⟨[], (List.append_nil _).symm⟩
  | cons i is ih =>
    intro seen
    cases i with
    | category c =>
      unfold mentioned
      split
      · exact ih seen
      · obtain ⟨more, h⟩ := ih (seen ++ [c])
        exact ⟨c :: more, by rw [h, List.append_assoc]; rfl⟩
    | one t m => exact ih seen
    | group t ds => exact ih seen
    | undocumented ms => exact ih seen

theorem mentioned_nodup : ∀ (is : List Item) (seen : List (List Byte)), seen.Nodup → (mentioned seen is).Nodup := by
  intro is
  induction is with
  | nil => intro seen h; exact h
  | cons i is ih =>
    intro seen h
    cases i with
    | category c =>
      unfold mentioned
      split
      · exact ih seen h
      · rename_i hc
        refine ih _ ?_
        rw [List.nodup_append]
        refine ⟨h, by simp, ?_⟩
        intro a ha b hb
        rw [List.mem_singleton] at hb
        subst hb
        rintro rfl
        exact hc ha
    | one t m => exact ih seen h
    | group t ds => exact ih seen h
    | undocumented ms => exact ih seen h

/-- An entry has titles and a category that exists. -/
def Good (cats : List (List Byte)) (e : Entry) : Prop := e.titles ≠ [] ∧ ∃ cur, CatIs cats e.category cur

theorem items_events : ∀ (is : List Item) (st : St) (cur : Option (List Byte)), (∀ i ∈ is, i.Fine) → Idle st →
    CatIs st.categories st.category cur →
    ∃ st' new, events st (is.flatMap Item.events) = some st' ∧ Idle st' ∧ st'.errs = st.errs ∧
      st'.categories = mentioned st.categories is ∧ st'.entries = st.entries ++ new ∧
      new.map (asShown st'.categories) = shown cur is ∧ ∀ e ∈ new, Good st'.categories e := by
  intro is
  induction is with
  | nil =>
    intro st cur _ hi _
    exact ⟨st, [], rfl, hi, rfl, rfl, (List.append_nil _).symm, rfl, fun e he => (by cases he)⟩
  | cons i is ih =>
    intro st cur hf hi hc
    have hf' : ∀ x ∈ is, x.Fine := fun x hx => hf x (List.mem_cons_of_mem _ hx)
    have hfi := hf i (List.mem_cons_self ..)
    rw [List.flatMap_cons]
    -- an entry has been added
    have step : ∀ ts d, ts ≠ [] → ∃ st' new,
        events { st with entries := st.entries ++ [⟨ts, d, st.category⟩] } (is.flatMap Item.events) = some st' ∧ Idle st' ∧
        st'.errs = st.errs ∧ st'.categories = mentioned st.categories is ∧ st'.entries = st.entries ++ new ∧
        new.map (asShown st'.categories) = ⟨ts, d, cur⟩ :: shown cur is ∧ ∀ e ∈ new, Good st'.categories e := by
      intro ts d hts
      obtain ⟨st', new, e1, e2, e3, e4, e5, e6, e7⟩ := ih { st with entries := st.entries ++ [⟨ts, d, st.category⟩] } cur hf' hi hc
      obtain ⟨more, hm⟩ := mentioned_more is st.categories
      have hc' : CatIs st'.categories st.category cur := by
        rw [e4]
        dsimp only
        rw [hm]
        exact catIs_more hc
      refine ⟨st', ⟨ts, d, st.category⟩ :: new, e1, e2, e3, e4, by rw [e5]; simp, ?_, ?_⟩
      · rw [List.map_cons, e6]
        unfold asShown
        rw [catIs_shown hc']
      · intro e he
        rcases List.mem_cons.1 he with rfl | he
        · exact ⟨hts, cur, hc'⟩
        · exact e7 e he
    cases i with
    | one t m =>
      rw [one_events hfi hi]
      exact step [m] t.flatten (by simp)
    | group t ds =>
      obtain ⟨ht, m, ms, rest, rfl⟩ := hfi
      rw [group_events ht hi]
      exact step _ t.flatten (by simp)
    | category c =>
      rw [category_events]
      obtain ⟨c1, c2, c3, c4, c5⟩ := inCategory_is st c
      obtain ⟨st', new, e1, e2, e3, e4, e5, e6, e7⟩ := ih (inCategory st c) (some c) hf' (c5 hi) c2
      refine ⟨st', new, e1, e2, e3.trans c4, ?_, by rw [e5, c3], e6, e7⟩
      rw [e4, c1]
      rfl
    | undocumented ms =>
      rw [undocumented_events hi]
      exact ih st cur hf' hi hc

theorem events_append (b : List Event) : ∀ (a : List Event) (s : St),
    events s (a ++ b) = (events s a).bind fun s => events s b := by
  intro a
  induction a with
  | nil => intro s; rfl
  | cons x a ih =>
    intro s
    cases x with
    | comment ls =>
      simp only [List.cons_append, events]
      cases comment s ls with
      | none => rfl
      | some s' => exact ih s'
    | decl ms =>
      simp only [List.cons_append, events]
      cases declaration s ms with
      | none => rfl
      | some s' => exact ih s'

/-! ## The page -/

theorem dump_of {es : List Entry} {cats : List (List Byte)} {a c : List Tok × Bool} {b : List Tok}
    (h1 : section_ sData (fun f _ => !f) false es = some a) (h2 : categorySections es 0 cats = some b)
    (h3 : section_ sFunctions (fun f k => f && decide (k < 0)) false es = some c) :
    dump es cats =
      some (a.1 ++ (if a.2 then [.closeList] else []) ++ b ++ (c.1 ++ (if c.2 then [.closeList] else []))) := by
  unfold dump
  rw [h1, h2, h3]

/-- Whether an entry is about a function. -/
def isFn (e : Entry) : Bool := (e.titles.head?.map Member.function).getD false

theorem isFunction_of {e : Entry} (h : e.titles ≠ []) : e.isFunction = some (isFn e) := by
  unfold Entry.isFunction isFn
  cases ht : e.titles with
  | nil => exact absurd ht h
  | cons m ms => rfl

theorem section_eq (head : List Byte) (want : Bool → Int → Bool) : ∀ (es : List Entry) (wrote : Bool),
    (∀ e ∈ es, e.titles ≠ []) →
    section_ head want wrote es = some
      ((if es.filter (fun e => want (isFn e) e.category) = [] then []
        else (if wrote then [] else [.heading head, .openList]) ++
          (es.filter fun e => want (isFn e) e.category).map .entry),
       wrote || !(es.filter fun e => want (isFn e) e.category).isEmpty) := by
  intro es
  induction es with
  | nil => intro wrote _; simp [section_]
  | cons e es ih =>
    intro wrote h
    have h' : ∀ x ∈ es, x.titles ≠ [] := fun x hx => h x (List.mem_cons_of_mem _ hx)
    unfold section_
    rw [isFunction_of (h e (List.mem_cons_self ..))]
    dsimp only
    by_cases hw : want (isFn e) e.category = true
    · rw [if_pos hw, ih true h', List.filter_cons, if_pos hw]
      by_cases hs : es.filter (fun e => want (isFn e) e.category) = []
      · simp [hs]
      · simp [hs]
    · rw [if_neg hw, ih wrote h', List.filter_cons, if_neg hw]

theorem see_append (cats : List (List Byte)) (a b : List Tok) : see cats (a ++ b) = see cats a ++ see cats b := by
  induction a with
  | nil => rfl
  | cons t a ih => cases t <;> simp [see, ih]

theorem see_entries (cats : List (List Byte)) (es : List Entry) :
    see cats (es.map .entry) = (es.map (asShown cats)).map .entry := by
  induction es with
  | nil => rfl
  | cons e es ih => simp [see, ih]

theorem see_part (cats : List (List Byte)) (head : List Byte) (es : List Entry) :
    see cats (if es = [] then [] else (if false then [] else [.heading head, .openList]) ++ es.map .entry) =
      layout (part head (es.map (asShown cats))) := by
  cases es with
  | nil => rfl
  | cons e es =>
    rw [if_neg (by simp)]
    unfold part layout
    simp only [Bool.false_eq_true, if_false, List.map_cons, List.isEmpty_cons, List.flatMap_cons, List.flatMap_nil,
      List.append_nil]
    show _ :: _ :: see cats ((e :: es).map .entry) = _
    rw [see_entries]
    rfl

theorem see_close (cats : List (List Byte)) (b : Bool) : see cats (if b then [.closeList] else []) = [] := by
  cases b <;> rfl

theorem layout_append (a b : List (List Byte × List Shown)) : layout (a ++ b) = layout a ++ layout b :=
  List.flatMap_append ..

theorem shown_filter (cats : List (List Byte)) (p : Entry → Bool) (q : Shown → Bool) (es : List Entry)
    (h : ∀ e ∈ es, p e = q (asShown cats e)) :
    (es.filter p).map (asShown cats) = (es.map (asShown cats)).filter q := by
  rw [List.filter_map]
  congr 1
  exact List.filter_congr h

theorem asShown_fn (cats : List (List Byte)) (e : Entry) : (asShown cats e).function = isFn e := rfl

theorem catIs_index {cats : List (List Byte)} (hn : cats.Nodup) {k : Int} {cur : Option (List Byte)} (h : CatIs cats k cur)
    {c : Nat} {d : List Byte} (hd : cats[c]? = some d) : (k = (c : Int)) ↔ cur = some d := by
  rcases h with ⟨rfl, rfl⟩ | ⟨i, x, rfl, rfl, hi⟩
  · constructor
    · intro h; omega
    · intro h; cases h
  · constructor
    · intro h
      have : i = c := by omega
      subst this
      rw [← hi, hd]
    · intro h
      cases h
      have := (List.getElem?_inj (List.getElem?_eq_some_iff.1 hi).1 hn).1 (hi.trans hd.symm)
      omega

theorem categories_eq {cats : List (List Byte)} (hn : cats.Nodup) {es : List Entry} (hg : ∀ e ∈ es, Good cats e) :
    ∀ (ds pre : List (List Byte)), cats = pre ++ ds → ∃ out, categorySections es pre.length ds = some out ∧
      see cats out = layout (ds.flatMap fun c =>
        part c ((es.map (asShown cats)).filter fun e => e.function && e.category = some c)) ∧
      leftOpen out = ((ds.filter fun c => !((es.map (asShown cats)).filter fun e =>
        e.function && e.category = some c).isEmpty).length : Int) := by
  intro ds
  induction ds with
  | nil => intro pre _; exact ⟨[], rfl, rfl, rfl⟩
  | cons d ds ih =>
    intro pre hpre
    obtain ⟨out, h1, h2, h3⟩ := ih (pre ++ [d]) (by rw [hpre, List.append_assoc]; rfl)
    rw [List.length_append] at h1
    have hd : cats[pre.length]? = some d := by rw [hpre]; simp
    have hsec := section_eq d (fun f k => f && decide (k = (pre.length : Int))) es false fun e he => (hg e he).1
    have hfil : (es.filter fun e => (isFn e && decide (e.category = (pre.length : Int)))).map (asShown cats) =
        (es.map (asShown cats)).filter fun e => e.function && e.category = some d := by
      refine shown_filter cats _ _ es ?_
      intro e he
      obtain ⟨_, cur, hcur⟩ := hg e he
      rw [asShown_fn]
      have hx : (asShown cats e).category = cur := catIs_shown hcur
      rw [hx]
      have := catIs_index hn hcur hd
      simp [this]
    unfold categorySections
    rw [hsec]
    have h1' : categorySections es (pre.length + 1) ds = some out := h1
    rw [h1']
    refine ⟨_, rfl, ?_, ?_⟩
    · rw [see_append, h2, see_part, hfil, List.flatMap_cons, layout_append]
    · rw [List.filter_cons, ← hfil]
      have hcnt : ∀ a b, leftOpen (a ++ b) = leftOpen a + leftOpen b := by
        intro a b
        unfold leftOpen
        rw [List.count_append, List.count_append]
        omega
      have hent : ∀ l : List Entry, leftOpen (l.map .entry) = 0 := by
        intro l
        induction l with
        | nil => rfl
        | cons e l ihl => simpa [leftOpen] using ihl
      dsimp only
      rw [hcnt, h3]
      generalize es.filter (fun e => (isFn e && decide (e.category = (pre.length : Int)))) = l at *
      cases l with
      | nil => simp [leftOpen]
      | cons e l =>
        rw [if_neg (by simp), hcnt, hent]
        simp [leftOpen]
        omega

end Verif.DocEx
