import Verif.Esc.PropsB
import Verif.Toc.Spec
/-!
# The table of contents of the documentation — lemmas
-/
namespace Verif.Toc
open Verif Spec

variable {α β : Type}

/-! ## Taking pages from the list -/

theorem eraseQuick_perm (l : List α) (i : Nat) (h : i < l.length) : (l[i] :: eraseQuick i l).Perm l := by
  rcases List.eq_nil_or_concat l with rfl | ⟨a, x, rfl⟩
  · exact absurd h (by simp)
  · unfold eraseQuick
    simp only [List.concat_eq_append, List.getLast?_append, List.getLast?_singleton, Option.some_or]
    by_cases hi : i < a.length
    · have e : (a ++ [x]).set i x = a.set i x ++ [x] := by rw [List.set_append_left _ _ hi]
      rw [e, List.dropLast_concat]
      have g : (a.concat x)[i] = a[i] := by
        simp only [List.concat_eq_append]
        exact List.getElem_append_left hi
      have g2 : (a ++ [x])[i]'(by simp; omega) = a[i] := List.getElem_append_left hi
      rw [g2]
      have h1 : a = a.take i ++ a[i] :: a.drop (i + 1) := by
        rw [List.getElem_cons_drop, List.take_append_drop]
      have h2 : a.set i x = a.take i ++ x :: a.drop (i + 1) := List.set_eq_take_append_cons_drop .. |>.trans (if_pos hi)
      rw [h2]
      conv => rhs; rw [h1]
      generalize a[i] = y
      generalize a.take i = u
      generalize a.drop (i + 1) = v
      have p1 : (y :: (u ++ x :: v)).Perm (y :: x :: (u ++ v)) := List.Perm.cons _ List.perm_middle
      have p2 : ((u ++ y :: v) ++ [x]).Perm (x :: (u ++ y :: v)) := List.perm_append_singleton _ _
      have p3 : (x :: (u ++ y :: v)).Perm (x :: y :: (u ++ v)) := List.Perm.cons _ List.perm_middle
      exact p1.trans ((List.Perm.swap _ _ _).trans (p2.trans p3).symm)
    · have hi' : i = a.length := by
        simp at h; omega
      subst hi'
      simp [List.set_append_right]
      exact (List.perm_append_singleton _ _).symm

theorem take_perm (l : List α) (p : α → Bool) (x : α) (h : l.find? p = some x) :
    (x :: eraseQuick (l.findIdx p) l).Perm l := by
  have hx : ∃ y ∈ l, p y = true := ⟨x, List.mem_of_find?_eq_some h, List.find?_some h⟩
  have hl : l.findIdx p < l.length := List.findIdx_lt_length_of_exists hx
  have e : l[l.findIdx p] = x := by
    have := List.find?_eq_getElem?_findIdx (p := p) (xs := l)
    rw [h, List.getElem?_eq_getElem hl] at this
    exact (Option.some.inj this).symm
  have := eraseQuick_perm l _ hl
  rwa [e] at this

theorem order_nil (link : α → List Byte) (l : List α) : order link [] l = ([], l, []) := rfl

theorem order_none {link : α → List Byte} {id : List Byte} {l : List α} (ids : List (List Byte))
    (h : l.find? (fun c => link c == id) = none) :
    order link (id :: ids) l = ((order link ids l).1, (order link ids l).2.1, id :: (order link ids l).2.2) := by
  conv => lhs; unfold order
  rw [h]

theorem order_some {link : α → List Byte} {id : List Byte} {l : List α} {x : α} (ids : List (List Byte))
    (h : l.find? (fun c => link c == id) = some x) :
    order link (id :: ids) l =
      (x :: (order link ids (eraseQuick (l.findIdx fun c => link c == id) l)).1,
        (order link ids (eraseQuick (l.findIdx fun c => link c == id) l)).2.1,
        (order link ids (eraseQuick (l.findIdx fun c => link c == id) l)).2.2) := by
  conv => lhs; unfold order
  rw [h]

theorem order_perm (link : α → List Byte) : ∀ (ids : List (List Byte)) (l : List α),
    ((order link ids l).1 ++ (order link ids l).2.1).Perm l := by
  intro ids
  induction ids with
  | nil => intro l; exact List.Perm.refl _
  | cons id ids ih =>
    intro l
    rcases hf : l.find? (fun c => link c == id) with _ | x
    · rw [order_none ids hf]; exact ih l
    · rw [order_some ids hf]
      exact (List.Perm.cons x (ih _)).trans (take_perm l _ x hf)

theorem order_names (link : α → List Byte) : ∀ (ids : List (List Byte)) (l : List α),
    ((order link ids l).1.map link).Sublist ids ∧ ((order link ids l).2.2).Sublist ids ∧
    ((order link ids l).1.map link ++ (order link ids l).2.2).Perm ids := by
  intro ids
  induction ids with
  | nil => intro l; exact ⟨.slnil, .slnil, .refl _⟩
  | cons id ids ih =>
    intro l
    rcases hf : l.find? (fun c => link c == id) with _ | x
    · rw [order_none ids hf]
      obtain ⟨h1, h2, h3⟩ := ih l
      exact ⟨h1.cons _, h2.cons_cons _, List.perm_middle.trans (h3.cons _)⟩
    · rw [order_some ids hf]
      obtain ⟨h1, h2, h3⟩ := ih (eraseQuick (l.findIdx fun c => link c == id) l)
      have hx : link x = id := by simpa using List.find?_some hf
      simp only [List.map_cons, hx, List.cons_append]
      exact ⟨h1.cons_cons _, h2.cons _, h3.cons _⟩

theorem order_apart (link : α → List Byte) : ∀ (ids : List (List Byte)) (l : List α),
    ∀ x ∈ (order link ids l).2.1, link x ∉ (order link ids l).2.2 := by
  intro ids
  induction ids with
  | nil => intro l x _; exact List.not_mem_nil
  | cons id ids ih =>
    intro l
    rcases hf : l.find? (fun c => link c == id) with _ | y
    · rw [order_none ids hf]
      intro x hx
      have hm : x ∈ l := (order_perm link ids l).mem_iff.1 (List.mem_append_right _ hx)
      have hne := List.find?_eq_none.1 hf x hm
      rw [List.mem_cons, not_or]
      exact ⟨by simpa using hne, ih l x hx⟩
    · rw [order_some ids hf]
      exact ih _

/-! ## Pages put in order, and images of them -/

theorem eraseQuick_map (f : α → β) (i : Nat) (l : List α) : eraseQuick i (l.map f) = (eraseQuick i l).map f := by
  unfold eraseQuick
  rw [List.getLast?_map]
  rcases l.getLast? with _ | x
  · rfl
  · simp [List.map_set, List.map_dropLast]

theorem order_map (link : β → List Byte) (f : α → β) : ∀ (ids : List (List Byte)) (l : List α),
    order link ids (l.map f) =
      ((order (fun a => link (f a)) ids l).1.map f, (order (fun a => link (f a)) ids l).2.1.map f,
        (order (fun a => link (f a)) ids l).2.2) := by
  intro ids
  induction ids with
  | nil => intro l; rfl
  | cons id ids ih =>
    intro l
    have e : (l.map f).find? (fun c => link c == id) = (l.find? fun c => link (f c) == id).map f := by
      rw [List.find?_map]; rfl
    rcases hf : l.find? (fun c => link (f c) == id) with _ | x
    · rw [hf] at e
      rw [order_none ids e, order_none (link := fun a => link (f a)) ids hf, ih]
    · rw [hf] at e
      rw [order_some ids e, order_some (link := fun a => link (f a)) ids hf, List.findIdx_map, eraseQuick_map, ih]
      rfl

theorem childOrder_map (link : β → List Byte) (f : α → β) (t : List Byte) (l : List α) :
    childOrder link t (l.map f) =
      ((childOrder (fun a => link (f a)) t l).1.map f, (childOrder (fun a => link (f a)) t l).2) := by
  unfold childOrder
  simp only [order_map, List.map_eq_nil_iff, List.map_map]
  rfl

theorem childOrders_map (link : β → List Byte) (f : α → β) : ∀ (ts : List (List Byte)) (l : List α),
    childOrders link ts (l.map f) =
      ((childOrders (fun a => link (f a)) ts l).1.map f, (childOrders (fun a => link (f a)) ts l).2) := by
  intro ts
  induction ts with
  | nil => intro l; rfl
  | cons t ts ih =>
    intro l
    unfold childOrders
    simp only [childOrder_map, ih]

theorem childOrders_lost (link : α → List Byte) : ∀ (ts : List (List Byte)) (l : List α),
    ∃ lost, ((childOrders link ts l).1 ++ lost).Perm l ∧
      (lost = [] ↔ ∀ e ∈ (childOrders link ts l).2, ¬ Err.Lost e) := by
  intro ts
  induction ts with
  | nil => intro l; exact ⟨[], by simp [childOrders], by simp [childOrders]⟩
  | cons t ts ih =>
    intro l
    obtain ⟨b, hb, hb'⟩ := ih (childOrder link t l).1
    have h1 := order_perm link (readIds (t.length + 1) t) l
    refine ⟨b ++ (order link (readIds (t.length + 1) t) l).2.1, ?_, ?_⟩
    · show ((childOrders link ts (childOrder link t l).1).1 ++ _).Perm l
      rw [← List.append_assoc]
      exact (hb.append_right _).trans h1
    · rw [List.append_eq_nil_iff, hb']
      show _ ↔ ∀ e ∈ (childOrder link t l).2 ++ (childOrders link ts (childOrder link t l).1).2, _
      simp only [List.mem_append, or_imp, forall_and]
      rw [and_comm]
      refine and_congr_left' ?_
      unfold childOrder
      simp only [List.mem_append, List.mem_map, or_imp, forall_and, forall_exists_index, and_imp]
      constructor
      · intro h
        exact ⟨by rintro e x _ rfl; exact id, by rw [if_pos h]; simp⟩
      · rintro ⟨_, h⟩
        by_cases hn : (order link (readIds (t.length + 1) t) l).2.1 = []
        · exact hn
        · rw [if_neg hn] at h
          exact absurd trivial (h _ (List.mem_singleton.2 rfl))

/-! ## Walks -/

theorem visitEach_eq (l : List Page) : visitEach l = l.map fun p => (p.info.link, visit p) := by
  induction l with
  | nil => simp [visitEach]
  | cons p l ih => rw [visitEach, ih]; rfl

theorem convertEach_eq (l : List Page) : convertEach l = l.map fun p => (p.info.link, convert p) := by
  induction l with
  | nil => simp [convertEach]
  | cons p l ih => rw [convertEach, ih]; rfl

theorem errorsEach_eq (l : List Page) : errorsEach l = l.flatMap errors := by
  induction l with
  | nil => simp [errorsEach]
  | cons p l ih => rw [errorsEach, ih]; rfl

theorem allEach_eq (l : List Page) : allEach l = l.flatMap all := by
  induction l with
  | nil => simp [allEach]
  | cons p l ih => rw [allEach, ih]; rfl

theorem linesEach_eq (l : List Contents) : linesEach l = l.flatMap lines := by
  induction l with
  | nil => simp [linesEach]
  | cons p l ih => rw [linesEach, ih]; rfl

/-- The pages below a page as they are after its tags. -/
def below (orders : List (List Byte)) (cs : List Page) : List Page :=
  (childOrders (fun p => p.info.link) orders cs).1

theorem visit_eq (i : Info) (orders : List (List Byte)) (cs : List Page) :
    visit (.mk i orders cs) = i :: (below orders cs).flatMap visit := by
  rw [visit, visitEach_eq, childOrders_map]
  simp only [List.flatMap_map, below]

theorem convert_eq (i : Info) (orders : List (List Byte)) (cs : List Page) :
    convert (.mk i orders cs) = .mk i.title (linkDestination i) ((below orders cs).map convert) := by
  rw [convert, convertEach_eq, childOrders_map]
  simp only [List.map_map, below]
  rfl

theorem below_mem {orders : List (List Byte)} {cs : List Page} {p : Page} (h : p ∈ below orders cs) : p ∈ cs := by
  obtain ⟨lost, h1, _⟩ := childOrders_lost (fun p : Page => p.info.link) orders cs
  exact h1.mem_iff.1 (List.mem_append_left _ h)

theorem flatMap_ne_nil {f : α → List β} (hf : ∀ a, f a ≠ []) (l : List α) : l.flatMap f = [] ↔ l = [] := by
  cases l with
  | nil => simp
  | cons a l => simp [hf a]

theorem visit_ne : ∀ p : Page, visit p ≠ []
  | .mk i o cs => by rw [visit]; exact List.cons_ne_nil _ _

theorem sublists_lost : ∀ (l : List Page),
    (∀ p ∈ l, ∃ lost, (visit p ++ lost).Perm (all p) ∧ (lost = [] ↔ ∀ e ∈ errors p, ¬ Err.Lost e)) →
    ∃ lost, (l.flatMap visit ++ lost).Perm (l.flatMap all) ∧ (lost = [] ↔ ∀ e ∈ l.flatMap errors, ¬ Err.Lost e) := by
  intro l
  induction l with
  | nil => intro _; exact ⟨[], by simp, by simp⟩
  | cons p l ih =>
    intro h
    obtain ⟨a, ha, ha'⟩ := h p (List.mem_cons_self ..)
    obtain ⟨b, hb, hb'⟩ := ih fun q hq => h q (List.mem_cons_of_mem _ hq)
    refine ⟨a ++ b, ?_, ?_⟩
    · simp only [List.flatMap_cons]
      refine List.Perm.trans ?_ (ha.append hb)
      rw [List.append_assoc, List.append_assoc]
      refine List.Perm.append_left _ ?_
      rw [← List.append_assoc, ← List.append_assoc]
      exact List.Perm.append_right _ List.perm_append_comm
    · simp only [List.append_eq_nil_iff, ha', hb', List.flatMap_cons, List.mem_append, or_imp, forall_and]

theorem visit_lost : ∀ p : Page,
    ∃ lost, (visit p ++ lost).Perm (all p) ∧ (lost = [] ↔ ∀ e ∈ errors p, ¬ Err.Lost e)
  | .mk i o cs => by
    obtain ⟨b, hb, hb'⟩ := sublists_lost cs fun p _ => visit_lost p
    obtain ⟨c, hc, hc'⟩ := childOrders_lost (fun p : Page => p.info.link) o cs
    rw [visit_eq, all, allEach_eq, errors, errorsEach_eq]
    refine ⟨c.flatMap visit ++ b, ?_, ?_⟩
    · rw [List.cons_append]
      refine List.Perm.cons _ (List.Perm.trans ?_ hb)
      rw [← List.append_assoc, ← List.flatMap_append]
      exact List.Perm.append_right _ (List.Perm.flatMap_right _ hc)
    · rw [List.append_eq_nil_iff, flatMap_ne_nil visit_ne, hb', hc']
      simp only [List.mem_append, or_imp, forall_and]
      exact and_comm
termination_by p => sizeOf p
decreasing_by
  rename_i h
  have := List.sizeOf_lt_of_mem h
  simp only [Page.mk.sizeOf_spec]
  omega

theorem convert_lines : ∀ p : Page, lines (convert p) = (visit p).map fun i => (i.title, linkDestination i)
  | .mk i o cs => by
    have h : ∀ p ∈ below o cs, lines (convert p) = (visit p).map fun i => (i.title, linkDestination i) :=
      fun p hp =>
        have := below_mem hp
        convert_lines p
    rw [convert_eq, visit_eq, lines, linesEach_eq, List.map_cons, List.flatMap_map]
    congr 1
    rw [List.map_flatMap]
    generalize below o cs = l at h
    induction l with
    | nil => rfl
    | cons p l ih =>
      rw [List.flatMap_cons, List.flatMap_cons, h p (List.mem_cons_self ..), ih fun q hq => h q (List.mem_cons_of_mem _ hq)]
termination_by p => sizeOf p
decreasing_by
  have := List.sizeOf_lt_of_mem this
  simp only [Page.mk.sizeOf_spec]
  omega

/-! ## Reading of names -/

theorem begins_iff (c : Byte) : Esc.identByte false false true c = true ↔ Begins c := by
  simp [Esc.identByte, Str.isAsciiLetter, Begins, or_assoc, or_comm, or_left_comm]

theorem inside_iff (c : Byte) : Esc.identByte false false false c = true ↔ Inside c := by
  simp [Esc.identByte, Str.isAsciiLetter, Str.isDecimalDigit, Inside, Begins, or_assoc, or_comm, or_left_comm]

theorem identLoop_inside : ∀ (cs r : List Byte), (∀ d ∈ cs, Inside d) → (∀ c ∈ r.head?, ¬ Inside c) →
    (Esc.identLoop false false false (cs ++ r)).1 = r := by
  intro cs
  induction cs with
  | nil =>
    intro r _ hr
    cases r with
    | nil => rfl
    | cons c r =>
      have := hr c rfl
      rw [List.nil_append]
      unfold Esc.identLoop
      rw [if_neg (fun h => this ((inside_iff c).1 h))]
  | cons c cs ih =>
    intro r h hr
    rw [List.cons_append]
    unfold Esc.identLoop
    rw [if_pos ((inside_iff c).2 (h c (List.mem_cons_self ..)))]
    exact ih r (fun d hd => h d (List.mem_cons_of_mem _ hd)) hr

theorem after_word {w r : List Byte} (h : Word w) (hr : ∀ c ∈ r.head?, ¬ Inside c) : Title.afterName (w ++ r) = r := by
  obtain ⟨c, cs, rfl, hc, hcs⟩ := h
  show (Esc.identLoop false false true (c :: (cs ++ r))).1 = r
  unfold Esc.identLoop
  rw [if_pos ((begins_iff c).2 hc)]
  exact identLoop_inside cs r hcs hr

theorem name_word {w r : List Byte} (h : Word w) (hr : ∀ c ∈ r.head?, ¬ Inside c) : Title.spanName (w ++ r) = w := by
  have := Title.name_append (w ++ r)
  rw [after_word h hr] at this
  exact List.append_cancel_right this

theorem name_none {r : List Byte} (hr : ∀ c ∈ r.head?, ¬ Begins c) : Title.spanName r = [] := by
  have h : Title.afterName r = r := by
    cases r with
    | nil => rfl
    | cons c r =>
      show (Esc.identLoop false false true (c :: r)).1 = _
      unfold Esc.identLoop
      rw [if_neg fun h => hr c rfl ((begins_iff c).1 h)]
  unfold Title.spanName
  rw [h]
  simp

theorem name_is_word (s : List Byte) : Title.spanName s = [] ∨ Word (Title.spanName s) := by
  cases s with
  | nil => exact .inl rfl
  | cons c s =>
    by_cases hc : Begins c
    · refine .inr ?_
      have e : Title.afterName (c :: s) = s.dropWhile (Esc.identByte false false false) := by
        show (Esc.identLoop false false true (c :: s)).1 = _
        unfold Esc.identLoop
        rw [if_pos ((begins_iff c).2 hc), Esc.identLoop_rest]
      have h := Title.name_append (c :: s)
      rw [e] at h
      have h2 : Title.spanName (c :: s) ++ s.dropWhile (Esc.identByte false false false) =
          (c :: s.takeWhile (Esc.identByte false false false)) ++ s.dropWhile (Esc.identByte false false false) := by
        rw [h, List.cons_append, List.takeWhile_append_dropWhile]
      have h3 := List.append_cancel_right h2
      rw [h3]
      refine ⟨c, _, rfl, hc, fun d hd => (inside_iff d).1 ?_⟩
      have := List.all_takeWhile (p := Esc.identByte false false false) (l := s)
      exact List.all_eq_true.1 this d hd
    · exact .inl (name_none fun d hd => by cases hd; exact hc)

theorem read_words : ∀ (n : Nat) (s : List Byte), ∀ w ∈ readIds n s, Word w := by
  intro n
  induction n with
  | zero => intro s w hw; exact absurd hw List.not_mem_nil
  | succ n ih =>
    intro s w hw
    unfold readIds at hw
    dsimp only at hw
    split at hw
    · exact absurd hw List.not_mem_nil
    · rename_i hn
      rcases List.mem_cons.1 hw with rfl | hw
      · exact (name_is_word _).resolve_left hn
      · exact ih _ w hw

theorem white_blank : ∀ (ws r : List Byte), Blank ws → Esc.scanWhite false (ws ++ r) = Esc.scanWhite false r := by
  intro ws
  induction ws with
  | nil => intro r _; rfl
  | cons c ws ih =>
    intro r h
    have hc : Str.isWhite c = true := by
      have := h c (List.mem_cons_self ..)
      simpa [Str.isWhite, or_assoc] using this
    rw [List.cons_append]
    conv => lhs; unfold Esc.scanWhite
    simp only [hc]
    exact ih r fun d hd => h d (List.mem_cons_of_mem _ hd)

theorem white_other (r : List Byte) (h : ∀ c ∈ r.head?, ¬ Blank [c]) : Esc.scanWhite false r = r := by
  cases r with
  | nil => rfl
  | cons c r =>
    have hc : Str.isWhite c = false := by
      have := h c rfl
      rw [Bool.eq_false_iff]
      intro hw
      refine this fun d hd => ?_
      rw [List.mem_singleton] at hd
      subst hd
      simpa [Str.isWhite, or_assoc] using hw
    unfold Esc.scanWhite
    simp only [hc]
    rfl

theorem begins_not_blank {c : Byte} (h : Begins c) : ¬ Blank [c] := by
  intro hb
  rcases hb c (List.mem_singleton.2 rfl) with rfl | rfl | rfl | rfl <;> revert h <;> simp [Begins]

theorem read_names {s : List Byte} {ids : List (List Byte)} (h : Names s ids) :
    ∀ n, s.length < n → readIds n s = ids := by
  induction h with
  | stop hw hr =>
    intro n hn
    obtain ⟨n, rfl⟩ : ∃ m, n = m + 1 := ⟨n - 1, by omega⟩
    unfold readIds
    dsimp only
    rw [white_blank _ _ hw, white_other _ fun c hc => (hr c hc).2, name_none fun c hc => (hr c hc).1]
    simp
  | @word ws w r ids hw h hr _ ih =>
    intro n hn
    obtain ⟨n, rfl⟩ : ∃ m, n = m + 1 := ⟨n - 1, by omega⟩
    have hne : w ≠ [] := by obtain ⟨c, cs, rfl, _⟩ := h; exact List.cons_ne_nil _ _
    have hl : 0 < w.length := List.length_pos_iff.2 hne
    unfold readIds
    have e : Esc.scanWhite false (w ++ r) = w ++ r := by
      refine white_other _ ?_
      obtain ⟨c, cs, rfl, hc, _⟩ := h
      intro d hd
      have : c = d := by simpa using hd
      subst this
      exact begins_not_blank hc
    dsimp only
    rw [white_blank _ _ hw, e, name_word h hr, after_word h hr, if_neg hne, ih n (by simp only [List.length_append] at hn; omega)]

theorem dropWhile_head (p : Byte → Bool) (s : List Byte) : ∀ c ∈ (s.dropWhile p).head?, p c = false := by
  intro c hc
  rcases h : s.dropWhile p with _ | ⟨d, t⟩
  · rw [h] at hc; cases hc
  · rw [h] at hc
    cases hc
    have := List.head_dropWhile_not p (l := s) (by rw [h]; exact List.cons_ne_nil _ _)
    simpa [h] using this

theorem names_some : ∀ (n : Nat) (s : List Byte), s.length < n → ∃ ids, Names s ids := by
  intro n
  induction n with
  | zero => intro s h; omega
  | succ n ih =>
    intro s h
    have hw : Blank (s.takeWhile Str.isWhite) := by
      intro c hc
      have := List.all_eq_true.1 (List.all_takeWhile (p := Str.isWhite) (l := s)) c hc
      simpa [Str.isWhite, or_assoc] using this
    have hs : s.takeWhile Str.isWhite ++ s.dropWhile Str.isWhite = s := List.takeWhile_append_dropWhile
    have hh := dropWhile_head Str.isWhite s
    rcases hr : s.dropWhile Str.isWhite with _ | ⟨c, r⟩
    · rw [hr] at hs
      exact ⟨[], hs ▸ Names.stop hw (by simp)⟩
    · rw [hr] at hs hh
      by_cases hc : Begins c
      · have hr2 : r.takeWhile (Esc.identByte false false false) ++ r.dropWhile (Esc.identByte false false false) = r :=
          List.takeWhile_append_dropWhile
        obtain ⟨ids, hi⟩ := ih (r.dropWhile (Esc.identByte false false false)) (by
          have h1 := congrArg List.length hs
          have h2 := congrArg List.length hr2
          simp only [List.length_append, List.length_cons] at h1 h2
          omega)
        refine ⟨(c :: r.takeWhile (Esc.identByte false false false)) :: ids, ?_⟩
        rw [← hs]
        conv => arg 1; rw [← hr2, ← List.cons_append]
        refine Names.word hw ⟨c, _, rfl, hc, fun d hd => (inside_iff d).1 ?_⟩ ?_ hi
        · exact List.all_eq_true.1 (List.all_takeWhile (p := Esc.identByte false false false) (l := r)) d hd
        · intro d hd hin
          have := dropWhile_head _ _ d hd
          rw [(inside_iff d).2 hin] at this
          cases this
      · refine ⟨[], ?_⟩
        rw [← hs]
        refine Names.stop hw fun d hd => ?_
        have e : c = d := by simpa using hd
        subst e
        refine ⟨hc, fun hb => ?_⟩
        have h1 := hh c rfl
        have h2 : Str.isWhite c = true := by
          have := hb c (List.mem_singleton.2 rfl)
          simpa [Str.isWhite, or_assoc] using this
        rw [h1] at h2
        cases h2

/-! ## Addresses -/

theorem dest_page {p : Info} (h : p.desc.head? = some 47) (hm : p.markdown = true) (hx : ¬ indexName <:+ p.desc) :
    linkDestination p = some (docsName ++ p.desc) := by
  unfold linkDestination
  rw [if_neg (by simp [h]), if_neg (by simp [hm]), if_neg]
  intro hc
  exact hx (List.isSuffixOf_iff_suffix.1 hc)

theorem dest_index {p : Info} {a : List Byte} (h : p.desc.head? = some 47) (hm : p.markdown = true)
    (he : p.desc = a ++ indexName) : linkDestination p = if a = [] then some [47] else some (docsName ++ a) := by
  unfold linkDestination
  rw [if_neg (by simp [h]), if_neg (by simp [hm]), if_pos (List.isSuffixOf_iff_suffix.2 ⟨a, he.symm⟩), he]
  have : (a ++ indexName).take ((a ++ indexName).length - 6) = a := by
    have : (a ++ indexName).length - 6 = a.length := by simp [indexName]
    rw [this]; simp
  rw [this]
  by_cases ha : a = []
  · subst ha; rfl
  · rw [if_neg ha, if_neg]
    intro h2
    exact ha (by simpa using h2)

end Verif.Toc
