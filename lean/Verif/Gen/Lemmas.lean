import Verif.Gen.Spec
/-!
# Generated lines in source files — lemmas
-/
namespace Verif.Gen
open Verif Spec

theorem line_eq (name : List Byte) : line name = directive name := by
  unfold line directive mark
  simp only [List.append_assoc]
  rfl

/-- Nothing, or ends with the end of a line. -/
def AtStart (pre : List Byte) : Prop := pre = [] ∨ Ended pre

theorem ended_append {s : List Byte} (t : List Byte) (h : Ended s) : Ended (t ++ s) := by
  obtain ⟨u, rfl⟩ := h
  exact ⟨t ++ u, (List.append_assoc ..).symm⟩

theorem get_pre {pre : List Byte} (x post : List Byte) {n : Nat} (hn : n < x.length) :
    (pre ++ (x ++ post))[pre.length + n]? = x[n]? := by
  rw [List.getElem?_append_right (by omega), Nat.add_sub_cancel_left, List.getElem?_append_left hn]

theorem get_last {pre : List Byte} (r : List Byte) (h : Ended pre) : ∃ k, pre.length = k + 1 ∧ (pre ++ r)[k]? = some 10 := by
  obtain ⟨u, rfl⟩ := h
  refine ⟨u.length, by simp, ?_⟩
  rw [List.append_assoc, List.getElem?_append_right (by omega)]
  simp

theorem white_of {c : Byte} (h : c = 32 ∨ c = 9 ∨ c = 13) : Str.isWhite c = true ∧ c ≠ 10 := by
  rcases h with rfl | rfl | rfl <;> decide

theorem solid_of {c : Byte} (h : Solid c) : Str.isWhite c = false ∧ c ≠ 10 := by
  obtain ⟨h1, h2, h3, h4⟩ := h
  simp [Str.isWhite, h1, h2, h3, h4]

theorem lineStart_eq {pre : List Byte} (hp : AtStart pre) (x post : List Byte) (hx : 10 ∉ x) :
    ∀ n, n ≤ x.length → lineStart (pre ++ (x ++ post)) (pre.length + n) = pre.length := by
  intro n
  induction n with
  | zero =>
    intro _
    rcases hp with rfl | hp
    · rfl
    · obtain ⟨k, hk, hg⟩ := get_last (x ++ post) hp
      rw [Nat.add_zero, hk]
      unfold lineStart
      rw [if_pos hg]
  | succ n ih =>
    intro hn
    rw [← Nat.add_assoc]
    unfold lineStart
    rw [get_pre x post (by omega), List.getElem?_eq_getElem (by omega), if_neg, ih (by omega)]
    intro h
    exact hx (Option.some.inj h ▸ List.getElem_mem _)

theorem indentStart_blank {pre : List Byte} (hp : AtStart pre) (x post : List Byte) (hx : Blank x) (first : Nat) :
    ∀ n, n ≤ x.length → indentStart (pre ++ (x ++ post)) (pre.length + n) first = (pre.length, first) := by
  intro n
  induction n with
  | zero =>
    intro _
    rcases hp with rfl | hp
    · rfl
    · obtain ⟨k, hk, hg⟩ := get_last (x ++ post) hp
      rw [Nat.add_zero, hk]
      unfold indentStart
      rw [hg]
      rfl
  | succ n ih =>
    intro hn
    rw [← Nat.add_assoc]
    unfold indentStart
    rw [get_pre x post (by omega), List.getElem?_eq_getElem (by omega)]
    have := white_of (hx _ (List.getElem_mem (l := x) (by omega : n < x.length)))
    simp only [this.1, this.2, if_true, if_false]
    exact ih (by omega)

theorem indentStart_body {pre : List Byte} (hp : AtStart pre) (ind body post : List Byte) (hi : Blank ind)
    (hb : 10 ∉ body) (hs : ∃ c ∈ body.head?, Solid c) :
    ∀ (j first : Nat), j < body.length →
      indentStart (pre ++ (ind ++ (body ++ post))) (pre.length + ind.length + (j + 1)) first =
        (pre.length, pre.length + ind.length) := by
  have hg : ∀ j (h : j < body.length), (pre ++ (ind ++ (body ++ post)))[pre.length + ind.length + j]? = some body[j] := by
    intro j h
    rw [← List.append_assoc pre ind]
    have := get_pre (pre := pre ++ ind) body post h
    rw [List.length_append] at this
    rw [this, List.getElem?_eq_getElem h]
  intro j
  induction j with
  | zero =>
    intro first hj
    obtain ⟨c, hc, hs⟩ := hs
    have e : body[0] = c := by
      cases body with
      | nil => cases hc
      | cons d b => simpa using hc
    have := solid_of hs
    rw [Nat.zero_add]
    unfold indentStart
    have hg0 := hg 0 hj
    rw [Nat.add_zero] at hg0
    rw [hg0, e]
    simp only [this.1, this.2, if_false, Bool.false_eq_true]
    exact indentStart_blank hp ind (body ++ post) hi _ ind.length (Nat.le_refl _)
  | succ j ih =>
    intro first hj
    rw [← Nat.add_assoc _ (j + 1) 1]
    unfold indentStart
    rw [hg (j + 1) hj]
    have : body[j + 1] ≠ 10 := fun h => hb (h ▸ List.getElem_mem _)
    simp only [this, if_false]
    exact ih _ (by omega)

theorem insert_blank {pre : List Byte} (hp : AtStart pre) (x post repl : List Byte) (hx : Blank x) :
    ∀ n, n ≤ x.length → insertDirective (pre ++ (x ++ post)) repl (pre.length + n) = ⟨pre.length, 0, repl⟩ := by
  intro n
  induction n with
  | zero =>
    intro _
    rcases hp with rfl | hp
    · rfl
    · obtain ⟨k, hk, hg⟩ := get_last (x ++ post) hp
      rw [Nat.add_zero, hk]
      unfold insertDirective
      rw [hg]
      rfl
  | succ n ih =>
    intro hn
    rw [← Nat.add_assoc]
    unfold insertDirective
    rw [get_pre x post (by omega), List.getElem?_eq_getElem (by omega)]
    have := white_of (hx _ (List.getElem_mem (l := x) (by omega : n < x.length)))
    simp only [this.1, this.2, if_false, Bool.not_true, Bool.false_eq_true]
    exact ih (by omega)

theorem insert_after {pre : List Byte} (hp : AtStart pre) (ind body ws post repl : List Byte) (hi : Blank ind)
    (hb : 10 ∉ body) (hs : ∃ c ∈ body.head?, Solid c) (hl : ∃ c ∈ body.getLast?, Solid c) (hw : Blank ws) :
    ∀ n, n ≤ ws.length →
      insertDirective (pre ++ (ind ++ (body ++ (ws ++ post)))) repl (pre.length + ind.length + body.length + n) =
        ⟨pre.length + ind.length + body.length, 0, 10 :: (repl ++ ind)⟩ := by
  intro n
  induction n with
  | zero =>
    intro _
    obtain ⟨c, hc, hcs⟩ := hl
    obtain ⟨b, hb'⟩ : ∃ b, body = b ++ [c] := by
      rcases List.eq_nil_or_concat body with rfl | ⟨b, d, rfl⟩
      · cases hc
      · refine ⟨b, ?_⟩
        have : d = c := by simpa using hc
        rw [this, List.concat_eq_append]
    have hlen : body.length = b.length + 1 := by rw [hb']; simp
    have hg : (pre ++ (ind ++ (body ++ (ws ++ post))))[pre.length + ind.length + b.length]? = some c := by
      rw [← List.append_assoc pre ind]
      have := get_pre (pre := pre ++ ind) body (ws ++ post) (n := b.length) (by omega)
      rw [List.length_append] at this
      rw [this, hb', List.getElem?_append_right (Nat.le_refl _)]
      simp
    have := solid_of hcs
    have hr : indentStart (pre ++ (ind ++ (body ++ (ws ++ post)))) (pre.length + ind.length + b.length)
        (pre.length + ind.length + b.length) = (pre.length, pre.length + ind.length) := by
      cases hbl : b.length with
      | zero =>
        rw [Nat.add_zero]
        exact indentStart_blank hp ind _ hi _ ind.length (Nat.le_refl _)
      | succ m => exact indentStart_body hp ind body _ hi hb hs m _ (by omega)
    rw [Nat.add_zero, hlen, ← Nat.add_assoc]
    unfold insertDirective
    rw [hg]
    simp only [this.1, this.2, if_false, Bool.not_false, if_true, hr]
    rw [List.drop_left, Nat.add_sub_cancel_left, List.take_left]
  | succ n ih =>
    intro hn
    rw [← Nat.add_assoc]
    unfold insertDirective
    have hg : (pre ++ (ind ++ (body ++ (ws ++ post))))[pre.length + ind.length + body.length + n]? = some (ws[n]'(by omega)) := by
      rw [← List.append_assoc pre, ← List.append_assoc (pre ++ ind)]
      have := get_pre (pre := pre ++ ind ++ body) ws post (n := n) (by omega)
      rw [List.length_append, List.length_append] at this
      rw [this, List.getElem?_eq_getElem (by omega)]
    rw [hg]
    have := white_of (hw _ (List.getElem_mem (l := ws) (by omega : n < ws.length)))
    simp only [this.1, this.2, if_false, Bool.not_true, Bool.false_eq_true]
    exact ih (by omega)

/-! ## Marks -/

theorem isWhite_iff (c : Byte) : Str.isWhite c = true ↔ c = 32 ∨ c = 9 ∨ c = 13 ∨ c = 10 := by
  simp [Str.isWhite, or_assoc]

theorem marked_iff (d : List Byte) : marked d = true ↔ Generated d := by
  unfold marked
  rw [List.isSuffixOf_iff_suffix]
  constructor
  · rintro ⟨u, hu⟩
    refine ⟨u, (d.reverse.takeWhile Str.isWhite).reverse, ?_, ?_⟩
    · show d = u ++ mark ++ _
      rw [hu, ← List.reverse_append, List.takeWhile_append_dropWhile, List.reverse_reverse]
    · intro c hc
      rw [List.mem_reverse] at hc
      exact (isWhite_iff c).1 (List.all_eq_true.1 (List.all_takeWhile (p := Str.isWhite) (l := d.reverse)) c hc)
  · rintro ⟨u, w, rfl, hw⟩
    refine ⟨u, ?_⟩
    have e : ∀ (w r : List Byte), (∀ c ∈ w, Str.isWhite c = true) → (w ++ 121 :: r).dropWhile Str.isWhite = 121 :: r := by
      intro w r h
      induction w with
      | nil => rw [List.nil_append, List.dropWhile_cons_of_neg]; decide
      | cons c w ih =>
        rw [List.cons_append, List.dropWhile_cons_of_pos (h c (List.mem_cons_self ..))]
        exact ih fun x hx => h x (List.mem_cons_of_mem _ hx)
    have h2 : (u ++ [47, 47, 64, 64, 112, 108, 121] ++ w).reverse = w.reverse ++ 121 :: ([108, 112, 64, 64, 47, 47] ++ u.reverse) := by
      simp
    rw [h2, e _ _ fun c hc => (isWhite_iff c).2 (hw c (List.mem_reverse.1 hc))]
    simp [mark]

/-! ## The whole file -/

theorem blank_no_end {ws : List Byte} (h : Blank ws) : 10 ∉ ws := fun hm => (white_of (h 10 hm)).2 rfl

theorem bytes_ended {p : Part} (h : p.Ok) : Ended p.bytes := by
  cases p with
  | text t => exact h
  | old ws d => exact ended_append _ h.2.1
  | other ws d => exact ended_append _ h.2.1
  | close ws rest name => exact ended_append _ (ended_append [125] h.2)
  | closeAfter ind body ws rest name =>
    exact ended_append _ (ended_append _ (ended_append _ (ended_append [125] h.2.2.1)))

theorem bytes_cons (p : Part) (l : List Part) (tail : List Byte) : bytes (p :: l) tail = p.bytes ++ bytes l tail := by
  simp [bytes]

/-- The file after the changes, from the last one made on. -/
theorem loop_eq (tail : List Byte) : ∀ (l : List Part) (pre : List Byte) (prev : Nat), (∀ p ∈ l, p.Ok) → AtStart pre →
    prev ≤ pre.length → ¬ EndsOld l tail →
    performLoop (pre ++ bytes l tail) ((events pre.length l).flatMap (onEvent (pre ++ bytes l tail))) prev =
      some (pre.drop prev ++ bytes (l.flatMap Part.renew) tail) := by
  intro l
  induction l with
  | nil =>
    intro pre prev _ _ hp _
    show some ((pre ++ bytes [] tail).drop prev) = _
    rw [List.drop_append_of_le_length hp]
    rfl
  | cons p l ih =>
    intro pre prev hok hs hp he
    have hp1 := hok p (List.mem_cons_self ..)
    have he' : ¬ EndsOld l tail := by
      rintro ⟨ht, u, ws, d, rfl⟩
      exact he ⟨ht, p :: u, ws, d, rfl⟩
    have IH := fun prev (h : prev ≤ (pre ++ p.bytes).length) => ih (pre ++ p.bytes) prev
      (fun q hq => hok q (List.mem_cons_of_mem _ hq)) (.inr (ended_append _ (bytes_ended hp1))) h he'
    have esrc : pre ++ bytes (p :: l) tail = pre ++ p.bytes ++ bytes l tail := by
      rw [bytes_cons, List.append_assoc]
    have elen : pre.length + p.bytes.length = (pre ++ p.bytes).length := (List.length_append ..).symm
    rw [events, List.flatMap_append, List.flatMap_cons, elen]
    rw [esrc]
    cases p with
    | text t =>
      show performLoop _ ([] ++ _) prev = _
      rw [List.nil_append, IH prev (by rw [List.length_append]; omega), List.drop_append_of_le_length hp]
      simp [Part.renew, bytes, Part.bytes]
    | other ws d =>
      have hm : marked d = false := by
        rw [Bool.eq_false_iff]; exact fun h => hp1.2.2 ((marked_iff d).1 h)
      have e1 : ((pre ++ (ws ++ d) ++ bytes l tail).drop (pre.length + ws.length)).take d.length = d := by
        rw [← List.append_assoc pre ws, List.append_assoc (pre ++ ws), ← List.length_append, List.drop_left, List.take_left]
      simp only [Part.events, Part.bytes, List.flatMap_cons, List.flatMap_nil, onEvent, e1, hm, Bool.not_false, if_true,
        List.nil_append]
      have := IH prev (by rw [List.length_append]; omega)
      simp only [Part.bytes] at this
      rw [this, List.drop_append_of_le_length hp]
      simp [Part.renew, bytes, Part.bytes]
    | old ws d =>
      have hm : marked d = true := (marked_iff d).2 hp1.2.2
      have e1 : ((pre ++ (ws ++ d) ++ bytes l tail).drop (pre.length + ws.length)).take d.length = d := by
        rw [← List.append_assoc pre ws, List.append_assoc (pre ++ ws), ← List.length_append, List.drop_left, List.take_left]
      have e2 : lineStart (pre ++ (ws ++ d) ++ bytes l tail) (pre.length + ws.length) = pre.length := by
        have := lineStart_eq hs ws (d ++ bytes l tail) (blank_no_end hp1.1) ws.length (Nat.le_refl _)
        simpa [List.append_assoc] using this
      have hne : 0 < (bytes l tail).length := by
        rw [List.length_pos_iff]
        intro hn
        have h1 : l.flatMap Part.bytes = [] ∧ tail = [] := List.append_eq_nil_iff.1 hn
        have h2 : l = [] := by
          cases l with
          | nil => rfl
          | cons q l =>
            have := (List.append_eq_nil_iff.1 (by rw [← List.flatMap_cons]; exact h1.1)).1
            obtain ⟨u, hu⟩ := bytes_ended (hok q (by simp))
            rw [hu] at this
            simp at this
        exact he ⟨h1.2, [], ws, d, by rw [h2]; rfl⟩
      simp only [Part.events, Part.bytes, List.flatMap_cons, List.flatMap_nil, onEvent, e1, hm, e2, Bool.not_true,
        Bool.false_eq_true, if_false, List.append_nil, List.cons_append, List.nil_append]
      have h3 : pre.length + (pre.length + ws.length + d.length - pre.length) = (pre ++ (ws ++ d)).length := by
        simp only [List.length_append]; omega
      unfold performLoop
      simp only [h3]
      rw [if_neg (by omega), if_neg (by rw [List.length_append (as := pre ++ (ws ++ d))]; omega)]
      have := IH (pre ++ (ws ++ d)).length (Nat.le_refl _)
      simp only [Part.bytes] at this
      rw [this]
      simp only [Option.map_some, List.drop_length, List.nil_append]
      rw [List.append_assoc pre, List.drop_append_of_le_length hp, List.take_append_of_le_length (by simp),
        List.take_of_length_le (by simp)]
      simp [Part.renew]
    | close ws rest name =>
      have e2 : insertDirective (pre ++ (ws ++ 125 :: rest) ++ bytes l tail) (directive name) (pre.length + ws.length) =
          ⟨pre.length, 0, directive name⟩ := by
        have := insert_blank hs ws (125 :: rest ++ bytes l tail) (directive name) hp1.1 ws.length (Nat.le_refl _)
        simpa [List.append_assoc] using this
      simp only [Part.events, Part.bytes, List.flatMap_cons, List.flatMap_nil, onEvent, e2, List.append_nil,
        List.cons_append, List.nil_append]
      unfold performLoop
      simp only [Nat.add_zero]
      rw [if_neg (by omega), if_neg (by simp only [List.length_append, List.length_cons]; omega)]
      have := IH pre.length (by rw [List.length_append]; omega)
      simp only [Part.bytes] at this
      rw [this]
      simp only [Option.map_some, List.drop_left]
      rw [List.append_assoc pre, List.drop_append_of_le_length hp, List.take_append_of_le_length (by simp),
        List.take_of_length_le (by simp)]
      simp [Part.renew, bytes, Part.bytes, line_eq]
    | closeAfter ind body ws rest name =>
      obtain ⟨h1, h2, h3, h4, h5, h6⟩ := hp1
      have e2 : insertDirective (pre ++ (ind ++ (body ++ (ws ++ 125 :: rest))) ++ bytes l tail) (directive name)
          (pre.length + (ind.length + body.length + ws.length)) =
          ⟨pre.length + ind.length + body.length, 0, 10 :: (directive name ++ ind)⟩ := by
        have := insert_after hs ind body ws (125 :: rest ++ bytes l tail) (directive name) h1 h4 h5 h6 h2 ws.length
          (Nat.le_refl _)
        simpa [List.append_assoc, Nat.add_assoc] using this
      simp only [Part.events, Part.bytes, List.flatMap_cons, List.flatMap_nil, onEvent, e2, List.append_nil,
        List.cons_append, List.nil_append]
      unfold performLoop
      simp only [Nat.add_zero]
      rw [if_neg (by omega), if_neg (by simp only [List.length_append, List.length_cons]; omega)]
      have := IH (pre.length + ind.length + body.length) (by simp only [List.length_append, Part.bytes]; omega)
      simp only [Part.bytes] at this
      rw [this]
      have d1 : (pre ++ (ind ++ (body ++ (ws ++ 125 :: rest)))).drop (pre.length + ind.length + body.length) =
          ws ++ 125 :: rest := by
        rw [← List.append_assoc pre, ← List.append_assoc (pre ++ ind), ← List.length_append, ← List.length_append,
          List.drop_left]
      have d2 : ((pre ++ (ind ++ (body ++ (ws ++ 125 :: rest))) ++ bytes l tail).drop prev).take
          (pre.length + ind.length + body.length - prev) = pre.drop prev ++ (ind ++ body) := by
        have : pre ++ (ind ++ (body ++ (ws ++ 125 :: rest))) ++ bytes l tail =
            pre ++ ((ind ++ body) ++ ((ws ++ 125 :: rest) ++ bytes l tail)) := by simp
        rw [this, List.drop_append_of_le_length hp, ← List.append_assoc, List.take_left']
        simp only [List.length_append, List.length_drop]; omega
      simp only [Option.map_some, d1, d2]
      simp [Part.renew, bytes, Part.bytes, line_eq]

theorem loop_none (src : List Byte) (s : Subst) (h : src.length ≤ s.start + s.numBytes) : ∀ (ss : List Subst) (prev : Nat),
    s ∈ ss → performLoop src ss prev = none := by
  intro ss
  induction ss with
  | nil => intro _ hm; exact absurd hm List.not_mem_nil
  | cons t ss ih =>
    intro prev hm
    unfold performLoop
    split
    · rfl
    split
    · rfl
    rcases List.mem_cons.1 hm with rfl | hm
    · contradiction
    · rw [ih _ hm]; rfl

theorem lineStart_le (src : List Byte) : ∀ n, lineStart src n ≤ n := by
  intro n
  induction n with
  | zero => exact Nat.le_refl _
  | succ n ih => unfold lineStart; split <;> omega

theorem events_append : ∀ (l m : List Part) (k : Nat),
    events k (l ++ m) = events k l ++ events (k + (l.flatMap Part.bytes).length) m := by
  intro l
  induction l with
  | nil => intro m k; rfl
  | cons p l ih =>
    intro m k
    rw [List.cons_append, events, ih, events, List.append_assoc, List.flatMap_cons, List.length_append, Nat.add_assoc]

theorem ends_none {l : List Part} {tail : List Byte} (h : EndsOld l tail) (hok : ∀ p ∈ l, p.Ok) :
    generate (bytes l tail) (events 0 l) = none := by
  obtain ⟨rfl, u, ws, d, rfl⟩ := h
  have hp := hok (.old ws d) (by simp)
  have hm : marked d = true := (marked_iff d).2 hp.2.2
  have eb : bytes (u ++ [.old ws d]) [] = u.flatMap Part.bytes ++ ws ++ d := by simp [bytes, Part.bytes]
  rw [eb]
  unfold generate
  have e1 : ((u.flatMap Part.bytes ++ ws ++ d).drop ((u.flatMap Part.bytes).length + ws.length)).take d.length = d := by
    rw [← List.length_append, List.drop_left, List.take_length]
  refine loop_none _ ⟨lineStart (u.flatMap Part.bytes ++ ws ++ d) ((u.flatMap Part.bytes).length + ws.length),
    (u.flatMap Part.bytes).length + ws.length + d.length -
      lineStart (u.flatMap Part.bytes ++ ws ++ d) ((u.flatMap Part.bytes).length + ws.length), []⟩ ?_ _ _ ?_
  · have := lineStart_le (u.flatMap Part.bytes ++ ws ++ d) ((u.flatMap Part.bytes).length + ws.length)
    simp only [List.length_append] at *
    omega
  · rw [events_append, List.flatMap_append]
    refine List.mem_append_right _ ?_
    simp only [events, Part.events, Nat.zero_add, List.append_nil, List.flatMap_cons, List.flatMap_nil, onEvent, e1, hm,
      Bool.not_true, Bool.false_eq_true, if_false, List.mem_singleton]

theorem line_ended (name : List Byte) : Ended (line name) := by
  rw [line_eq]; exact ⟨_, rfl⟩

theorem line_generated (name : List Byte) : Generated (line name) := by
  rw [line_eq]; exact ⟨_, [10], rfl, by simp⟩

theorem renew_ok {p : Part} (h : p.Ok) : ∀ q ∈ p.renew, q.Ok := by
  have hb : Blank [] := by intro c hc; cases hc
  intro q hq
  cases p with
  | text t => rw [List.mem_singleton.1 hq]; exact h
  | old ws d => cases hq
  | other ws d => rw [List.mem_singleton.1 hq]; exact h
  | close ws rest name =>
    simp only [Part.renew, List.mem_cons, List.not_mem_nil, or_false] at hq
    rcases hq with rfl | rfl
    · exact ⟨hb, line_ended _, line_generated _⟩
    · exact h
  | closeAfter ind body ws rest name =>
    simp only [Part.renew, List.mem_cons, List.not_mem_nil, or_false] at hq
    obtain ⟨h1, h2, h3, _⟩ := h
    rcases hq with rfl | rfl | rfl
    · exact ⟨ind ++ body, by simp⟩
    · exact ⟨hb, line_ended _, line_generated _⟩
    · exact ⟨fun c hc => (List.mem_append.1 hc).elim (h1 c) (h2 c), h3⟩

theorem renew_twice (p : Part) : p.renew.flatMap Part.renew = p.renew := by
  cases p <;> rfl

theorem renews_twice (l : List Part) : (l.flatMap Part.renew).flatMap Part.renew = l.flatMap Part.renew := by
  induction l with
  | nil => rfl
  | cons p l ih => rw [List.flatMap_cons, List.flatMap_append, ih, renew_twice]

theorem renews_end (l : List Part) (ws d : List Byte) : (l.flatMap Part.renew).getLast? ≠ some (.old ws d) := by
  induction l with
  | nil => simp
  | cons p l ih =>
    rw [List.flatMap_cons, List.getLast?_append]
    rcases h : (l.flatMap Part.renew).getLast? with _ | q
    · cases p <;> simp [Part.renew]
    · rw [h] at ih
      exact ih

end Verif.Gen
