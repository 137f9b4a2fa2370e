import Verif.Clean.Lemmas
import Verif.FLoc.Props
/-!
# Putting the header of the project on top of a source file — comments, lines and locations
-/
namespace Verif.Clean
open Verif Verif.Cpp

theorem last_append (a : List Byte) {b : List Byte} (h : b ≠ []) : (a ++ b).getLast? = b.getLast? := by
  rw [List.getLast?_append]
  cases hb : b.getLast? with
  | none => exact absurd (List.getLast?_eq_none_iff.1 hb) h
  | some x => rfl

theorem take_line (a r : List Byte) (c : Byte) : (a ++ c :: r).take ((a ++ c :: r).length - r.length) = a ++ [c] := by
  have h : (a ++ c :: r).length - r.length = (a ++ [c]).length := by
    simp only [List.length_append, List.length_cons, List.length_nil]; omega
  rw [h, show a ++ c :: r = (a ++ [c]) ++ r by simp, List.take_left]

theorem line_split : ∀ (l : List Byte), (10 : Byte) ∈ l → ∃ a b, l = a ++ 10 :: b ∧ 10 ∉ a := by
  intro l
  induction l with
  | nil => intro h; cases h
  | cons c cs ih2 =>
    intro h
    by_cases hc : c = 10
    · exact ⟨[], cs, by rw [hc]; rfl, by simp⟩
    · obtain ⟨a, b, h1, h2⟩ := ih2 (by rcases List.mem_cons.1 h with h | h; (· exact absurd h.symm hc); (· exact h))
      refine ⟨c :: a, b, by rw [h1]; rfl, ?_⟩
      rintro h
      rcases List.mem_cons.1 h with h | h
      · exact hc h.symm
      · exact h2 h

/-! ## Comments -/

theorem scan_calm (rest : List Byte) {body : List Byte} (h : Calm body) :
    Esc.scanLoop [42, 47] 0 (body ++ 42 :: 47 :: rest) = some rest := by
  induction h with
  | nil => rfl
  | @other b l hb _ ih =>
    rw [List.cons_append]
    unfold Esc.scanLoop
    rw [if_neg (by simpa using fun h => hb h.symm)]
    exact ih
  | @star b l hb hb' _ ih =>
    rw [List.cons_append, List.cons_append]
    unfold Esc.scanLoop
    rw [if_pos (by rfl), if_neg (by simp)]
    unfold Esc.scanLoop
    rw [if_neg (by simpa using fun h => hb' h.symm)]
    exact ih

theorem readToken_line {e : Int} {p : PP} {a : Bool} {body more : List Byte}
    (h : At e p a (47 :: 47 :: (body ++ 10 :: more))) (hb : 10 ∉ body) :
    ∃ t q, readToken p = some (t, q) ∧ IsComment t.type ∧ At e q true more := by
  obtain ⟨m, an, st, he, h0, f, h1, h2⟩ := h
  have hl := skipLine_body more body (fun x hx h => hb (h ▸ hx))
  unfold readToken readLoop step
  rw [h1]
  dsimp only
  rw [h2, if_neg (by simp), if_neg (by omega)]
  unfold lex
  dsimp only
  rw [if_neg (by decide), if_neg (by decide), if_pos rfl, if_pos rfl, hl]
  exact ⟨_, _, rfl, Or.inl rfl, m, an, rfl, he, h0, _, rfl, rfl⟩

theorem readToken_block {e : Int} {p : PP} {a : Bool} {body more : List Byte}
    (h : At e p a (47 :: 42 :: (body ++ 42 :: 47 :: more))) (hb : Calm body) :
    ∃ t q, readToken p = some (t, q) ∧ IsComment t.type ∧ At e q false more := by
  obtain ⟨m, an, st, he, h0, f, h1, h2⟩ := h
  have hl := scan_calm more hb
  unfold readToken readLoop step
  rw [h1]
  dsimp only
  rw [h2, if_neg (by simp), if_neg (by omega)]
  unfold lex
  dsimp only
  rw [if_neg (by decide), if_neg (by decide), if_pos rfl, if_neg (by decide), if_pos rfl, hl]
  exact ⟨_, _, rfl, Or.inr rfl, m, an, rfl, he, h0, _, rfl, rfl⟩

/-- White space and comments do not change what is read after them. -/
theorem lead_same {l : List Byte} (h : Lead l) : ∀ {e : Int} {p : PP} {a : Bool} {more : List Byte},
    At e p a (l ++ more) → ∃ q b, At e q b more ∧ SameCode e e p q ∧ (l = [] → b = a) ∧
      (l.getLast? = some 10 → b = true) := by
  induction h with
  | nil =>
    intro e p a more h
    exact ⟨p, a, h, same_of_like (readToken_sim (At.sim h h)), fun _ => rfl, (fun h => by cases h)⟩
  | @blank c l hc _ ih =>
    intro e p a more h
    obtain ⟨f, h1, h2⟩ := h.stack
    have hq : At e { p with atStart := startAfter c a, stack := [{ f with rest := l ++ more }] } (startAfter c a)
        (l ++ more) := ⟨h.macros, h.angles, rfl, h.endLoc, h.pos, _, rfl, rfl⟩
    obtain ⟨q, b, k1, k2, k3, k4⟩ := ih hq
    refine ⟨q, b, k1, (same_of_like (readToken_ws h hc hq)).trans k2, (fun h => by cases h), ?_⟩
    intro hl
    cases l with
    | nil =>
      simp only [List.getLast?_singleton, Option.some.injEq] at hl
      rw [k3 rfl, hl]
      rfl
    | cons x v => exact k4 (by simpa [List.getLast?_cons_cons] using hl)
  | @line body l hb _ ih =>
    intro e p a more h
    rw [List.cons_append, List.cons_append, List.append_assoc, List.cons_append] at h
    obtain ⟨t, q1, h1, h2, h3⟩ := readToken_line h hb
    obtain ⟨q, b, k1, k2, k3, k4⟩ := ih h3
    refine ⟨q, b, k1, (same_of_comment h1 h2).trans k2, (fun h => by cases h), ?_⟩
    intro hl
    cases l with
    | nil => exact k3 rfl
    | cons x v =>
      refine k4 ?_
      rw [← hl, show 47 :: 47 :: (body ++ 10 :: x :: v) = (47 :: 47 :: (body ++ [10])) ++ x :: v by simp,
        last_append _ (by simp)]
  | @block body l hb _ ih =>
    intro e p a more h
    rw [List.cons_append, List.cons_append, List.append_assoc, List.cons_append, List.cons_append] at h
    obtain ⟨t, q1, h1, h2, h3⟩ := readToken_block h hb
    obtain ⟨q, b, k1, k2, k3, k4⟩ := ih h3
    refine ⟨q, b, k1, (same_of_comment h1 h2).trans k2, (fun h => by cases h), ?_⟩
    intro hl
    cases l with
    | nil =>
      exfalso
      rw [show 47 :: 42 :: (body ++ [42, 47]) = (47 :: 42 :: (body ++ [42])) ++ [47] by simp,
        last_append _ (by simp)] at hl
      cases hl
    | cons x v =>
      refine k4 ?_
      rw [← hl, show 47 :: 42 :: (body ++ 42 :: 47 :: x :: v) = (47 :: 42 :: (body ++ [42, 47])) ++ x :: v by simp,
        last_append _ (by simp)]

theorem at_init (s : List Byte) : At s.length (PP.init [] s) true s :=
  ⟨rfl, rfl, rfl, rfl, by omega, _, rfl, rfl⟩

/-- Whole lines of white space and comments on top of a file do not change what is read after them. -/
theorem same_lines {hdr rest : List Byte} (h : Lead hdr) (hn : hdr = [] ∨ hdr.getLast? = some 10) :
    SameCode (hdr ++ rest).length rest.length (PP.init [] (hdr ++ rest)) (PP.init [] rest) := by
  obtain ⟨q, b, h1, h2, h3, h4⟩ := lead_same h (at_init (hdr ++ rest))
  have hb : b = true := by rcases hn with h | h; (· exact h3 h); (· exact h4 h)
  subst hb
  exact h2.trans (same_of_like (readToken_sim (At.sim h1 (at_init rest))))

/-! ## The first token -/

theorem firstCode_sound : ∀ (n : Nat) (pp : PP) (t : Token), firstCode n pp = some t → FirstToken pp t := by
  intro n
  induction n with
  | zero => intro pp t h; cases h
  | succ n ih =>
    intro pp t h
    unfold firstCode at h
    cases hr : readToken pp with
    | none => rw [hr] at h; cases h
    | some x =>
      obtain ⟨u, q⟩ := x
      rw [hr] at h
      dsimp only at h
      split at h
      · rename_i hc
        cases h
        exact .here hr (by rintro (h | h); (· exact hc.1 h); (· exact hc.2 h))
      · rename_i hc
        refine .comment hr ?_ (ih q t h)
        unfold IsComment
        by_cases h1 : u.type = .lineComment
        · exact Or.inl h1
        · by_cases h2 : u.type = .cStyleComment
          · exact Or.inr h2
          · exact absurd ⟨h1, h2⟩ hc

theorem firstCode_complete {pp : PP} {t : Token} (h : FirstToken pp t) : ∀ (n : Nat) (f : Frame), pp.macros = [] →
    pp.stack = [f] → f.rest.length < n → firstCode n pp = some t := by
  induction h with
  | here h1 h2 =>
    intro n f hm hs hn
    cases n with
    | zero => omega
    | succ n =>
      unfold firstCode
      rw [h1]
      dsimp only
      rw [if_pos ⟨fun h => h2 (Or.inl h), fun h => h2 (Or.inr h)⟩]
  | @comment pp q c t h1 h2 _ ih =>
    intro n f hm hs hn
    cases n with
    | zero => omega
    | succ n =>
      unfold firstCode
      rw [h1]
      dsimp only
      rw [if_neg (by rintro ⟨h3, h4⟩; rcases h2 with h | h; (· exact h3 h); (· exact h4 h))]
      have hr := readLoop_plain _ _ _ _ _ _ hm hs h1
      obtain ⟨gap, rest, k1, k2, k3, _⟩ := hr.got (by rintro h; rw [h] at h2; rcases h2 with h | h <;> cases h)
      refine ih n _ hr.mac k1 ?_
      have := congrArg List.length k2
      have h3 : 0 < c.text.length := by cases ht : c.text; (· exact absurd ht k3); (· exact by simp)
      simp only [List.length_append] at this
      dsimp only
      omega

/-- The first token of a file. -/
theorem firstCode_iff (src : List Byte) (t : Token) :
    firstCode (src.length + 1) (PP.init [] src) = some t ↔ FirstOf src t :=
  ⟨firstCode_sound _ _ _, fun h => firstCode_complete h _ _ rfl rfl (by simp)⟩

theorem first_unique {src : List Byte} {t u : Token} (h : FirstOf src t) (k : FirstOf src u) : t = u := by
  have h1 := (firstCode_iff src t).2 h
  rw [(firstCode_iff src u).2 k] at h1
  exact (Option.some.inj h1).symm

theorem first_loc {pp : PP} {t : Token} (h : FirstToken pp t) : ∀ (f : Frame), pp.macros = [] → pp.stack = [f] →
    t.type ≠ .endOfFile → locAt pp.endLoc f.rest ≤ t.loc ∧ t.loc < pp.endLoc := by
  induction h with
  | here h1 h2 =>
    intro f hm hs ht
    obtain ⟨gap, rest, k1, k2, k3, k4, _⟩ := (readLoop_plain _ _ _ _ _ _ hm hs h1).got ht
    have := congrArg List.length k2
    simp only [List.length_append] at this
    have h3 := List.length_pos_iff.2 k3
    rw [k4]
    unfold locAt
    omega
  | @comment pp q c t h1 h2 _ ih =>
    intro f hm hs ht
    have hr := readLoop_plain _ _ _ _ _ _ hm hs h1
    obtain ⟨gap, rest, k1, k2, k3, k4, _⟩ := hr.got (by rintro h; rw [h] at h2; rcases h2 with h | h <;> cases h)
    have := congrArg List.length k2
    simp only [List.length_append] at this
    have h3 := ih _ hr.mac k1 ht
    rw [hr.endLoc] at h3
    refine ⟨?_, h3.2⟩
    refine Int.le_trans ?_ h3.1
    unfold locAt
    dsimp only
    omega

theorem first_bounds {src : List Byte} {t : Token} (h : FirstOf src t) (ht : t.type ≠ .endOfFile) :
    0 ≤ t.loc ∧ t.loc < src.length := by
  have := first_loc h _ rfl rfl ht
  simpa [locAt, PP.init] using this

/-! ## Lines -/

theorem blank_iff (line : List Byte) : Str.trim Str.isWhite false true line = [] ↔ Blank line := by
  have key : ∀ l : List Byte, Str.trimLeft Str.isWhite l = [] ↔ Blank l := by
    intro l
    induction l with
    | nil => exact ⟨(fun _ _ h => by cases h), fun _ => rfl⟩
    | cons c cs ih =>
      unfold Str.trimLeft
      by_cases hc : Str.isWhite c = true
      · rw [if_pos hc, ih]
        simp only [Str.isWhite, Bool.or_eq_true, beq_iff_eq] at hc
        constructor
        · intro h b hb
          rcases List.mem_cons.1 hb with rfl | hb
          · rcases hc with ((h | h) | h) | h <;> simp [h]
          · exact h b hb
        · exact fun h b hb => h b (List.mem_cons_of_mem _ hb)
      · rw [if_neg hc]
        constructor
        · intro h; cases h
        · intro h
          exfalso
          apply hc
          rcases h c List.mem_cons_self with h | h | h | h <;> rw [h] <;> rfl
  unfold Str.trim Str.trimRight
  simp only [Bool.false_eq_true, if_false, if_true]
  rw [List.reverse_eq_nil_iff, key]
  unfold Blank
  simp

theorem trimHeader_blank {l : List Byte} (h : l = [] ∨ StartsBlank l) (n : Nat) : trimHeader n l = [] := by
  cases n with
  | zero => rfl
  | succ n =>
    unfold trimHeader
    rcases h with rfl | ⟨b, r, rfl, hb, hn⟩
    · rfl
    · dsimp only
      rw [skipLine_body r b (fun x hx h => hn (h ▸ hx))]
      rw [take_line, if_neg (by simp), if_pos]
      rw [blank_iff]
      intro x hx
      rcases List.mem_append.1 hx with h | h
      · exact hb x h
      · simp only [List.mem_singleton] at h; exact Or.inr (Or.inr (Or.inl h))

theorem trimHeader_solid {k : List Byte} (h : SolidLines k) {l : List Byte} (hl : l = [] ∨ StartsBlank l) : ∀ (n : Nat),
    k.length < n → trimHeader n (k ++ l) = k := by
  induction h with
  | nil => intro n _; exact trimHeader_blank hl n
  | @cons line k hn hb _ ih =>
    intro n hlen
    cases n with
    | zero => omega
    | succ n =>
      unfold trimHeader
      dsimp only
      rw [List.append_assoc, List.cons_append, skipLine_body (k ++ l) line (fun x hx h => hn (h ▸ hx))]
      rw [take_line, if_neg (by simp), if_neg, ih n (by simp at hlen; omega)]
      · simp
      · rw [blank_iff]
        intro h
        exact hb fun x hx => h x (List.mem_append.2 (Or.inl hx))

/-- Lines are split at the first blank one. -/
theorem solid_split : ∀ (n : Nat) (l : List Byte), l.length ≤ n → (l = [] ∨ l.getLast? = some 10) →
    ∃ k r, l = k ++ r ∧ SolidLines k ∧ (r = [] ∨ StartsBlank r) := by
  intro n
  induction n with
  | zero =>
    intro l h _
    exact ⟨[], l, rfl, .nil, Or.inl (List.length_eq_zero_iff.1 (by omega))⟩
  | succ n ih =>
    intro l h hl
    rcases hl with rfl | hl
    · exact ⟨[], [], rfl, .nil, Or.inl rfl⟩
    have hmem : (10 : Byte) ∈ l := List.mem_of_getLast? hl
    obtain ⟨line, r, rfl, hn⟩ := line_split l hmem
    by_cases hb : Blank line
    · exact ⟨[], _, rfl, .nil, Or.inr ⟨line, r, rfl, hb, hn⟩⟩
    · have hr : r = [] ∨ r.getLast? = some 10 := by
        cases r with
        | nil => exact Or.inl rfl
        | cons x v =>
          refine Or.inr ?_
          rw [← hl, show line ++ 10 :: x :: v = (line ++ [10]) ++ x :: v by simp,
            last_append _ (by simp)]
      obtain ⟨k, r', h1, h2, h3⟩ := ih r (by simp at h; omega) hr
      exact ⟨line ++ 10 :: k, r', by rw [h1]; simp, .cons hn hb h2, h3⟩

theorem solid_end {k : List Byte} (h : SolidLines k) : k = [] ∨ k.getLast? = some 10 := by
  induction h with
  | nil => exact Or.inl rfl
  | @cons line l _ _ _ ih =>
    refine Or.inr ?_
    rcases ih with rfl | h
    · rw [last_append _ (by simp)]; rfl
    · cases l with
      | nil => cases h
      | cons x v =>
        rw [← h, show line ++ 10 :: x :: v = (line ++ [10]) ++ x :: v by simp,
            last_append _ (by simp)]

/-! ## Where a line starts -/

theorem prefix_plain {t : List Byte} {o : Nat} (h : ∀ b ∈ t.take o, b.toNat < 0x80) (p : Nat) (hp : p ≤ o)
    (ho : o ≤ t.length) : FLoc.Spec.Prefix t p ((t.take p).map fun b => ((b.toNat : Int), 1)) := by
  induction p with
  | zero => exact .nil
  | succ p ih =>
    have hd : Enc.decodeUTF8 (t.drop p) = ⟨(t[p]).toNat, .valid, 1⟩ := by
      rw [List.drop_eq_getElem_cons (by omega)]
      unfold Enc.decodeUTF8
      dsimp only
      rw [if_pos (h _ (List.mem_take_iff_getElem.2 ⟨p, by omega, rfl⟩))]
    have := FLoc.Spec.Prefix.snoc (ih (by omega)) (by omega)
    rw [hd] at this
    rw [List.take_add_one, List.map_append, List.getElem?_eq_getElem (by omega)]
    exact this

/-- The bytes of the line before a place in the text. -/
def lastLine (pre : List Byte) : List Byte := (pre.reverse.takeWhile fun b => b ≠ 10).reverse

theorem located {t : List Byte} (ht : t.length < 2 ^ 32) {o : Nat} (ho : o < t.length)
    (h : ∀ b ∈ t.take o, b.toNat < 0x80) : bytesIntoLine t o = some (lastLine (t.take o)).length := by
  have hd := prefix_plain h o (by omega) (by omega)
  have hc := prefix_plain h (256 * (o / 256)) (by omega) (by omega)
  unfold bytesIntoLine
  rw [if_neg (by omega), Int.toNat_natCast, FLoc.C32_partial t ht o _ _ hd hc (fun h => by omega)]
  simp only [Option.map_some, Option.some.injEq]
  unfold FLoc.Spec.bytesIntoLine FLoc.Spec.thisLine lastLine
  rw [← List.map_reverse]
  generalize (t.take o).reverse = r
  induction r with
  | nil => rfl
  | cons b r ih =>
    rw [List.map_cons, List.takeWhile_cons, List.takeWhile_cons]
    by_cases h : b = 10
    · subst h; rfl
    · have h' : ((b.toNat : Int)) ≠ 10 := by
        intro e
        exact h (UInt8.toNat_inj.1 (by exact_mod_cast e))
      simp only [h', h, ne_eq, not_false_eq_true, decide_true, if_true]
      rw [List.reverse_cons, List.map_append, List.sum_append, List.reverse_cons, List.length_append]
      simpa using ih

theorem lastLine_split (pre : List Byte) : ∃ above, pre = above ++ lastLine pre ∧ (above = [] ∨ above.getLast? = some 10) ∧
    10 ∉ lastLine pre := by
  refine ⟨(pre.reverse.dropWhile fun b => b ≠ 10).reverse, ?_, ?_, ?_⟩
  · unfold lastLine
    rw [← List.reverse_append, List.takeWhile_append_dropWhile, List.reverse_reverse]
  · rw [List.getLast?_reverse]
    cases hd : pre.reverse.dropWhile (fun b => b ≠ 10) with
    | nil => exact Or.inl rfl
    | cons x v =>
      refine Or.inr ?_
      have := List.head?_dropWhile_not (fun b : Byte => decide (b ≠ 10)) pre.reverse
      rw [hd] at this
      simpa using this
  · unfold lastLine
    intro h
    have key : ∀ l : List Byte, (10 : Byte) ∉ l.takeWhile fun b => decide (b ≠ 10) := by
      intro l
      induction l with
      | nil => simp
      | cons c cs ih =>
        rw [List.takeWhile_cons]
        by_cases hc : c = 10
        · simp [hc]
        · rw [if_pos (by simpa using hc)]
          rintro h
          rcases List.mem_cons.1 h with h | h
          · exact hc h.symm
          · exact ih h
    exact key _ (List.mem_reverse.1 h)

theorem lastLine_append {above line : List Byte} (h : above = [] ∨ above.getLast? = some 10) (hl : 10 ∉ line) :
    lastLine (above ++ line) = line := by
  unfold lastLine
  rw [List.reverse_append, List.takeWhile_append_of_pos]
  · have : above.reverse.takeWhile (fun b => decide (b ≠ 10)) = [] := by
      rcases h with rfl | h
      · rfl
      · rw [← List.head?_reverse] at h
        cases hr : above.reverse with
        | nil => rfl
        | cons x v => rw [hr] at h; cases h; rfl
    rw [this]
    simp
  · intro b hb
    simp only [ne_eq, decide_eq_true_eq]
    rintro rfl
    exact hl (List.mem_reverse.1 hb)

end Verif.Clean
