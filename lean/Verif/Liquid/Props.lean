import Verif.Liquid.Model
import Verif.Liquid.Spec
/-!
# C33: template tags
-/
namespace Verif.Liquid
open Verif Spec

/-- Events in the order of the pieces. -/
def events : List Piece → List Ev
  | [] => []
  | .lit s :: ps => s.map Ev.byte ++ events ps
  | .tag c :: ps => .tag (tagText c) c :: events ps

/-- Pieces the code handles: in a literal every `<` is followed by a byte that is neither `<` nor `%`; in
a tag there is no `%`. -/
def Plain : Piece → Prop
  | .lit s => ∀ i : Nat, s[i]? = some 60 → ∃ b, s[i + 1]? = some b ∧ b ≠ 60 ∧ b ≠ 37
  | .tag c => 37 ∉ c

theorem extract_nil : extract [] = [] := by rw [extract.eq_def]

theorem extract_lit : ∀ (n : Nat) (s r : List Byte), s.length ≤ n → Plain (.lit s) →
    extract (s ++ r) = s.map Ev.byte ++ extract r := by
  intro n
  induction n with
  | zero =>
    intro s r hs _
    have : s = [] := List.length_eq_zero_iff.mp (by omega)
    subst this; rfl
  | succ n ih =>
    intro s r hs hp
    cases s with
    | nil => rfl
    | cons b s =>
      by_cases hb : b = 60
      · subst hb
        obtain ⟨b2, h1, h2, h3⟩ := hp 0 rfl
        cases s with
        | nil => exact absurd h1 (by simp)
        | cons b' s =>
          simp at h1
          subst h1
          rw [List.cons_append, List.cons_append, extract.eq_def]
          dsimp only
          rw [if_pos rfl, if_neg h3, ih s r (by simp at hs; omega)]
          · rfl
          · intro i hi
            exact hp (i + 2) (by simpa using hi)
      · rw [List.cons_append, extract.eq_def]
        dsimp only
        rw [if_neg hb, ih s r (by simp at hs; omega)]
        · rfl
        · intro i hi
          exact hp (i + 1) (by simpa using hi)

theorem inside_plain (c acc r : List Byte) (h : 37 ∉ c) :
    inside (c ++ 37 :: 62 :: r) acc = some (acc ++ c, r) := by
  induction c generalizing acc with
  | nil => simp [inside]
  | cons b c ih =>
    simp only [List.mem_cons, not_or] at h
    rw [List.cons_append, inside.eq_def]
    dsimp only
    rw [if_neg (fun e => h.1 e.symm), ih _ h.2]
    simp

theorem extract_tag_of {c r content : List Byte}
    (h : inside (c ++ 37 :: 62 :: r) [] = some (content, r)) :
    extract (tagText c ++ r) = .tag (tagText c) content :: extract r := by
  have e : tagText c ++ r = 60 :: 37 :: (c ++ 37 :: 62 :: r) := by simp [tagText]
  rw [e, extract.eq_def]
  dsimp only
  rw [if_pos rfl, if_pos rfl, if_neg (by simp)]
  split
  · rename_i heq
    rw [h] at heq; exact absurd heq (by simp)
  · rename_i content' left heq
    rw [h] at heq
    simp only [Option.some.injEq, Prod.mk.injEq] at heq
    obtain ⟨rfl, rfl⟩ := heq
    congr 2
    rw [← e]
    have hl : (c ++ 37 :: 62 :: r).length + 2 - r.length = (tagText c).length := by
      simp [tagText]; omega
    rw [hl, List.take_left]

/-- C33, where it holds: literal text is passed through unchanged and each tag's content handed over, in
order, for every template of plain pieces. -/
theorem C33_partial (ps : List Piece) (h : ∀ p ∈ ps, Plain p) :
    extract (ps.map Piece.text).flatten = events ps := by
  induction ps with
  | nil => exact extract_nil
  | cons p ps ih =>
    rw [List.map_cons, List.flatten_cons]
    have ih' := ih fun q hq => h q (List.mem_cons_of_mem _ hq)
    have hp := h p List.mem_cons_self
    cases p with
    | lit s =>
      show extract (s ++ _) = _
      rw [extract_lit s.length s _ (Nat.le_refl _) hp, ih']
      rfl
    | tag c =>
      show extract (tagText c ++ _) = _
      rw [extract_tag_of (content := c) (by simpa using inside_plain c [] _ hp), ih']
      rfl

/-- `a<b<%if x%>c`. -/
example : extract [97, 60, 98, 60, 37, 105, 102, 32, 120, 37, 62, 99] =
    [.byte 97, .byte 60, .byte 98, .tag [60, 37, 105, 102, 32, 120, 37, 62] [105, 102, 32, 120], .byte 99] := by
  have := C33_partial [.lit [97, 60, 98], .tag [105, 102, 32, 120], .lit [99]] (by
    intro p hp
    simp only [List.mem_cons, List.not_mem_nil, or_false] at hp
    rcases hp with rfl | rfl | rfl
    · intro i hi
      match i with
      | 0 => simp at hi
      | 1 => exact ⟨98, rfl, by decide, by decide⟩
      | 2 => simp at hi
      | i + 3 => simp at hi
    · show (37 : Byte) ∉ _; decide
    · intro i hi
      match i with
      | 0 => simp at hi
      | i + 1 => simp at hi)
  exact this

/-- Bytes written. -/
def written (es : List Ev) : List Byte := es.filterMap fun
  | .byte b => some b
  | .tag _ _ => none

/-- Contents handed over. -/
def handed (es : List Ev) : List (List Byte) := es.filterMap fun
  | .byte _ => none
  | .tag _ c => some c

/-- C33, where it holds, output and tags apart. -/
theorem C33_outputs_partial (ps : List Piece) (h : ∀ p ∈ ps, Plain p) :
    written (extract (ps.map Piece.text).flatten) = literal ps ∧
      handed (extract (ps.map Piece.text).flatten) = tags ps := by
  rw [C33_partial ps h]
  clear h
  induction ps with
  | nil => exact ⟨rfl, rfl⟩
  | cons p ps ih =>
    cases p with
    | lit s =>
      have h1 : written (s.map Ev.byte) = s := by
        induction s with
        | nil => rfl
        | cons b s ih => simpa [written] using ih
      have h2 : handed (s.map Ev.byte) = [] := by
        induction s with
        | nil => rfl
        | cons b s ih => simpa [handed] using ih
      refine ⟨?_, ?_⟩
      · show written (s.map Ev.byte ++ events ps) = s ++ literal ps
        rw [← ih.1]; conv => rhs; rw [← h1]
        simp [written]
      · show handed (s.map Ev.byte ++ events ps) = tags ps
        rw [← ih.2, ← List.nil_append (handed (events ps)), ← h2]
        simp [handed]
    | tag c => exact ⟨ih.1, congrArg (c :: ·) ih.2⟩

/-- C33 for text without tags: wherever `<%` does not occur, everything is passed through, whatever the
`<`, `%` and `>` in it. -/
theorem C33_no_tags (s : List Byte) (h : ¬ Occurs 60 37 s) : extract s = s.map Ev.byte := by
  have key : ∀ (n : Nat) (s : List Byte), s.length ≤ n → ¬ Occurs 60 37 s → extract s = s.map Ev.byte := by
    intro n
    induction n with
    | zero =>
      intro s hs _
      have : s = [] := List.length_eq_zero_iff.mp (by omega)
      subst this; exact extract_nil
    | succ n ih =>
      intro s hs h
      cases s with
      | nil => exact extract_nil
      | cons b s =>
        rw [extract.eq_def]
        dsimp only
        by_cases hb : b = 60
        · subst hb
          rw [if_pos rfl]
          cases s with
          | nil => rfl
          | cons b2 s =>
            dsimp only
            rw [if_neg (by rintro rfl; exact h ⟨[], s, rfl⟩), ih s (by simp at hs; omega)]
            · rfl
            · rintro ⟨p, q, e⟩
              exact h ⟨60 :: b2 :: p, q, by rw [e]; rfl⟩
        · rw [if_neg hb, ih s (by simp at hs; omega)]
          · rfl
          · rintro ⟨p, q, e⟩
            exact h ⟨b :: p, q, by rw [e]; rfl⟩
  exact key s.length s (Nat.le_refl _) h

/-- `<<a>%>`. -/
example : ¬ Occurs 60 37 [60, 60, 97, 62, 37, 62] := by
  rintro ⟨p, q, e⟩
  match p with
  | [] => exact absurd e (by simp)
  | [_] => exact absurd e (by simp)
  | [_, _] => exact absurd e (by simp)
  | [_, _, _] => exact absurd e (by simp)
  | [_, _, _, _] => exact absurd e (by simp)
  | _ :: _ :: _ :: _ :: _ :: p => have := congrArg List.length e; simp at this; omega

/-- What the code makes of a tag's content: the byte after each `%` twice. -/
def dup : List Byte → List Byte
  | [] => []
  | b :: c =>
    if b = 37 then b :: (match c with
      | [] => [37]
      | b2 :: _ => [b2]) ++ dup c
    else b :: dup c

theorem inside_dup (c acc r : List Byte) (h : ¬ Occurs 37 62 c) :
    inside (c ++ 37 :: 62 :: r) acc = some (acc ++ dup c, r) := by
  induction c generalizing acc with
  | nil => simp [inside, dup]
  | cons b c ih =>
    have h' : ¬ Occurs 37 62 c := by
      rintro ⟨p, q, e⟩; exact h ⟨b :: p, q, by rw [e]; rfl⟩
    rw [List.cons_append, inside.eq_def]
    dsimp only
    by_cases hb : b = 37
    · subst hb
      rw [if_pos rfl]
      cases c with
      | nil =>
        show (if (37 : Byte) = 62 then _ else _) = _
        rw [if_neg (by decide)]
        simp [inside, dup]
      | cons b2 c =>
        rw [List.cons_append]
        dsimp only
        rw [if_neg (by rintro rfl; exact h ⟨[], c, rfl⟩)]
        have := ih (acc ++ [37, b2]) h'
        rw [List.cons_append] at this
        rw [this, dup.eq_def (37 :: b2 :: c)]
        simp
    · rw [if_neg hb, ih _ h', dup.eq_def (b :: c)]
      simp [hb]

theorem dup_length (c : List Byte) : c.length ≤ (dup c).length ∧ (37 ∈ c → c.length < (dup c).length) := by
  induction c with
  | nil => simp [dup]
  | cons b c ih =>
    rw [dup.eq_def]
    dsimp only
    by_cases hb : b = 37
    · subst hb
      rw [if_pos rfl]
      have : ∀ l : List Byte, (37 :: (match c with
        | [] => [37]
        | b2 :: _ => [b2]) ++ l).length = l.length + 2 := by
        intro l; cases c <;> simp
      rw [this, List.length_cons]
      omega
    · rw [if_neg hb]
      simp only [List.length_cons, List.mem_cons]
      refine ⟨by omega, ?_⟩
      rintro (e | e)
      · exact absurd e.symm hb
      · have := ih.2 e; omega

/-- C33 is false of the code for content with `%`: for a tag (whose content does not hold `%>`), the
content is handed over exactly if there is no `%` in it. -/
theorem C33_content_iff (c r : List Byte) (h : ¬ Occurs 37 62 c) :
    extract (tagText c ++ r) = .tag (tagText c) c :: extract r ↔ 37 ∉ c := by
  have e := extract_tag_of (c := c) (r := r) (content := dup c) (by simpa using inside_dup c [] r h)
  rw [e]
  constructor
  · intro h2 hm
    simp only [List.cons.injEq, Ev.tag.injEq, true_and, and_true] at h2
    have := (dup_length c).2 hm
    rw [h2] at this; omega
  · intro hm
    have : inside (c ++ 37 :: 62 :: r) [] = some (c, r) := by simpa using inside_plain c [] r hm
    rw [inside_dup c [] r h] at this
    simp at this
    rw [this]

/-- `<%5%3%>` gives the content `5%33`. -/
theorem C33_percent_counterexample :
    extract (tagText [53, 37, 51]) = [.tag (tagText [53, 37, 51]) [53, 37, 51, 51]] := by
  have := extract_tag_of (c := [53, 37, 51]) (r := []) (content := [53, 37, 51, 51]) (by decide)
  rw [List.append_nil, extract_nil] at this
  exact this

/-- C33 is false of the code for a `<` before a tag: `<<%x%>` passes through as literal text. -/
theorem C33_less_counterexample :
    extract (60 :: tagText [120]) = (60 :: tagText [120]).map Ev.byte := by
  iterate 5 rw [extract.eq_def]; simp [tagText]
  exact extract_nil

/-- A template that ends inside a tag: after a `%` the handler is not called, otherwise it is called with
what there is. -/
theorem C33_unfinished (c : List Byte) (h : 37 ∉ c) (h0 : c ≠ []) :
    extract ([60, 37] ++ c) = [.tag ([60, 37] ++ c) c] ∧ extract ([60, 37] ++ c ++ [37]) = [] := by
  have h1 : ∀ acc, inside c acc = some (acc ++ c, []) := by
    clear h0
    induction c with
    | nil => intro acc; simp [inside]
    | cons b c ih =>
      intro acc
      simp only [List.mem_cons, not_or] at h
      rw [inside.eq_def]
      dsimp only
      rw [if_neg (fun e => h.1 e.symm), ih h.2]
      simp
  have h2 : ∀ acc, inside (c ++ [37]) acc = none := by
    clear h0 h1
    induction c with
    | nil => intro acc; simp [inside]
    | cons b c ih =>
      intro acc
      simp only [List.mem_cons, not_or] at h
      rw [List.cons_append, inside.eq_def]
      dsimp only
      rw [if_neg (fun e => h.1 e.symm), ih h.2]
  constructor
  · show extract (60 :: 37 :: c) = _
    rw [extract.eq_def]
    dsimp only
    rw [if_pos rfl, if_pos rfl, if_neg h0]
    split
    · rename_i heq; rw [h1] at heq; exact absurd heq (by simp)
    · rename_i content left heq
      rw [h1] at heq
      simp only [List.nil_append, Option.some.injEq, Prod.mk.injEq] at heq
      obtain ⟨rfl, rfl⟩ := heq
      rw [extract_nil]
      simp
  · show extract (60 :: 37 :: (c ++ [37])) = _
    rw [extract.eq_def]
    dsimp only
    rw [if_pos rfl, if_pos rfl, if_neg (by simp)]
    split
    · rfl
    · rename_i heq; rw [h2] at heq; exact absurd heq (by simp)

example : (37 : Byte) ∉ ([97, 98] : List Byte) ∧ ([97, 98] : List Byte) ≠ [] := by decide

end Verif.Liquid
