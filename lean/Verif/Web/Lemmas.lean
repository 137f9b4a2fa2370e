import Verif.Web.SpecHead
import Verif.Path.Props
import Verif.Str.Props
import Verif.Esc.PropsB
/-!
# Lemmas about request heads
-/
namespace Verif.Web
open Verif Spec

theorem isWhite_iff (c : Byte) : Str.isWhite c = true ↔ White c := by
  unfold Str.isWhite White
  simp [or_assoc]

theorem not_isWhite_iff (c : Byte) : Str.isWhite c = false ↔ ¬ White c := by
  rw [← isWhite_iff]; simp

/-! ## Lines -/

theorem scanLoop_line (t rest : List Byte) (h : 10 ∉ t) :
    Esc.scanLoop [10] 0 (t ++ 10 :: rest) = some rest := by
  induction t with
  | nil => simp [Esc.scanLoop]
  | cons c t ih =>
    have hc : c ≠ 10 := fun e => h (by simp [e])
    have := ih (fun hm => h (by simp [hm]))
    rw [List.cons_append, Esc.scanLoop]
    simp only [List.getElem?_cons_zero, Option.some.injEq]
    rw [if_neg (fun e => hc e.symm)]
    exact this

theorem scanLoop_none (t : List Byte) (h : 10 ∉ t) : Esc.scanLoop [10] 0 t = none := by
  induction t with
  | nil => rfl
  | cons c t ih =>
    have hc : c ≠ 10 := fun e => h (by simp [e])
    rw [Esc.scanLoop]
    simp only [List.getElem?_cons_zero, Option.some.injEq]
    rw [if_neg (fun e => hc e.symm)]
    exact ih (fun hm => h (by simp [hm]))

theorem readLine_line {l : List Byte} (h : IsLine l) (rest : List Byte) :
    readLine (l ++ rest) = (l, rest) := by
  obtain ⟨t, rfl, ht⟩ := h
  unfold readLine Esc.scanSpecial
  simp only [List.not_mem_nil, ↓reduceIte, List.append_assoc, List.cons_append, List.nil_append]
  rw [scanLoop_line t rest ht]
  simp only [List.length_append, List.length_cons, Prod.mk.injEq, and_true]
  rw [show t.length + (rest.length + 1) - rest.length = t.length + 1 by omega]
  rw [List.take_append, List.take_of_length_le (by omega)]
  simp

theorem readLine_last {t : List Byte} (h : 10 ∉ t) : readLine t = (t, []) := by
  unfold readLine Esc.scanSpecial
  simp only [List.not_mem_nil, ↓reduceIte]
  rw [scanLoop_none t h]

/-- Every input starts with a line, or is an unfinished one. -/
theorem line_cases (s : List Byte) : (10 ∉ s) ∨ ∃ l rest, s = l ++ rest ∧ IsLine l := by
  induction s with
  | nil => exact Or.inl (by simp)
  | cons c s ih =>
    by_cases hc : c = 10
    · exact Or.inr ⟨[10], s, by simp [hc], [], rfl, by simp⟩
    · rcases ih with h | ⟨l, rest, rfl, t, rfl, ht⟩
      · exact Or.inl (by simp [h, Ne.symm hc])
      · exact Or.inr ⟨c :: (t ++ [10]), rest, rfl, c :: t, rfl, by simp [ht, Ne.symm hc]⟩

theorem Spec.IsLine.ne {l : List Byte} (h : IsLine l) : l ≠ [] := by
  obtain ⟨t, rfl, _⟩ := h; simp

theorem blank_find (l : List Byte) :
    (Str.findByte (fun u => !Str.isWhite u) 0 l = .negSucc 0 ∧ Blank l) ∨
    ((∃ n, Str.findByte (fun u => !Str.isWhite u) 0 l = .ofNat n) ∧ ¬ Blank l) := by
  rcases Path.findByte_cases (fun u => !Str.isWhite u) 0 l with ⟨h1, h2⟩ | ⟨A, c, B, h1, h2, h3, h4⟩
  · refine Or.inl ⟨h1, fun c hc => ?_⟩
    have := h2 c (by simpa using hc)
    exact (isWhite_iff c).mp (by simpa using this)
  · refine Or.inr ⟨⟨_, h4⟩, fun hb => ?_⟩
    rw [List.drop_zero] at h1
    have := (isWhite_iff c).mpr (hb c (by rw [h1]; simp))
    rw [this] at h3
    cases h3

/-! ## The head loop -/

theorem readHead_step {l : List Byte} (h : HeadLine l) (fuel : Nat) (rest : List Byte)
    (acc : List (List Byte)) :
    readHead (fuel + 1) (l ++ rest) acc = readHead fuel rest (acc ++ [l]) := by
  rw [readHead]
  simp only [readLine_line h.1 rest]
  rw [if_neg h.1.ne]
  rcases blank_find l with ⟨_, hb⟩ | ⟨⟨n, hn⟩, _⟩
  · exact absurd hb h.2
  · rw [hn]

theorem readHead_lines (ls : List (List Byte)) (h : ∀ l ∈ ls, HeadLine l) (fuel : Nat)
    (rest : List Byte) (acc : List (List Byte)) :
    readHead (ls.length + fuel) (ls.flatten ++ rest) acc = readHead fuel rest (acc ++ ls) := by
  induction ls generalizing acc with
  | nil => simp
  | cons l ls ih =>
    rw [List.length_cons, show ls.length + 1 + fuel = (ls.length + fuel) + 1 by omega,
      List.flatten_cons, List.append_assoc, readHead_step (h l (by simp)),
      ih (fun x hx => h x (by simp [hx]))]
    simp

theorem readHead_blank {b rest : List Byte} (h : BlankLine b rest) (fuel : Nat)
    (acc : List (List Byte)) : readHead (fuel + 1) (b ++ rest) acc = .blank acc rest := by
  rw [readHead]
  obtain ⟨h1, h2⟩ := h
  have hr : readLine (b ++ rest) = (b, rest) ∧ b ≠ [] := by
    rcases h2 with h2 | ⟨h2, h3, rfl⟩
    · exact ⟨readLine_line h2 rest, h2.ne⟩
    · rw [List.append_nil]; exact ⟨readLine_last h3, h2⟩
  simp only [hr.1]
  rw [if_neg hr.2]
  rcases blank_find b with ⟨hn, _⟩ | ⟨_, hb⟩
  · rw [hn]
  · exact absurd h1 hb

theorem readHead_eof (fuel : Nat) (acc : List (List Byte)) : readHead fuel [] acc = .eof acc := by
  cases fuel with
  | zero => rfl
  | succ fuel => rw [readHead]; rfl

theorem readHead_last {t : List Byte} (h : 10 ∉ t) (hb : ¬ Blank t) (fuel : Nat)
    (acc : List (List Byte)) : readHead (fuel + 1) t acc = .eof (acc ++ [t]) := by
  rw [readHead]
  simp only [readLine_last h]
  have hne : t ≠ [] := by rintro rfl; exact hb (by simp [Blank])
  rw [if_neg hne]
  rcases blank_find t with ⟨_, hb'⟩ | ⟨⟨n, hn⟩, _⟩
  · exact absurd hb' hb
  · rw [hn]; exact readHead_eof fuel _

/-- How any input begins. -/
theorem head_cases (n : Nat) (s : List Byte) (hn : s.length ≤ n) :
    (∃ (ls : List (List Byte)) (t : List Byte), (∀ l ∈ ls, HeadLine l) ∧ 10 ∉ t ∧ (t = [] ∨ ¬ Blank t) ∧ s = ls.flatten ++ t) ∨
    (∃ (ls : List (List Byte)) (b rest : List Byte), (∀ l ∈ ls, HeadLine l) ∧ BlankLine b rest ∧ s = ls.flatten ++ (b ++ rest)) := by
  induction n generalizing s with
  | zero =>
    have : s = [] := List.length_eq_zero_iff.mp (by omega)
    subst this
    exact Or.inl ⟨[], [], by simp, by simp, Or.inl rfl, rfl⟩
  | succ n ih =>
    rcases line_cases s with h | ⟨l, rest, rfl, hl⟩
    · by_cases hs : s = []
      · exact Or.inl ⟨[], [], by simp, by simp, Or.inl rfl, by simp [hs]⟩
      · by_cases hb : Blank s
        · exact Or.inr ⟨[], s, [], by simp, ⟨hb, Or.inr ⟨hs, h, rfl⟩⟩, by simp⟩
        · exact Or.inl ⟨[], s, by simp, h, Or.inr hb, by simp⟩
    · by_cases hb : Blank l
      · exact Or.inr ⟨[], l, rest, by simp, ⟨hb, Or.inl hl⟩, by simp⟩
      · have hlen : rest.length ≤ n := by
          have := List.length_pos_iff.mpr hl.ne
          rw [List.length_append] at hn
          omega
        rcases ih rest hlen with ⟨ls, t, h1, h2, h3, h4⟩ | ⟨ls, b, r, h1, h2, h4⟩
        · refine Or.inl ⟨l :: ls, t, ?_, h2, h3, by simp [h4]⟩
          intro x hx
          rcases List.mem_cons.mp hx with rfl | hx
          · exact ⟨hl, hb⟩
          · exact h1 x hx
        · refine Or.inr ⟨l :: ls, b, r, ?_, h2, by simp [h4]⟩
          intro x hx
          rcases List.mem_cons.mp hx with rfl | hx
          · exact ⟨hl, hb⟩
          · exact h1 x hx

theorem lines_le (ls : List (List Byte)) (h : ∀ l ∈ ls, HeadLine l) : ls.length ≤ ls.flatten.length := by
  induction ls with
  | nil => simp
  | cons l ls ih =>
    have := ih (fun x hx => h x (by simp [hx]))
    have := List.length_pos_iff.mpr (h l (by simp)).1.ne
    simp only [List.length_cons, List.flatten_cons, List.length_append]
    omega

theorem readHead_all {ls : List (List Byte)} {b rest : List Byte} (h : ∀ l ∈ ls, HeadLine l)
    (hb : BlankLine b rest) :
    readHead ((ls.flatten ++ (b ++ rest)).length + 1) (ls.flatten ++ (b ++ rest)) [] =
      .blank ls rest := by
  have := lines_le ls h
  rw [show (ls.flatten ++ (b ++ rest)).length + 1 =
    ls.length + (((ls.flatten ++ (b ++ rest)).length - ls.length) + 1) by
      simp only [List.length_append]; omega,
    readHead_lines ls h, readHead_blank hb]
  simp

theorem readHead_trunc {ls : List (List Byte)} {t : List Byte} (h : ∀ l ∈ ls, HeadLine l)
    (h2 : 10 ∉ t) (h3 : t = [] ∨ ¬ Blank t) :
    readHead ((ls.flatten ++ t).length + 1) (ls.flatten ++ t) [] =
      .eof (ls ++ if t = [] then [] else [t]) := by
  have := lines_le ls h
  rw [show (ls.flatten ++ t).length + 1 =
    ls.length + (((ls.flatten ++ t).length - ls.length) + 1) by
      simp only [List.length_append]; omega,
    readHead_lines ls h]
  by_cases ht : t = []
  · subst ht
    rw [readHead_eof]; simp
  · rw [readHead_last h2 (h3.resolve_left ht), if_neg ht]
    simp

/-! ## Trimming -/

theorem trimLeft_unique {m : Byte → Bool} (w s : List Byte) (hw : ∀ c ∈ w, m c = true)
    (hs : ∀ c ∈ s.head?, m c = false) : Str.trimLeft m (w ++ s) = s := by
  induction w with
  | nil => exact Str.trimLeft_id m s hs
  | cons c w ih =>
    rw [List.cons_append, Str.trimLeft, if_pos (hw c (by simp))]
    exact ih (fun x hx => hw x (by simp [hx]))

theorem trimRight_unique {m : Byte → Bool} (w s : List Byte) (hw : ∀ c ∈ w, m c = true)
    (hs : ∀ c ∈ s.getLast?, m c = false) : Str.trimRight m (s ++ w) = s := by
  unfold Str.trimRight
  rw [List.reverse_append, trimLeft_unique _ _ (by simpa using hw) (by
    rw [List.head?_reverse]; exact hs), List.reverse_reverse]

/-! ## The start line -/

theorem start_iff (line m u v : List Byte) :
    Str.splitByte 32 (Str.trim Str.isWhite false true line) = [m, u, v] ↔ StartLine line m u v := by
  constructor
  · intro h
    obtain ⟨w, h1, h2, h3⟩ := (Str.C16_trim_one_side Str.isWhite line).2.1
    exact ⟨_, w, h1, fun c hc => (isWhite_iff c).mp (h2 c hc),
      fun c hc => (not_isWhite_iff c).mp (h3 c hc), (Str.C16_split_exact _ _ _).mp h⟩
  · rintro ⟨text, w, rfl, h1, h2, h3⟩
    rw [Str.C16_split_exact]
    have : Str.trim Str.isWhite false true (text ++ w) = text := by
      simp only [Str.trim, Bool.false_eq_true, ↓reduceIte]
      exact trimRight_unique w text (fun c hc => (isWhite_iff c).mpr (h1 c hc))
        (fun c hc => (not_isWhite_iff c).mpr (h2 c hc))
    rw [this]
    exact h3

/-! ## Header fields -/

theorem field_iff (line n v : List Byte) (k : Nat)
    (hk : Str.findByte (fun c => c == 58) 0 line = .ofNat k) :
    (Str.trim Str.isWhite false true (line.take k), Str.trim Str.isWhite true true (line.drop (k + 1))) =
      (n, v) ↔ Field line n v := by
  rcases Path.findByte_cases (fun c => c == 58) 0 line with ⟨h1, h2⟩ | ⟨A, c, B, h1, h2, h3, h4⟩
  · rw [h1] at hk; cases hk
  rw [hk] at h4
  have hkA : k = A.length := by
    have : (k : Int) = ((0 + A.length : Nat) : Int) := h4
    omega
  subst hkA
  have hc : c = 58 := by simpa using h3
  rw [List.drop_zero] at h1
  subst h1 hc
  have hA : (58 : Byte) ∉ A := fun hm => by have := h2 58 hm; simp at this
  rw [List.take_left]
  have hd : (A ++ 58 :: B).drop (A.length + 1) = B := by
    rw [List.drop_append]; simp
  rw [hd]
  constructor
  · intro h
    injection h with e1 e2
    obtain ⟨w1, g1, g2, g3⟩ := (Str.C16_trim_one_side Str.isWhite A).2.1
    obtain ⟨w2, w3, f1, f2, f3, f4, f5⟩ := Str.C16_trim_exact Str.isWhite B
    rw [e1] at g1 g3
    rw [e2] at f1 f4 f5
    refine ⟨w1, w2, w3, by rw [← g1, ← f1], by rw [← g1]; exact hA, ?_, ?_, ?_, ?_, ?_, ?_⟩
    · exact fun c hc => (isWhite_iff c).mp (g2 c hc)
    · exact fun c hc => (isWhite_iff c).mp (f2 c hc)
    · exact fun c hc => (isWhite_iff c).mp (f3 c hc)
    · exact fun c hc => (not_isWhite_iff c).mp (g3 c hc)
    · exact fun c hc => (not_isWhite_iff c).mp (f4 c hc)
    · exact fun c hc => (not_isWhite_iff c).mp (f5 c hc)
  · rintro ⟨w1, w2, w3, g1, g2, g3, g4, g5, g6, g7, g8⟩
    -- the first colon is the same
    have hsplit : A = n ++ w1 ∧ B = w2 ++ v ++ w3 := by
      have key : ∀ (X Y P Q : List Byte), 58 ∉ X → 58 ∉ P → X ++ 58 :: Y = P ++ 58 :: Q →
          X = P ∧ Y = Q := by
        intro X
        induction X with
        | nil =>
          intro Y P Q _ hP e
          cases P with
          | nil => simpa using e
          | cons p P =>
            injection e with e1 e2
            exact absurd (by simp [e1]) hP
        | cons x X ih =>
          intro Y P Q hX hP e
          cases P with
          | nil =>
            injection e with e1 e2
            exact absurd (by simp [e1]) hX
          | cons p P =>
            injection e with e1 e2
            obtain ⟨h, h'⟩ := ih Y P Q (fun hm => hX (by simp [hm])) (fun hm => hP (by simp [hm])) e2
            exact ⟨by rw [e1, h], h'⟩
      exact key A B _ _ hA g2 g1
    obtain ⟨rfl, rfl⟩ := hsplit
    congr 1
    · simp only [Str.trim, Bool.false_eq_true, ↓reduceIte]
      exact trimRight_unique w1 n (fun c hc => (isWhite_iff c).mpr (g3 c hc))
        (fun c hc => (not_isWhite_iff c).mpr (g6 c hc))
    · simp only [Str.trim, ↓reduceIte]
      by_cases hv : v = []
      · subst hv
        rw [List.append_nil]
        have : Str.trimLeft Str.isWhite (w2 ++ w3) = [] := by
          have := trimLeft_unique (m := Str.isWhite) (w2 ++ w3) []
            (fun c hc => (isWhite_iff c).mpr ((List.mem_append.mp hc).elim (g4 c) (g5 c))) (by simp)
          rwa [List.append_nil] at this
        rw [this]; rfl
      · rw [List.append_assoc, trimLeft_unique w2 (v ++ w3) (fun c hc => (isWhite_iff c).mpr (g4 c hc))]
        · exact trimRight_unique w3 v (fun c hc => (isWhite_iff c).mpr (g5 c hc))
            (fun c hc => (not_isWhite_iff c).mpr (g8 c hc))
        · intro c hc
          obtain ⟨y, ys, rfl⟩ := List.exists_cons_of_ne_nil hv
          exact (not_isWhite_iff c).mpr (g7 c (by simpa using hc))

theorem field_colon {line n v : List Byte} (h : Field line n v) :
    ∃ k, Str.findByte (fun c => c == 58) 0 line = .ofNat k := by
  obtain ⟨w1, w2, w3, g1, _⟩ := h
  rcases Path.findByte_cases (fun c => c == 58) 0 line with ⟨h1, h2⟩ | ⟨A, c, B, h1, h2, h3, h4⟩
  · have := h2 58 (by rw [g1]; simp)
    simp at this
  · exact ⟨_, h4⟩

theorem fields_iff (ls : List (List Byte)) (hne : ∀ l ∈ ls, l ≠ []) (fs : List (List Byte × List Byte)) :
    readFields ls = some fs ↔ Fields ls fs := by
  induction ls generalizing fs with
  | nil =>
    constructor
    · intro h; cases h; exact .nil
    · intro h; cases h; rfl
  | cons l ls ih =>
    have ih := ih (fun x hx => hne x (by simp [hx]))
    cases l with
    | nil => exact absurd rfl (hne [] (by simp))
    | cons c cs =>
      rw [readFields]
      by_cases hw : Str.isWhite c = true
      · rw [if_pos hw, ih]
        have hf : Folded (c :: cs) := ⟨c, by simp, (isWhite_iff c).mp hw⟩
        constructor
        · exact .folded hf
        · intro h
          cases h with
          | folded _ h => exact h
          | field h => exact absurd hf h
      · rw [if_neg hw]
        have hf : ¬ Folded (c :: cs) := by
          rintro ⟨x, hx, hx2⟩
          rw [List.head?_cons, Option.mem_some_iff] at hx
          subst hx
          exact hw ((isWhite_iff _).mpr hx2)
        cases hk : Str.findByte (fun c => c == 58) 0 (c :: cs) with
        | negSucc k =>
          constructor
          · intro h; cases h
          · intro h
            cases h with
            | folded h => exact absurd h hf
            | field _ h => obtain ⟨k', hk'⟩ := field_colon h; rw [hk] at hk'; cases hk'
        | ofNat k =>
          dsimp only
          cases hr : readFields ls with
          | none =>
            constructor
            · intro h; cases h
            · intro h
              cases h with
              | folded h => exact absurd h hf
              | field _ _ h => have := (ih _).mpr h; rw [hr] at this; cases this
          | some fs' =>
            constructor
            · intro h
              cases h
              exact .field hf ((field_iff _ _ _ k hk).mp rfl) ((ih _).mp hr)
            · intro h
              cases h with
              | folded h => exact absurd h hf
              | field _ h1 h2 =>
                have h3 := (ih _).mpr h2
                rw [hr] at h3
                cases h3
                have h4 := (field_iff _ _ _ k hk).mpr h1
                dsimp only
                rw [h4]

theorem parseHead_iff (line : List Byte) (ls : List (List Byte)) (hne : ∀ l ∈ ls, l ≠ [])
    (req : Request) : parseHead line ls = some req ↔ Parsed line ls req := by
  unfold parseHead Parsed
  rw [← start_iff, ← fields_iff ls hne]
  generalize Str.splitByte 32 (Str.trim Str.isWhite false true line) = toks
  constructor
  · intro h
    split at h
    · split at h
      · cases h
      · rename_i hf
        cases h
        exact ⟨rfl, hf⟩
    · cases h
  · rintro ⟨rfl, h2⟩
    dsimp only
    rw [h2]

end Verif.Web
