import Verif.Markdown.LemmasTree
import Verif.Markdown.LemmasSimple

/-!
# Documents without lists and quotes
-/

namespace Verif.Markdown

open Verif Verif.Markdown.Spec

/-- The node of a block. -/
def nodeOf : Piece → BNode
  | .para ts => { type := .para, parent := some 0, raw := ts }
  | .heading k ts => { type := .heading, parent := some 0, level := k, raw := ts }
  | .code ls => { type := .code, parent := some 0, raw := ls }

/-- The document node. -/
def root : BNode := { type := .document, parent := none }

/-- The states of the parser in a flat document. -/
def fst (ns : List BNode) (leaf : Option Nat) (b : Nat) : St :=
  { nodes := root :: ns, stack := [0], leaf := leaf, blanks := b }

theorem matchLoop_flat (nodes : List BNode) (line : List Byte) :
    matchLoop nodes ([0].drop 1) 1 ⟨line, 0, 0⟩ = some (1, LC.skip ⟨line, 0, 0⟩) := rfl

theorem trimLeft_white {w : List Byte} (h : White w) (s : List Byte) :
    Str.trimLeft Str.isWhite (w ++ s) = Str.trimLeft Str.isWhite s := by
  induction w with
  | nil => rfl
  | cons c w ih =>
    rw [List.cons_append, Str.trimLeft, if_pos (h c (by simp)), ih fun x hx => h x (List.mem_cons_of_mem _ hx)]

theorem trimLeft_head {s : List Byte} (h : ∃ c, s.head? = some c ∧ Str.isWhite c = false) (w : List Byte) :
    Str.trimLeft Str.isWhite (s ++ w) = s ++ w := by
  obtain ⟨c, h1, h2⟩ := h
  cases s with
  | nil => cases h1
  | cons d s =>
    cases h1
    rw [List.cons_append, Str.trimLeft, if_neg (by simp [h2])]

theorem trim_eq {r t : List Byte} (h : Trimmed r t) : Str.trim Str.isWhite true true r = t := by
  obtain ⟨a, b, rfl, h1, h2, h3, h4⟩ := h
  unfold Str.trim Str.trimRight
  simp only [if_true]
  rw [List.append_assoc, trimLeft_white h1, trimLeft_head h3, List.reverse_append,
    trimLeft_white (by intro c hc; exact h2 c (by simpa using hc)), ← List.append_nil t.reverse,
    trimLeft_head (by simpa [List.head?_reverse] using h4), List.append_nil, List.reverse_reverse]

theorem trim_white {r : List Byte} (h : White r) : Str.trim Str.isWhite true true r = [] := by
  unfold Str.trim Str.trimRight
  simp only [if_true]
  rw [← List.append_nil r, trimLeft_white h]
  rfl

theorem skipLoop_spaces (k i : Nat) (r : List Byte) :
    skipLoop i (List.replicate k 32 ++ r) = skipLoop (i + k) r := by
  induction k generalizing i with
  | zero => rfl
  | succ k ih =>
    rw [List.replicate_succ, List.cons_append, skipLoop, if_pos rfl, ih]
    congr 1; omega

theorem skipLoop_stop (i : Nat) {c : Byte} {r : List Byte} (h : Str.isWhite c = false) :
    skipLoop i (c :: r) = (i, c :: r) := by
  have h1 : c ≠ 32 := by rintro rfl; revert h; decide
  have h2 : c ≠ 9 := by rintro rfl; revert h; decide
  rw [skipLoop, if_neg h1, if_neg h2]

theorem lc_spaces (k : Nat) {c : Byte} {r : List Byte} (h : Str.isWhite c = false) :
    LC.skip ⟨List.replicate k 32 ++ c :: r, 0, 0⟩ = ⟨c :: r, 0, k⟩ := by
  unfold LC.skip
  dsimp only
  rw [skipLoop_spaces, skipLoop_stop _ h, Nat.zero_add]

theorem lc_short {l : List Byte} (h : Short l) : ∃ k, k ≤ 4 ∧ LC.skip ⟨l, 0, 0⟩ = ⟨[10], 0, k⟩ := by
  obtain ⟨k, hk, rfl⟩ := h
  refine ⟨k, hk, ?_⟩
  unfold LC.skip
  dsimp only
  rw [skipLoop_spaces, Nat.zero_add]
  rfl

theorem trimmed10 : Str.trim Str.isWhite true true [10] = [] := by decide

theorem parseLine_blank {st : St} {line : List Byte} {keep : Nat} {lc : LC}
    (hm : matchLoop st.nodes (st.stack.drop 1) 1 ⟨line, 0, 0⟩ = some (keep, lc)) (ht : lc.trimmed = []) :
    parseLine st line = st.blankLine line keep lc := by
  unfold parseLine matchExisting
  rw [hm]
  dsimp only
  rw [if_pos ht]
  cases st.blankLine line keep lc <;> rfl

theorem parseLine_text {st st' : St} {line : List Byte} {keep : Nat} {lc lc' : LC}
    (hm : matchLoop st.nodes (st.stack.drop 1) 1 ⟨line, 0, 0⟩ = some (keep, lc)) (ht : lc.trimmed ≠ [])
    (hk : ¬ keep < st.stack.length) (hl : markerLoop lc.rem.length st lc = some (st', lc')) :
    parseLine st line = parseParagraphText st' line lc' := by
  unfold parseLine matchExisting
  rw [hm]
  dsimp only
  rw [if_neg ht]
  dsimp only
  have : st.truncate keep = st := by unfold St.truncate; rw [if_neg hk]
  unfold parseNewMarkers
  rw [if_neg ht, this, hl]

theorem digit_lit : ∀ c : Byte, c ∉ lit ">*-+0123456789" → Str.isDecimalDigit c = false := by
  apply forall_byte; decide +kernel

theorem markerLoop_none {st : St} {lc : LC} {c : Byte} {r : List Byte} (hr : lc.rem = c :: r)
    (h : lc.inner ≥ 4 ∨ Str.isWhite c = false ∧ c ∉ lit ">*-+0123456789") :
    markerLoop lc.rem.length st lc = some (st, lc) := by
  rw [hr, List.length_cons, markerLoop, hr]
  dsimp only
  split
  · rfl
  · rename_i hi
    obtain ⟨h1, h2⟩ := h.resolve_left hi
    have h3 : c ≠ 62 := by rintro rfl; exact h2 (by decide)
    have h4 : ¬ (c = 42 ∨ c = 45 ∨ c = 43) := by
      rintro (rfl | rfl | rfl) <;> exact h2 (by decide)
    have h5 : Str.isDecimalDigit c = false := digit_lit c h2
    have : markerStep st lc c r = some none := by
      unfold markerStep
      rw [if_neg (by simp [h1]), if_neg h3, if_neg h4, if_neg (by simp [h5])]
    rw [this]

/-- A short blank line. -/
theorem parseLine_short {ns : List BNode} {leaf : Option Nat} {b : Nat} {l : List Byte} (h : Short l)
    {leaf' : Option Nat} {b' : Nat}
    (hl : leaf = none ∧ leaf' = none ∧ b' = b ∨
      (∃ lf, leaf = some lf ∧ isType (root :: ns) .para lf = true ∧ b = 0 ∧ leaf' = none ∧ b' = 0) ∨
      (∃ lf, leaf = some lf ∧ isType (root :: ns) .code lf = true ∧ leaf' = leaf ∧ b' = b + 1)) :
    parseLine (fst ns leaf b) l = some (fst ns leaf' b') := by
  obtain ⟨k, hk, hlc⟩ := lc_short h
  have hm : matchLoop (fst ns leaf b).nodes ((fst ns leaf b).stack.drop 1) 1 ⟨l, 0, 0⟩ =
      some (1, ⟨[10], 0, k⟩) := by rw [← hlc]; rfl
  have hin : ¬ LC.inner ⟨[10], 0, k⟩ > 4 := by
    unfold LC.inner; simp; omega
  rw [parseLine_blank hm trimmed10]
  unfold St.blankLine
  rcases hl with ⟨rfl, rfl, rfl⟩ | ⟨lf, rfl, h2, rfl, rfl, rfl⟩ | ⟨lf, rfl, h2, rfl, rfl⟩
  · simp [fst, St.hasPara, St.truncate, markLoop, root]
  · have hp : (fst ns (some lf) 0).hasPara = true := h2
    rw [if_neg (by simp [fst]), hp]
    simp [fst, St.truncate, markLoop, root]
  · have h3 : isType (root :: ns) .para lf = false := by
      cases hp : isType (root :: ns) .para lf with
      | false => rfl
      | true => rw [isType_para_not_code hp] at h2; cases h2
    simp [fst, St.hasPara, h2, h3, St.truncate, hin]

theorem appendRaw_last (ns : List BNode) (n : BNode) (ls : List (List Byte)) :
    appendRaw (root :: (ns ++ [n])) (ns.length + 1) ls =
      root :: (ns ++ [{ n with raw := n.raw ++ ls }]) := by
  unfold appendRaw
  rw [List.modify_succ_cons, List.modify_eq_take_cons_drop (by simp)]
  simp

theorem isType_last (ns : List BNode) (n : BNode) (ty : BType) :
    isType (root :: (ns ++ [n])) ty (ns.length + 1) = (n.type == ty) := by
  unfold isType
  simp

theorem addLeaf_flat (ns : List BNode) (leaf : Option Nat) (b : Nat) (node : Nat → BNode) :
    (fst ns leaf b).addLeaf node = some (fst (ns ++ [node 0]) (some (ns.length + 1)) b) := by
  simp [St.addLeaf, fst]

theorem paraLine_lc {l t : List Byte} (h : ParaLine l t) : ∃ k c r, k ≤ 3 ∧
    LC.skip ⟨l, 0, 0⟩ = ⟨c :: r, 0, k⟩ ∧ Trimmed (c :: r) t ∧ Str.isWhite c = false ∧
    c ∉ lit ">*-+0123456789" ∧ c ≠ 35 := by
  obtain ⟨k, w, c, h1, h2, rfl, h3, h4, h5, h6⟩ := h
  cases t with
  | nil => cases h3
  | cons d t =>
    cases h3
    refine ⟨k, c, t ++ w, h1, ?_, ⟨[], w, by simp, (by intro x hx; cases hx), h2, ⟨c, rfl, h4⟩, h6⟩,
      h4, ?_, ?_⟩
    · rw [List.append_assoc, List.cons_append, lc_spaces _ h4]
    · intro hc; exact h5 (List.mem_cons_of_mem _ hc)
    · rintro rfl; exact h5 (by decide)

theorem trimmed_ne {r t : List Byte} (h : Trimmed r t) : t ≠ [] := by
  obtain ⟨_, _, _, _, _, ⟨c, h1, _⟩, _⟩ := h
  rintro rfl; cases h1

/-- The first line of a paragraph. -/
theorem parseLine_para {ns : List BNode} {leaf : Option Nat} {b : Nat} {l t : List Byte}
    (h : ParaLine l t) (hl : (fst ns leaf b).hasPara = false) :
    parseLine (fst ns leaf b) l = some (fst (ns ++ [nodeOf (.para [t])]) (some (ns.length + 1)) 0) := by
  obtain ⟨k, c, r, hk, hlc, ht, h1, h2, h3⟩ := paraLine_lc h
  have htr : LC.trimmed ⟨c :: r, 0, k⟩ = t := trim_eq ht
  have hm : matchLoop (fst ns leaf b).nodes ((fst ns leaf b).stack.drop 1) 1 ⟨l, 0, 0⟩ =
      some (1, ⟨c :: r, 0, k⟩) := by rw [← hlc]; rfl
  rw [parseLine_text hm (by rw [htr]; exact trimmed_ne ht) (by simp [fst])
    (markerLoop_none rfl (Or.inr ⟨h1, h2⟩))]
  have hin : ¬ LC.inner ⟨c :: r, 0, k⟩ ≥ 4 := by unfold LC.inner; simp; omega
  have hh : headingOf ⟨c :: r, 0, k⟩ = none := by
    unfold headingOf; rw [if_neg (by simp [h3])]
  unfold parseParagraphText
  rw [if_neg (by simp [hin]), if_pos (by rw [htr]; exact trimmed_ne ht)]
  have hlo : (fst ns leaf b).loosen = some (fst ns leaf b) := rfl
  rw [hlo]
  dsimp only
  unfold St.addText
  rw [hh, hl]
  dsimp only
  rw [if_neg (by simp), addLeaf_flat]
  simp only [Option.map_some, fst, htr]
  rw [appendRaw_last]
  rfl

/-- Another line of a paragraph. -/
theorem parseLine_para' {ns : List BNode} {ts : List (List Byte)} {b : Nat} {l t : List Byte}
    (h : ParaLine l t) :
    parseLine (fst (ns ++ [nodeOf (.para ts)]) (some (ns.length + 1)) b) l =
      some (fst (ns ++ [nodeOf (.para (ts ++ [t]))]) (some (ns.length + 1)) b) := by
  obtain ⟨k, c, r, hk, hlc, ht, h1, h2, h3⟩ := paraLine_lc h
  have htr : LC.trimmed ⟨c :: r, 0, k⟩ = t := trim_eq ht
  generalize hst : fst (ns ++ [nodeOf (.para ts)]) (some (ns.length + 1)) b = st
  have hpara : st.hasPara = true := by
    rw [← hst]; unfold St.hasPara fst; dsimp only; rw [isType_last]; rfl
  have hm : matchLoop st.nodes (st.stack.drop 1) 1 ⟨l, 0, 0⟩ =
      some (1, ⟨c :: r, 0, k⟩) := by rw [← hlc, ← hst]; rfl
  rw [parseLine_text hm (by rw [htr]; exact trimmed_ne ht) (by simp [← hst, fst])
    (markerLoop_none rfl (Or.inr ⟨h1, h2⟩))]
  have hh : headingOf ⟨c :: r, 0, k⟩ = none := by
    unfold headingOf; rw [if_neg (by simp [h3])]
  unfold parseParagraphText
  rw [if_neg (by simp [hpara]), if_pos (by rw [htr]; exact trimmed_ne ht)]
  have hlo : st.loosen = some st := by rw [← hst]; rfl
  rw [hlo]
  dsimp only
  unfold St.addText
  rw [hh, hpara]
  dsimp only
  rw [if_pos rfl, ← hst]
  simp only [fst, htr]
  rw [appendRaw_last]
  rfl

theorem trimLeft_dropWhile (s : List Byte) :
    Str.trimLeft Str.isWhite (s.dropWhile Str.isWhite) = Str.trimLeft Str.isWhite s := by
  conv => rhs; rw [← List.takeWhile_append_dropWhile (p := Str.isWhite) (l := s)]
  rw [trimLeft_white (white_takeWhile s)]

theorem trim_dropWhile (s : List Byte) :
    Str.trim Str.isWhite true true (s.dropWhile Str.isWhite) = Str.trim Str.isWhite true true s := by
  unfold Str.trim
  simp only [if_true]
  rw [trimLeft_dropWhile]

theorem skipLoop_white : ∀ (r : List Byte) (i : Nat), i ≤ (skipLoop i r).1 ∧
    ∃ m, r = m ++ (skipLoop i r).2 ∧ White m
  | [], i => ⟨Nat.le_refl _, [], rfl, by intro c hc; cases hc⟩
  | c :: r, i => by
    rw [skipLoop]
    split
    · rename_i e
      obtain ⟨h1, m, h2, h3⟩ := skipLoop_white r (i + 1)
      refine ⟨by omega, c :: m, by rw [List.cons_append, ← h2], ?_⟩
      intro x hx
      rcases List.mem_cons.mp hx with rfl | hx
      · subst e; decide
      · exact h3 x hx
    · split
      · rename_i e
        obtain ⟨h1, m, h2, h3⟩ := skipLoop_white r (tabStop i)
        have := tabStop_gt i
        refine ⟨by omega, c :: m, by rw [List.cons_append, ← h2], ?_⟩
        intro x hx
        rcases List.mem_cons.mp hx with rfl | hx
        · subst e; decide
        · exact h3 x hx
      · exact ⟨Nat.le_refl _, [], rfl, by intro c hc; cases hc⟩

theorem headLine_of {l : List Byte} {level : Nat} {ts : List (List Byte)} (h : HeadLine l level ts) :
    ∃ k r, k ≤ 3 ∧ LC.skip ⟨l, 0, 0⟩ = ⟨35 :: r, 0, k⟩ ∧
      ∃ t, headingOf ⟨35 :: r, 0, k⟩ = some (level, t) ∧ ts = if t = [] then [] else [t] := by
  obtain ⟨k, r, hk, hl1, hl6, rfl, ⟨c, hc1, hc2⟩, hts⟩ := h
  obtain ⟨j, rfl⟩ : ∃ j, level = j + 1 := ⟨level - 1, by omega⟩
  refine ⟨k, List.replicate j 35 ++ r, hk, ?_, Str.trim Str.isWhite true true r, ?_, ?_⟩
  · rw [List.replicate_succ, List.append_assoc, List.cons_append, lc_spaces _ (by decide)]
  · have e : (35 :: (List.replicate j (35 : Byte) ++ r)) = List.replicate (j + 1) 35 ++ r := by
      rw [List.replicate_succ]; rfl
    cases r with
    | nil => cases hc1
    | cons d r =>
      cases hc1
      have hne : ¬ c = 35 := by rintro rfl; revert hc2; decide
      have h1 : (35 :: (List.replicate j (35 : Byte) ++ c :: r)).takeWhile (fun c => c == 35) =
          List.replicate (j + 1) 35 := by
        rw [e, List.takeWhile_append_of_pos (by simp), List.takeWhile_cons_of_neg (by simp [hne]),
          List.append_nil]
      have h2 : (35 :: (List.replicate j (35 : Byte) ++ c :: r)).dropWhile (fun c => c == 35) =
          c :: r := by
        rw [e, List.dropWhile_append_of_pos (by simp), List.dropWhile_cons_of_neg (by simp [hne])]
      unfold headingOf
      dsimp only
      rw [if_pos ⟨rfl, by unfold LC.inner; simp; omega⟩, h1, h2, if_pos]
      · rw [List.length_replicate, trim_dropWhile]
      · refine ⟨by rw [List.length_replicate]; exact hl6, Or.inl ?_⟩
        rw [List.takeWhile_cons_of_pos hc2]; simp
  · rcases hts with ⟨h1, rfl⟩ | ⟨t, h1, rfl⟩
    · rw [trim_white h1]; rfl
    · rw [trim_eq h1, if_neg (trimmed_ne h1)]

theorem parseLine_heading {ns : List BNode} {leaf : Option Nat} {b : Nat} {l : List Byte} {level : Nat}
    {ts : List (List Byte)} (h : HeadLine l level ts) :
    parseLine (fst ns leaf b) l = some (fst (ns ++ [nodeOf (.heading level ts)]) none b) := by
  obtain ⟨k, r, hk, hlc, t, hh, hts⟩ := headLine_of h
  have htr : LC.trimmed ⟨35 :: r, 0, k⟩ ≠ [] := by
    intro e
    have := white_of_trim e 35 (by simp)
    revert this; decide
  have hm : matchLoop (fst ns leaf b).nodes ((fst ns leaf b).stack.drop 1) 1 ⟨l, 0, 0⟩ =
      some (1, ⟨35 :: r, 0, k⟩) := by rw [← hlc]; rfl
  rw [parseLine_text hm htr (by simp [fst]) (markerLoop_none rfl (Or.inr ⟨by decide, by decide⟩))]
  have hin : ¬ LC.inner ⟨35 :: r, 0, k⟩ ≥ 4 := by unfold LC.inner; simp; omega
  unfold parseParagraphText
  rw [if_neg (by simp [hin]), if_pos htr]
  have hlo : (fst ns leaf b).loosen = some (fst ns leaf b) := rfl
  rw [hlo]
  dsimp only
  unfold St.addText
  rw [hh]
  dsimp only
  rw [addLeaf_flat]
  simp only [fst, headingNode, nodeOf, hts]

theorem tabStop_eq (i : Nat) : tabStop i = (i / 4 + 1) * 4 := by
  unfold tabStop; omega

theorem column_ge : ∀ (w : List Byte) (i : Nat), i + w.length ≤ column i w
  | [], i => Nat.le_refl _
  | c :: w, i => by
    rw [column, List.length_cons]
    split
    · have := column_ge w ((i / 4 + 1) * 4); omega
    · have := column_ge w (i + 1); omega

theorem skipLoop_blanks : ∀ (w : List Byte) (i : Nat) (r : List Byte), Blanks w →
    skipLoop i (w ++ r) = skipLoop (column i w) r
  | [], _, _, _ => rfl
  | c :: w, i, r, h => by
    have ih := fun i => skipLoop_blanks w i r fun x hx => h x (List.mem_cons_of_mem _ hx)
    rw [List.cons_append, skipLoop, column]
    rcases h c (by simp) with rfl | rfl
    · rw [if_pos rfl, if_neg (by decide), ih]
    · rw [if_neg (by decide), if_pos rfl, if_pos rfl, tabStop_eq, ih]

theorem extractLoop_blanks (k : Nat) : ∀ (w : List Byte) (i : Nat) (r : List Byte), Blanks w →
    r ≠ [] → i ≤ k → k ≤ column i w →
    ∃ w', extractLoop k i (w ++ r) = some (w' ++ r) ∧ Blanks w' ∧ column k w' = column i w
  | [], i, r, _, hr, h1, h2 => by
    obtain rfl : i = k := Nat.le_antisymm h1 h2
    cases r with
    | nil => exact absurd rfl hr
    | cons c r =>
      refine ⟨[], ?_, (by intro c hc; cases hc), rfl⟩
      rw [List.nil_append, extractLoop, if_pos rfl]
  | c :: w, i, r, h, hr, h1, h2 => by
    have hw : Blanks w := fun x hx => h x (List.mem_cons_of_mem _ hx)
    rw [List.cons_append, extractLoop]
    by_cases hi : i = k
    · subst hi
      exact ⟨c :: w, if_pos rfl, h, rfl⟩
    · rw [if_neg hi]
      rcases h c (by simp) with rfl | rfl
      · rw [if_neg (by decide), if_neg (by decide), if_neg (by decide)]
        rw [column, if_neg (by decide)] at h2 ⊢
        exact extractLoop_blanks k w (i + 1) r hw hr (by omega) h2
      · rw [if_neg (by decide), if_neg (by decide), if_pos rfl, tabStop_eq]
        rw [column, if_pos rfl] at h2 ⊢
        by_cases ht : (i / 4 + 1) * 4 > k
        · rw [if_pos ht]
          refine ⟨List.replicate ((i / 4 + 1) * 4 - k) 32 ++ w, by rw [List.append_assoc], ?_, ?_⟩
          · intro x hx
            rcases List.mem_append.mp hx with hx | hx
            · exact Or.inl (List.eq_of_mem_replicate hx)
            · exact hw x hx
          · have : ∀ (n k : Nat) (w : List Byte), column k (List.replicate n 32 ++ w) = column (k + n) w := by
              intro n
              induction n with
              | zero => intro k w; rfl
              | succ n ih =>
                intro k w
                rw [List.replicate_succ, List.cons_append, column, if_neg (by decide), ih]
                congr 1; omega
            rw [this]
            congr 1; omega
        · rw [if_neg ht]
          exact extractLoop_blanks k w _ r hw hr (by omega) h2

theorem codeLine_lc {l r : List Byte} (h : CodeLine l r) : ∃ lc, LC.skip ⟨l, 0, 0⟩ = lc ∧
    lc.trimmed ≠ [] ∧ lc.inner ≥ 4 ∧ lc.outer = 0 ∧ (∃ c r', lc.rem = c :: r') ∧
    extractCodeLine l 4 = some r := by
  obtain ⟨w, rfl, hb, hc, hw⟩ := h
  refine ⟨_, rfl, ?_, ?_, rfl, ?_, ?_⟩
  · intro e
    have e1 : White (skipLoop 4 r).2 := by
      have := white_of_trim e
      unfold LC.skip at this
      dsimp only at this
      rw [skipLoop_blanks _ _ _ hb, hc] at this
      exact this
    obtain ⟨_, m, h2, h3⟩ := skipLoop_white r 4
    apply hw
    rw [h2]
    intro c hc
    rcases List.mem_append.mp hc with hc | hc
    · exact h3 c hc
    · exact e1 c hc
  · unfold LC.skip LC.inner
    dsimp only
    rw [if_pos (Nat.zero_le _), skipLoop_blanks _ _ _ hb, hc, Nat.sub_zero]
    exact (skipLoop_white r 4).1
  · unfold LC.skip
    dsimp only
    rw [skipLoop_blanks _ _ _ hb, hc]
    obtain ⟨_, m, h2, h3⟩ := skipLoop_white r 4
    cases hs : (skipLoop 4 r).2 with
    | nil =>
      exfalso
      rw [hs, List.append_nil] at h2
      exact hw (h2 ▸ h3)
    | cons c r' => exact ⟨c, r', rfl⟩
  · have hr : r ≠ [] := by rintro rfl; exact hw (by intro c hc; cases hc)
    obtain ⟨w', h1, _, h3⟩ := extractLoop_blanks 4 w 0 r hb hr (by omega) (by omega)
    have := column_ge w' 4
    have : w' = [] := List.eq_nil_of_length_eq_zero (by omega)
    subst this
    exact h1

/-- The first line of a code block. -/
theorem parseLine_code {ns : List BNode} {b : Nat} {l r : List Byte} (h : CodeLine l r) :
    parseLine (fst ns none b) l =
      if b = 0 then some (fst (ns ++ [nodeOf (.code [r])]) (some (ns.length + 1)) 0) else none := by
  obtain ⟨lc, hlc, ht, hi, ho, ⟨c, r', hr⟩, he⟩ := codeLine_lc h
  have hm : matchLoop (fst ns none b).nodes ((fst ns none b).stack.drop 1) 1 ⟨l, 0, 0⟩ =
      some (1, lc) := by rw [← hlc]; rfl
  rw [parseLine_text hm ht (by simp [fst]) (markerLoop_none hr (Or.inl hi))]
  unfold parseParagraphText
  rw [if_pos (by simp [hi, fst, St.hasPara])]
  unfold St.codeText
  rw [if_pos ⟨ht, rfl⟩]
  by_cases hb : b = 0
  · subst hb
    rw [if_pos (show (fst ns none 0).blanks = 0 from rfl), addLeaf_flat, if_pos rfl]
    have hty : isType (root :: (ns ++ [{ type := .code, parent := some 0 }])) .code (ns.length + 1) = true :=
      (isType_last _ _ _).trans rfl
    show (if isType (root :: (ns ++ [{ type := .code, parent := some 0 }])) .code (ns.length + 1) = true then
      (fst (ns ++ [{ type := .code, parent := some 0 }]) (some (ns.length + 1)) 0).addCode (ns.length + 1) l
        (lc.outer + 4) else none) = _
    rw [if_pos hty]
    unfold St.addCode
    rw [ho, he]
    simp only [fst, List.replicate_zero, List.nil_append]
    rw [appendRaw_last]
    rfl
  · rw [if_neg hb, if_neg (by simpa [fst] using hb)]

/-- Another line of a code block. -/
theorem parseLine_code' {ns : List BNode} {b : Nat} {rs : List (List Byte)} {l r : List Byte}
    (h : CodeLine l r) :
    parseLine (fst (ns ++ [nodeOf (.code rs)]) (some (ns.length + 1)) b) l =
      some (fst (ns ++ [nodeOf (.code (rs ++ (List.replicate b [10] ++ [r])))]) (some (ns.length + 1)) 0) := by
  obtain ⟨lc, hlc, ht, hi, ho, ⟨c, r', hr⟩, he⟩ := codeLine_lc h
  generalize hst : fst (ns ++ [nodeOf (.code rs)]) (some (ns.length + 1)) b = st
  have hpara : st.hasPara = false := by
    rw [← hst]; unfold St.hasPara fst; dsimp only; rw [isType_last]; rfl
  have hm : matchLoop st.nodes (st.stack.drop 1) 1 ⟨l, 0, 0⟩ = some (1, lc) := by
    rw [← hlc, ← hst]; rfl
  rw [parseLine_text hm ht (by simp [← hst, fst]) (markerLoop_none hr (Or.inl hi))]
  unfold parseParagraphText
  rw [if_pos (by simp [hi, hpara])]
  unfold St.codeText
  rw [if_neg (by simp [← hst, fst])]
  rw [← hst]
  have hty : isType (root :: (ns ++ [nodeOf (.code rs)])) .code (ns.length + 1) = true :=
    (isType_last _ _ _).trans rfl
  show (if isType (root :: (ns ++ [nodeOf (.code rs)])) .code (ns.length + 1) = true then
    (fst (ns ++ [nodeOf (.code rs)]) (some (ns.length + 1)) b).addCode (ns.length + 1) l
      (lc.outer + 4) else none) = _
  rw [if_pos hty]
  unfold St.addCode
  rw [ho, he]
  simp only [fst]
  rw [appendRaw_last]
  rfl

theorem parseLines_append : ∀ (a b : List (List Byte)) (st : St),
    parseLines st (a ++ b) = (parseLines st a).bind (fun st' => parseLines st' b)
  | [], _, _ => rfl
  | l :: a, b, st => by
    rw [List.cons_append, parseLines, parseLines]
    cases parseLine st l with
    | none => rfl
    | some st' => exact parseLines_append a b st'

theorem parseLines_one {st st' : St} {l : List Byte} {ls : List (List Byte)} (h : parseLine st l = some st') :
    parseLines st (l :: ls) = parseLines st' ls := by
  rw [parseLines, h]

theorem parseLines_none {ns : List BNode} {b : Nat} : ∀ {bl : List (List Byte)}, (∀ l ∈ bl, Short l) →
    parseLines (fst ns none b) bl = some (fst ns none b)
  | [], _ => rfl
  | l :: bl, h => by
    rw [parseLines_one (parseLine_short (h l (by simp)) (Or.inl ⟨rfl, rfl, rfl⟩))]
    exact parseLines_none fun x hx => h x (List.mem_cons_of_mem _ hx)

theorem parseLines_blankCode {ns : List BNode} {rs : List (List Byte)} : ∀ {bl : List (List Byte)} {b : Nat},
    (∀ l ∈ bl, Short l) →
    parseLines (fst (ns ++ [nodeOf (.code rs)]) (some (ns.length + 1)) b) bl =
      some (fst (ns ++ [nodeOf (.code rs)]) (some (ns.length + 1)) (b + bl.length))
  | [], _, _ => rfl
  | l :: bl, b, h => by
    rw [parseLines_one (parseLine_short (h l (by simp))
      (Or.inr (Or.inr ⟨_, rfl, (isType_last _ _ _).trans rfl, rfl, rfl⟩))),
      parseLines_blankCode fun x hx => h x (List.mem_cons_of_mem _ hx), List.length_cons]
    congr 2; omega

theorem parseLines_para' {ns : List BNode} {b : Nat} {ls ts : List (List Byte)} (h : Each ParaLine ls ts) :
    ∀ ts0, parseLines (fst (ns ++ [nodeOf (.para ts0)]) (some (ns.length + 1)) b) ls =
      some (fst (ns ++ [nodeOf (.para (ts0 ++ ts))]) (some (ns.length + 1)) b) := by
  induction h with
  | nil => intro ts0; rw [List.append_nil]; rfl
  | @cons l t ls ts h _ ih =>
    intro ts0
    rw [parseLines_one (parseLine_para' h), ih, List.append_assoc]
    rfl

theorem parseLines_codeRest {ns : List BNode} {ls rs : List (List Byte)} (h : CodeRest ls rs) :
    ∀ rs0, parseLines (fst (ns ++ [nodeOf (.code rs0)]) (some (ns.length + 1)) 0) ls =
      some (fst (ns ++ [nodeOf (.code (rs0 ++ rs))]) (some (ns.length + 1)) 0) := by
  induction h with
  | nil => intro ts0; rw [List.append_nil]; rfl
  | @cons bl l r ls rs h1 h2 _ ih =>
    intro rs0
    rw [parseLines_append, parseLines_blankCode h1, Option.bind_some, Nat.zero_add,
      parseLines_one (parseLine_code' h2), ih]
    simp

/-- The states between blocks. -/
inductive Between (ps : List Piece) : List BNode → Option Nat → Nat → Bool → Prop where
  | none {ns b} : Between ps ns none b (decide (b ≠ 0))
  | code {ns rs b} : (∀ p ∈ ps.head?, p.isCode = false) → 1 ≤ b →
      Between ps (ns ++ [nodeOf (.code rs)]) (some (ns.length + 1)) b true

theorem Between.blank {ps : List Piece} {ns : List BNode} {leaf : Option Nat} {b : Nat} {pend : Bool}
    (h : Between ps ns leaf b pend) {bl : List (List Byte)} (hb : ∀ l ∈ bl, Short l) :
    ∃ b', parseLines (fst ns leaf b) bl = some (fst ns leaf b') ∧ Between ps ns leaf b' pend := by
  cases h with
  | none => exact ⟨b, parseLines_none hb, .none⟩
  | code h1 h2 => exact ⟨_, parseLines_blankCode hb, .code h1 (by omega)⟩

theorem Between.hasPara {ps : List Piece} {ns : List BNode} {leaf : Option Nat} {b : Nat} {pend : Bool}
    (h : Between ps ns leaf b pend) : (fst ns leaf b).hasPara = false := by
  cases h with
  | none => rfl
  | code _ _ => exact (isType_last _ _ _).trans rfl

/-- What becomes of the state in a block. -/
theorem parseLines_piece {ps : List Piece} {ns : List BNode} {leaf : Option Nat} {b : Nat} {pend : Bool}
    {p : Piece} {pl : List (List Byte)} (h : Between (p :: ps) ns leaf b pend) (hp : PieceLines p pl) :
    parseLines (fst ns leaf b) pl = match p with
      | .para _ => some (fst (ns ++ [nodeOf p]) (some (ns.length + 1)) 0)
      | .heading _ _ => some (fst (ns ++ [nodeOf p]) none b)
      | .code _ => if pend then none else some (fst (ns ++ [nodeOf p]) (some (ns.length + 1)) 0) := by
  cases hp with
  | para hne he =>
    cases he with
    | nil => exact absurd rfl hne
    | cons h1 h2 =>
      rw [parseLines_one (parseLine_para h1 h.hasPara), parseLines_para' h2]
      rfl
  | heading hh =>
    rw [parseLines_one (parseLine_heading hh)]
    rfl
  | code h1 h2 =>
    cases h with
    | none =>
      rw [parseLines, parseLine_code h1]
      by_cases hb : b = 0
      · subst hb
        rw [if_pos rfl]
        dsimp only
        rw [parseLines_codeRest h2]
        rfl
      · rw [if_neg hb]
        simp [hb]
    | code h3 _ => exact absurd (h3 _ rfl) (by simp [Piece.isCode])

theorem parseLines_flat {ls : List (List Byte)} {ps : List Piece} (h : FlatDoc ls ps) :
    ∀ {ns : List BNode} {leaf : Option Nat} {b : Nat} {pend : Bool}, Between ps ns leaf b pend →
    (parseLines (fst ns leaf b) ls).map (fun st => st.nodes) =
      if codeAfterHeading pend ps then none else some (root :: (ns ++ ps.map nodeOf)) := by
  have hlast : ∀ {p : Piece} {pl : List (List Byte)} {ns : List BNode} {leaf : Option Nat} {b : Nat}
      {pend : Bool}, PieceLines p pl → Between [p] ns leaf b pend →
      (parseLines (fst ns leaf b) pl).map (fun st => st.nodes) =
        if codeAfterHeading pend [p] then none else some (root :: (ns ++ [p].map nodeOf)) := by
    intro p pl ns leaf b pend hp h
    rw [parseLines_piece h hp]
    cases p with
    | para ts => rfl
    | heading k ts => rfl
    | code rs => cases pend <;> rfl
  have hstep : ∀ {p : Piece} {ps : List Piece} {pl : List (List Byte)} {ns : List BNode}
      {leaf : Option Nat} {b : Nat} {pend : Bool} {x : List Byte} {ls : List (List Byte)},
      PieceLines p pl → Between (p :: ps) ns leaf b pend → Short x →
      (∀ q ∈ ps.head?, ¬ (p.isCode = true ∧ q.isCode = true)) →
      (∀ {ns : List BNode} {leaf : Option Nat} {b : Nat} {pend : Bool}, Between ps ns leaf b pend →
        (parseLines (fst ns leaf b) ls).map (fun st => st.nodes) =
          if codeAfterHeading pend ps then none else some (root :: (ns ++ ps.map nodeOf))) →
      (parseLines (fst ns leaf b) (pl ++ x :: ls)).map (fun st => st.nodes) =
        if codeAfterHeading pend (p :: ps) then none
        else some (root :: (ns ++ (p :: ps).map nodeOf)) := by
    intro p ps pl ns leaf b pend x ls hp h hx hq ih
    rw [parseLines_append, parseLines_piece h hp]
    cases p with
    | para ts =>
      dsimp only
      rw [Option.bind_some, parseLines_one (parseLine_short hx
        (Or.inr (Or.inl ⟨_, rfl, (isType_last _ _ _).trans rfl, rfl, rfl, rfl⟩))),
        ih (pend := false) Between.none]
      simp [codeAfterHeading]
    | heading k ts =>
      dsimp only
      have hb : parseLine (fst (ns ++ [nodeOf (.heading k ts)]) none b) x =
          some (fst (ns ++ [nodeOf (.heading k ts)]) none b) :=
        parseLine_short hx (Or.inl ⟨rfl, rfl, rfl⟩)
      rw [Option.bind_some, parseLines_one hb, ih Between.none]
      have : decide (b ≠ 0) = pend := by
        cases h with
        | none => rfl
        | code _ h2 => simp; omega
      rw [this]
      simp [codeAfterHeading]
    | code rs =>
      cases pend with
      | true => rfl
      | false =>
        dsimp only
        rw [if_neg (by simp), Option.bind_some, parseLines_one (parseLine_short hx
          (Or.inr (Or.inr ⟨_, rfl, (isType_last _ _ _).trans rfl, rfl, rfl⟩))),
          ih (Between.code ?_ (by omega))]
        · simp [codeAfterHeading]
        · intro q hq'
          cases hc : q.isCode with
          | false => rfl
          | true => exact absurd ⟨rfl, hc⟩ (hq q hq')
  induction h with
  | nil hb =>
    intro ns leaf b pend h
    obtain ⟨b', h1, h2⟩ := h.blank hb
    rw [h1]
    simp [fst, codeAfterHeading]
  | last hb hp =>
    intro ns leaf b pend h
    obtain ⟨b', h1, h2⟩ := h.blank hb
    rw [parseLines_append, h1]
    exact hlast hp h2
  | cons hb hp hx _ hq ih =>
    intro ns leaf b pend h
    obtain ⟨b', h1, h2⟩ := h.blank hb
    rw [List.append_assoc, parseLines_append, h1]
    exact hstep hp h2 hx (by intro q hq'; cases hq'; exact hq) ih
  | @trail bl p pl x ls hb hp hx hb' =>
    intro ns leaf b pend h
    obtain ⟨b', h1, h2⟩ := h.blank hb
    rw [List.append_assoc, parseLines_append, h1]
    refine hstep hp h2 hx (by intro q hq'; cases hq') ?_
    intro ns leaf b pend h
    obtain ⟨b', h1, h2⟩ := h.blank hb'
    rw [h1]
    simp [fst, codeAfterHeading]

/-- The finished block of a piece. -/
def blockOf : Piece → Option Block
  | .para ts => (expandInlineElements ts).map .para
  | .heading k ts => (expandInlineElements ts).map (.heading k [])
  | .code ls => some (.code ls)

theorem childrenOf_flat (ps : List Piece) :
    childrenOf (root :: ps.map nodeOf) 0 = List.range' 1 ps.length := by
  unfold childrenOf
  rw [List.length_cons, List.length_map, List.range_succ_eq_map, List.filter_cons_of_neg (by simp [root]),
    List.range'_eq_map_range, List.filter_eq_self.mpr]
  · congr 1; funext i; omega
  · intro i hi
    rw [List.mem_map] at hi
    obtain ⟨j, hj, rfl⟩ := hi
    rw [List.mem_range] at hj
    rw [Nat.succ_eq_add_one, List.getElem?_cons_succ, List.getElem?_map, List.getElem?_eq_getElem hj]
    cases ps[j] <;> simp [nodeOf]

theorem mapM_flat (nodes : List BNode) (f : Nat) : ∀ (ps : List Piece) (k : Nat),
    (∀ i p, ps[i]? = some p → nodes[k + i]? = some (nodeOf p)) →
    (List.range' k ps.length).mapM (doInlines nodes (f + 1)) = ps.mapM blockOf
  | [], _, _ => rfl
  | p :: ps, k, h => by
    rw [List.length_cons, List.range'_succ, List.mapM_cons, List.mapM_cons]
    have h0 : doInlines nodes (f + 1) k = blockOf p := by
      have := h 0 p rfl
      rw [Nat.add_zero] at this
      rw [doInlines, this]
      cases p <;> rfl
    rw [h0, mapM_flat nodes f ps (k + 1) (fun i q hq => by
      have := h (i + 1) q hq
      rwa [show k + (i + 1) = k + 1 + i by omega] at this)]

theorem linesOf_split {src : List Byte} {ls : List (List Byte)} (h : LinesOf src ls) :
    splitLines src = ls := by
  have aux : ∀ (l : List Byte) (cur src : List Byte), 10 ∉ l →
      splitLoop cur (l ++ src) = splitLoop (l.reverse ++ cur) src := by
    intro l
    induction l with
    | nil => intro cur src _; rfl
    | cons c l ih =>
      intro cur src hn
      rw [List.cons_append, splitLoop, if_neg (by rintro rfl; exact hn (by simp)),
        ih _ _ (fun h => hn (List.mem_cons_of_mem _ h)), List.reverse_cons, List.append_assoc]
      rfl
  induction h with
  | nil => rfl
  | @last l h1 h2 =>
    have := aux l [] [] h2
    rw [List.append_nil] at this
    unfold splitLines
    rw [this, splitLoop, if_neg (by simpa using h1)]
    simp
  | @line l src ls h1 _ ih =>
    unfold splitLines at *
    rw [aux l [] _ h1, splitLoop, if_pos rfl, ih]
    simp

theorem parse_flat {src : List Byte} {ls : List (List Byte)} {ps : List Piece} (hl : LinesOf src ls)
    (h : FlatDoc ls ps) :
    parse src = if codeAfterHeading false ps then none else ps.mapM blockOf := by
  unfold parse parseBlocks
  rw [linesOf_split hl]
  have := parseLines_flat h (ns := []) (leaf := none) (b := 0) (pend := false) Between.none
  have e : St.init = fst [] none 0 := rfl
  rw [e, this]
  by_cases hc : codeAfterHeading false ps = true
  · rw [if_pos hc, if_pos hc]
  · rw [if_neg hc, if_neg hc]
    dsimp only
    rw [List.nil_append, childrenOf_flat, List.length_cons]
    exact mapM_flat _ _ ps 1 (fun i p hp => by
      rw [Nat.add_comm, List.getElem?_cons_succ, List.getElem?_map, hp]; rfl)

theorem pieceLines_ne {p : Piece} {pl : List (List Byte)} (h : PieceLines p pl) :
    match p with
    | .para ts => ts ≠ [] ∧ ∀ t ∈ ts, t ≠ []
    | .heading _ ts => ∀ t ∈ ts, t ≠ []
    | .code _ => True := by
  cases h with
  | @para ls ts hne he =>
    dsimp only
    refine ⟨?_, ?_⟩
    · cases he with
      | nil => exact absurd rfl hne
      | cons _ _ => simp
    · clear hne
      induction he with
      | nil => simp
      | cons h _ ih =>
        intro t ht
        rcases List.mem_cons.mp ht with rfl | ht
        · obtain ⟨_, _, _, _, _, _, h1, _⟩ := h
          rintro rfl; cases h1
        · exact ih t ht
  | heading hh =>
    obtain ⟨_, _, _, _, _, _, _, h⟩ := hh
    dsimp only
    rcases h with ⟨_, rfl⟩ | ⟨t, h, rfl⟩
    · simp
    · intro t' ht'
      rw [List.mem_singleton.mp ht']
      exact trimmed_ne h
  | code _ _ => trivial

theorem flatDoc_pieces {ls : List (List Byte)} {ps : List Piece} (h : FlatDoc ls ps) :
    ∀ p ∈ ps, ∃ pl, PieceLines p pl := by
  induction h with
  | nil _ => simp
  | last _ hp => intro p hp'; rw [List.mem_singleton.mp hp']; exact ⟨_, hp⟩
  | cons _ hp _ _ _ ih =>
    intro p hp'
    rcases List.mem_cons.mp hp' with rfl | hp'
    · exact ⟨_, hp⟩
    · exact ih p hp'
  | trail _ hp _ _ => intro p hp'; rw [List.mem_singleton.mp hp']; exact ⟨_, hp⟩

theorem mapM_means {ps : List Piece} {bs : List Block} (h : Each Means ps bs)
    (hp : ∀ p ∈ ps, ∃ pl, PieceLines p pl) : ps.mapM blockOf = some bs := by
  induction h with
  | nil => rfl
  | @cons p b ps bs hm _ ih =>
    rw [List.mapM_cons, ih fun q hq => hp q (List.mem_cons_of_mem _ hq)]
    obtain ⟨pl, hpl⟩ := hp p (by simp)
    have hne := pieceLines_ne hpl
    have : blockOf p = some b := by
      cases hm with
      | para hw =>
        unfold blockOf
        dsimp only
        rw [expandInline_simple hne.1 hne.2 hw]; rfl
      | heading hw =>
        unfold blockOf
        dsimp only
        rw [expandInline_simple (by simp) hne hw]; rfl
      | code => rfl
    rw [this]
    rfl

end Verif.Markdown
