import Verif.Str.Model
import Verif.Str.Spec
/-!
# C15, C16, C50: string views
-/
namespace Verif.Str
open Verif

/-! ## C15 -/

/-- The lexicographic order on byte strings decides the sign found by the loop. -/
theorem compareLoop_spec (a b : List Byte) :
    match compareLoop a b with
    | some d => d ≠ 0 ∧ (d < 0 ↔ a < b) ∧ (d > 0 ↔ b < a) ∧ a ≠ b
    | none => a <+: b ∨ b <+: a := by
  induction a generalizing b with
  | nil => simp [compareLoop]
  | cons x xs ih =>
    cases b with
    | nil => simp [compareLoop]
    | cons y ys =>
      unfold compareLoop
      dsimp only
      by_cases h : x = y
      · subst h
        rw [if_neg (by omega)]
        have := ih ys
        cases hc : compareLoop xs ys with
        | none => rw [hc] at this; simpa [List.cons_prefix_cons] using this
        | some d =>
          rw [hc] at this
          obtain ⟨h1, h2, h3, h4⟩ := this
          refine ⟨h1, ?_, ?_, by simpa using h4⟩
          · rw [h2, List.cons_lt_cons_iff]
            simp
          · rw [h3, List.cons_lt_cons_iff]
            simp
      · have hne : x.toNat ≠ y.toNat := fun h' => h (byte_ext h')
        rw [if_pos (by omega)]
        refine ⟨by omega, ?_, ?_, by simp [h]⟩
        · rw [List.cons_lt_cons_iff, UInt8.lt_iff_toNat_lt]
          simp only [h, false_and, or_false]
          omega
        · rw [List.cons_lt_cons_iff, UInt8.lt_iff_toNat_lt]
          simp only [Ne.symm h, false_and, or_false]
          omega

theorem prefix_lt {a b : List Byte} (h : a <+: b) : (a < b ↔ a.length < b.length) ∧ ¬ b < a := by
  obtain ⟨t, rfl⟩ := h
  induction a with
  | nil => cases t <;> simp
  | cons x xs ih =>
    simp only [List.cons_append, List.cons_lt_cons_iff, List.length_cons]
    have hx : ¬ x < x := by rw [UInt8.lt_iff_toNat_lt]; omega
    simp only [hx, false_or, true_and]
    refine ⟨by rw [ih.1]; omega, ih.2⟩

/-- **C15**, for strings of less than 2^31 bytes: the sign of the result is the lexicographic order
of unsigned bytes, shorter-first on prefixes (the order of `List Byte` in the core library). -/
theorem C15_compare_sign_partial (a b : List Byte) (ha : a.length < 2 ^ 31) (hb : b.length < 2 ^ 31) :
    (compare a b < 0 ↔ a < b) ∧ (compare a b = 0 ↔ a = b) ∧ (compare a b > 0 ↔ b < a) := by
  unfold compare
  have hs := compareLoop_spec a b
  cases hc : compareLoop a b with
  | some d =>
    rw [hc] at hs
    obtain ⟨h1, h2, h3, h4⟩ := hs
    exact ⟨h2, by simp [h1, h4], h3⟩
  | none =>
    rw [hc] at hs
    dsimp only
    have hval : Num.toSigned 32 ((a.length + 2 ^ 32 - b.length) % 2 ^ 32) =
        (a.length : Int) - b.length := by
      unfold Num.toSigned
      split <;> omega
    rw [hval]
    rcases hs with hp | hp
    · obtain ⟨h1, h2⟩ := prefix_lt hp
      refine ⟨by rw [h1]; omega, ?_, by
        constructor
        · intro h; have := hp.length_le; omega
        · intro h; exact absurd h h2⟩
      constructor
      · intro h; exact hp.eq_of_length (by omega)
      · rintro rfl; omega
    · obtain ⟨h1, h2⟩ := prefix_lt hp
      refine ⟨by
        constructor
        · intro h; have := hp.length_le; omega
        · intro h; exact absurd h h2, ?_, by rw [h1]; omega⟩
      constructor
      · intro h; exact (hp.eq_of_length (by omega)).symm
      · rintro rfl; omega

example : compare [97, 0xFF] [97, 0x01] = 254 ∧ compare [97] [97, 98] = -1 ∧
    ([97] : List Byte) < [97, 98] := by decide

/-- **C15.** Equality is exact for all strings (up to 2^32 - 1 bytes). -/
theorem C15_equal_exact (a b : List Byte) (ha : a.length < 2 ^ 32) (hb : b.length < 2 ^ 32) :
    compare a b = 0 ↔ a = b := by
  unfold compare
  have hs := compareLoop_spec a b
  cases hc : compareLoop a b with
  | some d =>
    rw [hc] at hs
    obtain ⟨h1, h2, h3, h4⟩ := hs
    simp [h1, h4]
  | none =>
    rw [hc] at hs
    dsimp only
    have hval : Num.toSigned 32 ((a.length + 2 ^ 32 - b.length) % 2 ^ 32) = 0 ↔
        a.length = b.length := by
      unfold Num.toSigned
      split <;> omega
    rw [hval]
    constructor
    · intro h
      rcases hs with hp | hp
      · exact hp.eq_of_length h
      · exact (hp.eq_of_length h.symm).symm
    · rintro rfl; rfl

example : compare [1, 2, 3] [1, 2, 3] = 0 ∧ compare [1, 2] [1, 3] ≠ 0 := by decide

/-- **C15.** The comparison operators form a total order: swapping the arguments swaps the sign,
and "less or equal" is transitive (strings below 2^31 bytes). -/
theorem C15_total_order_partial (a b c : List Byte) (ha : a.length < 2 ^ 31) (hb : b.length < 2 ^ 31)
    (hc : c.length < 2 ^ 31) :
    compare a a = 0 ∧ (compare a b < 0 ↔ compare b a > 0) ∧
    (compare a b ≤ 0 → compare b a ≤ 0 → a = b) ∧
    (compare a b ≤ 0 ∨ compare b a ≤ 0) ∧
    (compare a b ≤ 0 → compare b c ≤ 0 → compare a c ≤ 0) := by
  obtain ⟨aa1, aa2, aa3⟩ := C15_compare_sign_partial a a ha ha
  obtain ⟨ab1, ab2, ab3⟩ := C15_compare_sign_partial a b ha hb
  obtain ⟨ba1, ba2, ba3⟩ := C15_compare_sign_partial b a hb ha
  obtain ⟨bc1, bc2, bc3⟩ := C15_compare_sign_partial b c hb hc
  obtain ⟨ac1, ac2, ac3⟩ := C15_compare_sign_partial a c ha hc
  refine ⟨aa2.mpr rfl, by rw [ab1, ba3], ?_, ?_, ?_⟩
  · intro h1 h2
    by_cases h : compare a b = 0
    · exact ab2.mp h
    · exfalso
      have : a < b := ab1.mp (by omega)
      have : compare b a > 0 := ba3.mpr this
      omega
  · by_cases h : compare a b ≤ 0
    · exact Or.inl h
    · right
      have : compare b a < 0 := ba1.mpr (ab3.mp (by omega))
      omega
  · intro h1 h2
    by_cases e1 : compare a b = 0
    · rw [ab2.mp e1]; exact h2
    · by_cases e2 : compare b c = 0
      · rw [← bc2.mp e2]; exact h1
      · have l1 : a < b := ab1.mp (by omega)
        have l2 : b < c := bc1.mp (by omega)
        have : compare a c < 0 := ac1.mpr (List.lt_trans l1 l2)
        omega

example : compare [1] [2] ≤ 0 ∧ compare [2] [2, 0] ≤ 0 := by decide

/-- **C15** fails for huge strings: a string longer than its prefix by more than 2^31 bytes
compares as *less*. -/
theorem C15_huge_strings_misordered :
    ∃ a b : List Byte, a.length < 2 ^ 32 ∧ b < a ∧ compare a b < 0 := by
  refine ⟨List.replicate (2 ^ 31) 0, [], by rw [List.length_replicate]; decide, ?_, ?_⟩
  · rw [show (2 ^ 31 : Nat) = (2 ^ 31 - 1) + 1 from rfl, List.replicate_succ]
    exact List.nil_lt_cons _ _
  · have : compareLoop (List.replicate (2 ^ 31) 0) [] = none := by
      rw [show (2 ^ 31 : Nat) = (2 ^ 31 - 1) + 1 from rfl, List.replicate_succ]
      rfl
    unfold compare
    rw [this]
    dsimp only
    rw [List.length_replicate]
    decide

/-- **C15**, disagreement with the documentation (rt/string/StringView.h:420-428), which promises
exactly -1, 0 or 1. -/
theorem C15_result_not_unit : compare [99] [97] = 2 := by decide

/-! ## C16 -/

theorem splitLoop_spec (sep : Byte) (s : List Byte) :
    Words sep s (splitLoop sep none s) ∧
    (∀ w, w ≠ [] → sep ∉ w → Words sep (w ++ s) (splitLoop sep (some w) s)) := by
  induction s with
  | nil =>
    refine ⟨Words.gap 0, ?_⟩
    intro w hw hs
    have := Words.word 0 w [] [] hw hs (Or.inl rfl) (Words.gap (sep := sep) 0)
    simpa [splitLoop] using this
  | cons c cs ih =>
    obtain ⟨ih1, ih2⟩ := ih
    have hgap : Words sep (sep :: cs) (splitLoop sep none cs) := by
      generalize splitLoop sep none cs = ws at ih1
      cases ih1 with
      | gap k => exact Words.gap (k + 1)
      | word k w rest ws h1 h2 h3 h4 =>
        have := Words.word (k + 1) w rest ws h1 h2 h3 h4
        rwa [List.replicate_succ, List.cons_append] at this
    by_cases h : c = sep
    · subst h
      simp only [splitLoop, ↓reduceIte]
      refine ⟨hgap, ?_⟩
      intro w hw hs
      have := Words.word 0 w (c :: cs) _ hw hs (Or.inr rfl) hgap
      simpa using this
    · simp only [splitLoop, h, ↓reduceIte]
      refine ⟨?_, ?_⟩
      · have := ih2 [c] (by simp) (by simpa using Ne.symm h)
        simpa using this
      · intro w hw hs
        have := ih2 (w ++ [c]) (by simp) (by simp [hs, Ne.symm h])
        simpa using this

/-- The loop on a run of bytes different from the separator. -/
theorem splitLoop_word (sep : Byte) (w rest acc : List Byte) (hs : sep ∉ w)
    (hr : rest = [] ∨ rest.head? = some sep) :
    splitLoop sep (some acc) (w ++ rest) = (acc ++ w) :: splitLoop sep none rest := by
  induction w generalizing acc with
  | nil =>
    rcases hr with rfl | hr
    · simp [splitLoop]
    · cases rest with
      | nil => simp at hr
      | cons d ds =>
        simp only [List.head?_cons, Option.some.injEq] at hr
        subst hr
        simp [splitLoop]
  | cons c cs ih =>
    have hc : c ≠ sep := fun h => hs (by simp [h])
    rw [List.cons_append]
    simp only [splitLoop, hc, ↓reduceIte]
    rw [ih (acc ++ [c]) (fun h => hs (by simp [h]))]
    simp

theorem splitLoop_gap (sep : Byte) (k : Nat) (s : List Byte) :
    splitLoop sep none (List.replicate k sep ++ s) = splitLoop sep none s := by
  induction k with
  | zero => rfl
  | succ k ih => rw [List.replicate_succ, List.cons_append]; simp only [splitLoop, ↓reduceIte, ih]

/-- **C16.** Splitting by a byte yields exactly the maximal non-empty runs without that byte, in
order: the result satisfies the specification, and it is the only list that does. -/
theorem C16_split_exact (sep : Byte) (s : List Byte) (ws : List (List Byte)) :
    splitByte sep s = ws ↔ Words sep s ws := by
  constructor
  · rintro rfl
    exact (splitLoop_spec sep s).1
  · intro h
    unfold splitByte
    induction h with
    | gap k =>
      have := splitLoop_gap sep k []
      rw [List.append_nil] at this
      rw [this]
      rfl
    | word k w rest ws hw hs hr _ ih =>
      rw [splitLoop_gap]
      cases w with
      | nil => exact absurd rfl hw
      | cons c cs =>
        have hc : c ≠ sep := fun h => hs (by simp [h])
        rw [List.cons_append]
        simp only [splitLoop, hc, ↓reduceIte]
        rw [splitLoop_word sep cs rest [c] (fun h => hs (by simp [h])) hr, ih]
        rfl

example : splitByte 47 [47, 97, 98, 47, 47, 99] = [[97, 98], [99]] ∧
    Words 47 [97, 47] [[97]] :=
  ⟨by decide, Words.word 0 [97] [47] [] (by decide) (by decide) (Or.inr rfl) (Words.gap 1)⟩

theorem joinLoop_false (sep : List Byte) (comps : List (List Byte)) :
    joinLoop sep false comps = comps.flatMap (fun c => sep ++ c) := by
  induction comps with
  | nil => rfl
  | cons c cs ih => simp [joinLoop, ih]

/-- **C16.** Joining puts the separator between neighbours and nowhere else. -/
theorem C16_join_exact (sep : List Byte) (comps : List (List Byte)) :
    join sep comps = sep.intercalate comps := by
  unfold join
  cases comps with
  | nil => rfl
  | cons c cs =>
    simp only [joinLoop, ↓reduceIte, List.nil_append]
    rw [joinLoop_false]
    induction cs generalizing c with
    | nil => simp [List.intercalate]
    | cons d ds ih =>
      have := ih d
      rw [List.flatMap_cons]
      simp only [List.intercalate, List.intersperse_cons_cons, List.flatten_cons] at this ⊢
      rw [← this]
      simp

example : join [44, 32] [[97], [98], [99]] = [97, 44, 32, 98, 44, 32, 99] := by decide

/-- **C16.** Joining non-empty pieces that do not contain the separator and splitting again gives
the pieces back. -/
theorem C16_split_join (sep : Byte) (ws : List (List Byte)) (hne : ∀ w ∈ ws, w ≠ [])
    (hs : ∀ w ∈ ws, sep ∉ w) : splitByte sep (join [sep] ws) = ws := by
  rw [C16_split_exact]
  unfold join
  cases ws with
  | nil => exact Words.gap 0
  | cons w ws =>
    simp only [joinLoop, ↓reduceIte, List.nil_append]
    rw [joinLoop_false]
    have H : ∀ (ws : List (List Byte)) k w, (∀ v ∈ w :: ws, v ≠ []) → (∀ v ∈ w :: ws, sep ∉ v) →
        Words sep (List.replicate k sep ++ (w ++ ws.flatMap (fun c => [sep] ++ c))) (w :: ws) := by
      intro ws
      induction ws with
      | nil =>
        intro k w h1 h2
        exact Words.word k w [] [] (h1 w (by simp)) (h2 w (by simp)) (Or.inl rfl) (Words.gap 0)
      | cons v vs ih =>
        intro k w h1 h2
        refine Words.word k w _ (v :: vs) (h1 w (by simp)) (h2 w (by simp)) (Or.inr (by simp)) ?_
        have := ih 1 v (fun u hu => h1 u (List.mem_cons_of_mem _ hu))
          (fun u hu => h2 u (List.mem_cons_of_mem _ hu))
        simpa using this
    exact H ws 0 w hne hs

example : splitByte 47 (join [47] [[97], [98, 99]]) = [[97], [98, 99]] := by decide

theorem trimLeft_spec (m : Byte → Bool) (s : List Byte) :
    ∃ pre, s = pre ++ trimLeft m s ∧ (∀ c ∈ pre, m c = true) ∧
      (∀ c ∈ (trimLeft m s).head?, m c = false) := by
  induction s with
  | nil => exact ⟨[], rfl, by simp, by simp [trimLeft]⟩
  | cons c cs ih =>
    by_cases h : m c = true
    · obtain ⟨pre, h1, h2, h3⟩ := ih
      simp only [trimLeft, h, ↓reduceIte]
      refine ⟨c :: pre, by rw [List.cons_append, ← h1], ?_, h3⟩
      intro d hd
      rcases List.mem_cons.mp hd with rfl | hd
      · exact h
      · exact h2 d hd
    · simp only [trimLeft, h]
      refine ⟨[], rfl, by simp, ?_⟩
      simpa using h

theorem trimRight_spec (m : Byte → Bool) (s : List Byte) :
    ∃ post, s = trimRight m s ++ post ∧ (∀ c ∈ post, m c = true) ∧
      (∀ c ∈ (trimRight m s).getLast?, m c = false) := by
  obtain ⟨pre, h1, h2, h3⟩ := trimLeft_spec m s.reverse
  refine ⟨pre.reverse, ?_, ?_, ?_⟩
  · unfold trimRight
    rw [← List.reverse_append, ← h1, List.reverse_reverse]
  · intro c hc; exact h2 c (by simpa using hc)
  · unfold trimRight
    rw [List.getLast?_reverse]
    exact h3

/-- **C16.** Trimming both ends cuts a prefix and a suffix of matching bytes, and what remains
neither starts nor ends with a matching byte. -/
theorem C16_trim_exact (m : Byte → Bool) (s : List Byte) :
    ∃ pre post, s = pre ++ trim m true true s ++ post ∧ (∀ c ∈ pre, m c = true) ∧
      (∀ c ∈ post, m c = true) ∧ (∀ c ∈ (trim m true true s).head?, m c = false) ∧
      (∀ c ∈ (trim m true true s).getLast?, m c = false) := by
  obtain ⟨pre, h1, h2, h3⟩ := trimLeft_spec m s
  obtain ⟨post, g1, g2, g3⟩ := trimRight_spec m (trimLeft m s)
  refine ⟨pre, post, ?_, h2, g2, ?_, g3⟩
  · simp only [trim, ↓reduceIte]
    rw [List.append_assoc, ← g1, ← h1]
  · simp only [trim, ↓reduceIte]
    intro c hc
    apply h3
    rw [g1]
    cases hx : trimRight m (trimLeft m s) with
    | nil => rw [hx] at hc; simp at hc
    | cons d ds => rw [hx] at hc; simpa using hc

example : trim isWhite true true [32, 9, 97, 32, 98, 10] = [97, 32, 98] := by decide

/-- **C16.** What `trim` takes off by default: space, tab, carriage return and line feed, nothing else. -/
theorem C16_white_exact (c : Byte) : isWhite c = true ↔ c ∈ " \t\r\n".toList.map (fun ch => UInt8.ofNat ch.toNat) := by
  have e : " \t\r\n".toList.map (fun ch => UInt8.ofNat ch.toNat) = [32, 9, 13, 10] := by decide
  rw [e]
  simp [isWhite, or_assoc]

/-- **C16.** Trimming one end only leaves the other end alone. -/
theorem C16_trim_one_side (m : Byte → Bool) (s : List Byte) :
    (∃ pre, s = pre ++ trim m true false s ∧ (∀ c ∈ pre, m c = true) ∧
      (∀ c ∈ (trim m true false s).head?, m c = false)) ∧
    (∃ post, s = trim m false true s ++ post ∧ (∀ c ∈ post, m c = true) ∧
      (∀ c ∈ (trim m false true s).getLast?, m c = false)) ∧
    trim m false false s = s := by
  refine ⟨?_, ?_, by simp [trim]⟩
  · simpa [trim] using trimLeft_spec m s
  · simpa [trim] using trimRight_spec m s

example : trim isWhite true false [32, 97, 32] = [97, 32] ∧
    trim isWhite false true [32, 97, 32] = [32, 97] := by decide

theorem trimLeft_id (m : Byte → Bool) (s : List Byte) (h : ∀ c ∈ s.head?, m c = false) :
    trimLeft m s = s := by
  cases s with
  | nil => rfl
  | cons c cs =>
    have := h c (by simp)
    simp [trimLeft, this]

theorem trimRight_id (m : Byte → Bool) (s : List Byte) (h : ∀ c ∈ s.getLast?, m c = false) :
    trimRight m s = s := by
  unfold trimRight
  rw [trimLeft_id m s.reverse (by rw [List.head?_reverse]; exact h), List.reverse_reverse]

/-- **C16.** Trimming is idempotent, whichever sides are selected. -/
theorem C16_trim_idempotent (m : Byte → Bool) (left right : Bool) (s : List Byte) :
    trim m left right (trim m left right s) = trim m left right s := by
  cases left <;> cases right
  · simp [trim]
  · obtain ⟨_, _, _, h⟩ := trimRight_spec m s
    simp only [trim, Bool.false_eq_true, ↓reduceIte]
    exact trimRight_id m _ h
  · obtain ⟨_, _, _, h⟩ := trimLeft_spec m s
    simp only [trim, Bool.false_eq_true, ↓reduceIte]
    exact trimLeft_id m _ h
  · obtain ⟨_, _, _, _, _, h1, h2⟩ := C16_trim_exact m s
    generalize hx : trim m true true s = t at h1 h2
    simp only [trim, ↓reduceIte]
    rw [trimLeft_id m t h1, trimRight_id m t h2]

example : trim isWhite true true [32, 32] = [] := by decide

/-! ## C50 -/

/-- **C50.** `startsWith` and `endsWith` decide the prefix and suffix relations. -/
theorem C50_starts_ends_with (s t : List Byte) :
    (startsWith s t = true ↔ t <+: s) ∧ (endsWith s t = true ↔ t <:+ s) := by
  constructor
  · unfold startsWith
    split
    · rename_i h
      simp only [Bool.false_eq_true, false_iff]
      intro hp; have := hp.length_le; omega
    · rw [beq_iff_eq, List.prefix_iff_eq_take, eq_comm]
  · unfold endsWith
    split
    · rename_i h
      simp only [Bool.false_eq_true, false_iff]
      intro hp; have := hp.length_le; omega
    · rw [beq_iff_eq, List.suffix_iff_eq_drop, eq_comm]

example : startsWith [1, 2, 3] [1, 2] = true ∧ endsWith [1, 2, 3] [2, 3] = true ∧
    endsWith [3] [2, 3] = false := by decide

theorem findLoop_spec (m : Byte → Bool) (s : List Byte) (i : Nat) :
    (findLoop m i s = -1 ∧ ∀ c ∈ s, m c = false) ∨
    (∃ k, findLoop m i s = ((i + k : Nat) : Int) ∧ (∃ h : k < s.length, m s[k] = true) ∧
      ∀ j (h : j < s.length), j < k → m s[j] = false) := by
  induction s generalizing i with
  | nil => left; simp [findLoop]
  | cons c cs ih =>
    by_cases h : m c = true
    · right
      exact ⟨0, by simp [findLoop, h], ⟨by simp, h⟩, by intro j _ hj; omega⟩
    · have h' : m c = false := by simpa using h
      simp only [findLoop, h]
      rcases ih (i + 1) with ⟨h1, h2⟩ | ⟨k, h1, ⟨hk, h2⟩, h3⟩
      · left
        refine ⟨h1, ?_⟩
        intro d hd
        rcases List.mem_cons.mp hd with rfl | hd
        · exact h'
        · exact h2 d hd
      · right
        refine ⟨k + 1, ?_, ⟨by simp; omega, by simpa using h2⟩, ?_⟩
        · rw [show i + (k + 1) = i + 1 + k by omega]; exact h1
        · intro j hj hjk
          cases j with
          | zero => exact h'
          | succ j => exact h3 j (by simpa using hj) (by omega)

/-- **C50.** `findByte` returns the least matching offset at or after the start position, or -1 if
there is none. -/
theorem C50_find_first (m : Byte → Bool) (start : Nat) (s : List Byte) :
    (findByte m start s = -1 ∧ ∀ j (h : j < s.length), start ≤ j → m s[j] = false) ∨
    (∃ k, findByte m start s = (k : Nat) ∧ start ≤ k ∧ (∃ h : k < s.length, m s[k] = true) ∧
      ∀ j (h : j < s.length), start ≤ j → j < k → m s[j] = false) := by
  unfold findByte
  rcases findLoop_spec m (s.drop start) start with ⟨h1, h2⟩ | ⟨k, h1, ⟨hk, h2⟩, h3⟩
  · left
    refine ⟨h1, ?_⟩
    intro j hj hs
    apply h2
    rw [List.mem_iff_getElem]
    exact ⟨j - start, by rw [List.length_drop]; omega, by rw [List.getElem_drop]; congr 1; omega⟩
  · right
    rw [List.length_drop] at hk
    rw [List.getElem_drop] at h2
    refine ⟨start + k, h1, by omega, ⟨by omega, h2⟩, ?_⟩
    intro j hj hs hjk
    have := h3 (j - start) (by rw [List.length_drop]; omega) (by omega)
    rw [List.getElem_drop] at this
    have e : start + (j - start) = j := by omega
    simpa only [e] using this

example : findByte (· == 47) 1 [47, 97, 47] = 2 ∧ findByte (· == 47) 3 [47, 97, 47] = -1 := by
  decide

theorem rfindLoop_spec (m : Byte → Bool) (s : List Byte) (n : Nat) (hn : n ≤ s.length) :
    (rfindLoop m s n = some (-1) ∧ ∀ j (h : j < s.length), j < n → m s[j] = false) ∨
    (∃ k, rfindLoop m s n = some (k : Nat) ∧ k < n ∧ (∃ h : k < s.length, m s[k] = true) ∧
      ∀ j (h : j < s.length), k < j → j < n → m s[j] = false) := by
  induction n with
  | zero => left; exact ⟨rfl, by intro j _ hj; omega⟩
  | succ n ih =>
    have hlt : n < s.length := by omega
    simp only [rfindLoop, List.getElem?_eq_getElem hlt]
    by_cases h : m s[n] = true
    · right
      rw [if_pos h]
      exact ⟨n, rfl, by omega, ⟨hlt, h⟩, by intro j _ h1 h2; omega⟩
    · have h' : m s[n] = false := by simpa using h
      rw [if_neg h]
      rcases ih (by omega) with ⟨h1, h2⟩ | ⟨k, h1, hk, h2, h3⟩
      · left
        refine ⟨h1, ?_⟩
        intro j hj hjn
        by_cases hj' : j = n
        · subst hj'; exact h'
        · exact h2 j hj (by omega)
      · right
        refine ⟨k, h1, by omega, h2, ?_⟩
        intro j hj h4 h5
        by_cases hj' : j = n
        · subst hj'; exact h'
        · exact h3 j hj h4 (by omega)

/-- **C50.** `rfindByte` never reads outside the view and returns the greatest matching offset, or
-1 if there is none. -/
theorem C50_rfind_last (m : Byte → Bool) (s : List Byte) :
    (rfindByte m s = some (-1) ∧ ∀ c ∈ s, m c = false) ∨
    (∃ k, rfindByte m s = some (k : Nat) ∧ (∃ h : k < s.length, m s[k] = true) ∧
      ∀ j (h : j < s.length), k < j → m s[j] = false) := by
  unfold rfindByte
  rcases rfindLoop_spec m s s.length (Nat.le_refl _) with ⟨h1, h2⟩ | ⟨k, h1, hk, h2, h3⟩
  · left
    refine ⟨h1, ?_⟩
    intro c hc
    obtain ⟨j, hj, rfl⟩ := List.mem_iff_getElem.mp hc
    exact h2 j hj hj
  · right
    exact ⟨k, h1, h2, fun j hj h4 => h3 j hj h4 hj⟩

example : rfindByte (· == 47) [47, 97, 47, 98] = some 2 ∧ rfindByte (· == 47) [] = some (-1) := by
  decide

/-- **C50.** Substring bounds check, when `start + length` does not exceed 32 bits: the request is
accepted exactly if it lies inside the view. -/
theorem C50_subStr_checked_partial (viewLen start len : Nat) (h : start + len < 2 ^ 32) :
    (subStr viewLen start len = some (start, len) ↔ start + len ≤ viewLen) ∧
    (subStr viewLen start len = none ↔ viewLen < start + len) := by
  unfold subStr
  rw [u32_of_lt h]
  split <;> constructor <;> constructor <;> intro h' <;> simp_all <;> omega

example : subStr 5 2 3 = some (2, 3) ∧ subStr 5 2 4 = none := by decide

/-- **C50** fails in general: because the sum wraps, `subStr(1, 2^32 - 1)` of a one-byte string
passes both assertions and returns a view of four gigabytes. -/
theorem C50_subStr_wraps : subStr 1 1 (2 ^ 32 - 1) = some (1, 2 ^ 32 - 1) := by decide

/-- **C50.** ASCII case conversion: changes exactly the letters of the other case, keeps the length
and every byte ≥ 128, and is idempotent; lowering after raising is the same as lowering. -/
theorem C50_case_conversion (s : List Byte) :
    (upperAsc s).length = s.length ∧ (lowerAsc s).length = s.length ∧
    upperAsc (upperAsc s) = upperAsc s ∧ lowerAsc (lowerAsc s) = lowerAsc s ∧
    lowerAsc (upperAsc s) = lowerAsc s ∧ upperAsc (lowerAsc s) = upperAsc s ∧
    (∀ c ∈ upperAsc s, ¬ (97 ≤ c.toNat ∧ c.toNat ≤ 122)) ∧
    (∀ c ∈ lowerAsc s, ¬ (65 ≤ c.toNat ∧ c.toNat ≤ 90)) ∧
    ((∀ c ∈ s, 128 ≤ c.toNat) → upperAsc s = s ∧ lowerAsc s = s) := by
  have U : ∀ c : Byte, 
      let up := fun c : Byte => if 97 ≤ c.toNat ∧ c.toNat ≤ 122 then UInt8.ofNat (c.toNat - 32) else c
      let lo := fun c : Byte => if 65 ≤ c.toNat ∧ c.toNat ≤ 90 then UInt8.ofNat (c.toNat + 32) else c
      up (up c) = up c ∧ lo (lo c) = lo c ∧ lo (up c) = lo c ∧ up (lo c) = up c ∧
      ¬ (97 ≤ (up c).toNat ∧ (up c).toNat ≤ 122) ∧ ¬ (65 ≤ (lo c).toNat ∧ (lo c).toNat ≤ 90) ∧
      (128 ≤ c.toNat → up c = c ∧ lo c = c) := by
    apply forall_byte
    decide +kernel
  dsimp only at U
  unfold upperAsc lowerAsc
  refine ⟨by simp, by simp, ?_, ?_, ?_, ?_, ?_, ?_, ?_⟩
  · rw [List.map_map]; exact List.map_congr_left fun c _ => (U c).1
  · rw [List.map_map]; exact List.map_congr_left fun c _ => (U c).2.1
  · rw [List.map_map]; exact List.map_congr_left fun c _ => (U c).2.2.1
  · rw [List.map_map]; exact List.map_congr_left fun c _ => (U c).2.2.2.1
  · intro d hd
    obtain ⟨c, _, rfl⟩ := List.mem_map.mp hd
    exact (U c).2.2.2.2.1
  · intro d hd
    obtain ⟨c, _, rfl⟩ := List.mem_map.mp hd
    exact (U c).2.2.2.2.2.1
  · intro h
    constructor
    · conv => rhs; rw [← List.map_id s]
      exact List.map_congr_left fun c hc => ((U c).2.2.2.2.2.2 (h c hc)).1
    · conv => rhs; rw [← List.map_id s]
      exact List.map_congr_left fun c hc => ((U c).2.2.2.2.2.2 (h c hc)).2

example : upperAsc [97, 0xC3, 122, 48] = [65, 0xC3, 90, 48] := by decide

/-- **C50.** Concatenation and repetition, when the result fits in 32 bits. -/
theorem C50_concat_repeat_partial (a b : List Byte) (n : Nat) (h : a.length + b.length < 2 ^ 32)
    (h' : a.length * n < 2 ^ 32) :
    concat a b = some (a ++ b) ∧ times a n = some (List.replicate n a).flatten := by
  unfold concat times
  rw [u32_of_lt h, u32_of_lt h']
  simp only [Nat.le_refl, ↓reduceIte, true_and, Option.some.injEq]
  clear h h'
  induction n with
  | zero => rfl
  | succ n ih => simp [repeatLoop, List.replicate_succ, ih]

example : concat [1] [2] = some [1, 2] ∧ times [1, 2] 2 = some [1, 2, 1, 2] := by decide

/-- **C50** fails when the product wraps: repeating a two-byte string 2^31 times allocates zero
bytes and copies past the end. -/
theorem C50_repeat_overflow : times [42, 42] (2 ^ 31) = none := by
  unfold times
  rw [if_neg (by decide)]

end Verif.Str
