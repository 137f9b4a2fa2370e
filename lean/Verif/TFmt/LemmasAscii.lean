import Verif.TFmt.LemmasDetect
/-!
# Text formats — helper lemmas about plain ASCII text in UTF-16
-/
namespace Verif.TFmt
open Verif Verif.Enc Verif.TConv TFmt.Spec

/-- Points of plain text. -/
def PlainN (p : Nat) : Prop := plainN p = true

theorem PlainN.lt {p : Nat} (h : PlainN p) : 0 < p ∧ p < 127 := by
  unfold PlainN plainN at h
  simp only [decide_eq_true_eq] at h
  omega

theorem plain_points {f : Format} (hb : f.bom = false) {cs : List Char} (h : ∀ c ∈ cs, PlainText c) :
    ∀ p ∈ filePoints f cs, PlainN p := by
  intro p hp
  unfold filePoints at hp
  rw [hb] at hp
  simp only [Bool.false_eq_true, if_false, List.nil_append] at hp
  rcases nlP_mem hp with h1 | rfl | rfl
  · simp only [List.mem_map] at h1
    obtain ⟨c, hc, rfl⟩ := h1
    unfold PlainN plainN
    simp only [decide_eq_true_eq]
    rcases h c hc with h2 | rfl | rfl | rfl
    · exact .inr (.inr (.inr h2))
    · exact .inr (.inl rfl)
    · exact .inl rfl
    · exact .inr (.inr (.inl rfl))
  · rfl
  · rfl

/-- The bytes of a plain character in UTF-16, as numbers. -/
def twoB (be : Bool) (p : Nat) : List Nat := if be then [0, p] else [p, 0]

/-- The enumeration value for UTF-16. -/
def e16 : Bool → Enc
  | true => .utf16be
  | false => .utf16le

theorem enc16_as8 (be : Bool) : ∀ p < 127,
    encF (e16 be) p = (twoB be p).flatMap (encF .utf8) := by
  cases be <;> decide +kernel

theorem enc16_as16 (be : Bool) : ∀ p < 127, encF (e16 be) p = encF (e16 (!be)) (p * 256) := by
  cases be <;> decide +kernel

theorem flatMap_as8 (be : Bool) (qs : List Nat) (h : ∀ p ∈ qs, PlainN p) :
    qs.flatMap (encF (e16 be)) = (qs.flatMap (twoB be)).flatMap (encF .utf8) := by
  induction qs with
  | nil => rfl
  | cons p qs ih =>
    rw [List.flatMap_cons, List.flatMap_cons, List.flatMap_append,
      ih (fun q hq => h q (by simp [hq])), enc16_as8 be p (h p (by simp)).lt.2]

theorem flatMap_as16 (be : Bool) (qs : List Nat) (h : ∀ p ∈ qs, PlainN p) :
    qs.flatMap (encF (e16 be)) = (qs.map (· * 256)).flatMap (encF (e16 (!be))) := by
  induction qs with
  | nil => rfl
  | cons p qs ih =>
    rw [List.flatMap_cons, List.map_cons, List.flatMap_cons,
      ih (fun q hq => h q (by simp [hq])), enc16_as16 be p (h p (by simp)).lt.2]

theorem twoB_mem {be : Bool} {qs : List Nat} (h : ∀ p ∈ qs, PlainN p) {z : Nat}
    (hz : z ∈ qs.flatMap (twoB be)) : z = 0 ∨ PlainN z := by
  simp only [List.mem_flatMap] at hz
  obtain ⟨p, hp, hz⟩ := hz
  unfold twoB at hz
  cases be <;> simp at hz <;> rcases hz with rfl | rfl <;> simp [h _ hp]

theorem small_scalar {z : Nat} (h : z < 0xd800) : IsScalar z := by
  unfold IsScalar; omega

/-- At least every other byte, but perhaps the last, is a control character. -/
theorem prefix_ctl (be : Bool) : ∀ (qs l : List Nat), (∀ p ∈ qs, PlainN p) →
    l <+: qs.flatMap (twoB be) → l.length ≤ 2 * l.countP ctlN + 1 := by
  intro qs
  induction qs with
  | nil => intro l _ h; simp only [List.flatMap_nil, List.prefix_nil] at h; subst h; simp
  | cons p qs ih =>
    intro l h hl
    rw [List.flatMap_cons] at hl
    cases l with
    | nil => simp
    | cons x l =>
      cases l with
      | nil => simp
      | cons y l =>
        have h0 : ctlN 0 = true := by decide
        cases be
        · simp only [twoB, Bool.false_eq_true, if_false, List.cons_append, List.nil_append,
            List.cons_prefix_cons] at hl
          obtain ⟨rfl, rfl, hl⟩ := hl
          have := ih l (fun q hq => h q (by simp [hq])) (by simpa [twoB] using hl)
          simp only [List.countP_cons, List.length_cons, h0, if_true]
          split <;> omega
        · simp only [twoB, if_true, List.cons_append, List.nil_append,
            List.cons_prefix_cons] at hl
          obtain ⟨rfl, rfl, hl⟩ := hl
          have := ih l (fun q hq => h q (by simp [hq])) (by simpa [twoB] using hl)
          simp only [List.countP_cons, List.length_cons, h0, if_true]
          split <;> omega

theorem countP_zero {P : Nat → Bool} {l : List Nat} (h : ∀ p ∈ l, P p = false) : l.countP P = 0 := by
  rw [List.countP_eq_zero]
  intro p hp
  simp [h p hp]

theorem countP_all {P : Nat → Bool} {l : List Nat} (h : ∀ p ∈ l, P p = true) :
    l.countP P = l.length := by
  rw [List.countP_eq_length]
  exact h

theorem countP_excl {P Q : Nat → Bool} (h : ∀ p, P p = true → Q p = false) (l : List Nat) :
    l.countP P + l.countP Q ≤ l.length := by
  induction l with
  | nil => simp
  | cons p l ih =>
    have := h p
    simp only [List.countP_cons, List.length_cons]
    cases hP : P p <;> cases hQ : Q p <;> simp_all <;> omega

theorem Tallied.sum {t : Stats} {cr : Bool} {l : List Nat} (h : Tallied {} t cr l) :
    sum2 t = 5 * (l.countP whiteN : Int) + 2 * l.countP plainN - 100 * l.countP ctlN
      + 10 * l.countP extN := by
  have hi : t.numInvalidPoints = 0 := by
    unfold Stats.numInvalidPoints
    rw [h.points, h.valid]
    exact Nat.sub_self _
  have h1 := h.white
  have h2 := h.plain
  have h3 := h.control
  have h4 := h.ext
  simp only [Nat.zero_add] at h1 h2 h3 h4
  unfold sum2
  rw [hi, h1, h2, h3, h4]
  omega

theorem above_of {a b : Stats} (ha : 0 < a.denom) (hb : 0 < b.denom)
    (h1 : 2 * (a.denom : Int) ≤ sum2 a) (h2 : sum2 b ≤ b.denom) : Above a b := by
  refine ⟨ha, hb, ?_⟩
  have e1 : sum2 b * a.denom ≤ b.denom * a.denom :=
    Int.mul_le_mul_of_nonneg_right h2 (by omega)
  have e2 : 2 * (a.denom : Int) * b.denom ≤ sum2 a * b.denom :=
    Int.mul_le_mul_of_nonneg_right h1 (by omega)
  have e3 : (b.denom : Int) * a.denom = a.denom * b.denom := Int.mul_comm _ _
  have e4 : 2 * (a.denom : Int) * b.denom = a.denom * b.denom + a.denom * b.denom := by
    rw [Int.mul_assoc, Int.two_mul]
  omega

theorem nonempty_seen {E : Nat → List Byte} {p : Nat} {ps : List Nat} :
    ∃ l, seen E 4000 0 (p :: ps) = p :: l := by
  unfold seen
  exact ⟨_, rfl⟩

/-- Choosing between the three scans of plain text in UTF-16. -/
theorem guess_ascii {cmp : Scoring} (hf : Faithful cmp) (be : Bool) (qs : List Nat)
    (h : ∀ p ∈ qs, PlainN p) (hne : qs ≠ []) :
    ∃ t, Tallied {} t false (seen (encF (e16 be)) 4000 0 qs) ∧
      ∀ nl, t.getNewLineType = some nl →
        autodetect cmp (qs.flatMap (encF (e16 be))) = some ⟨e16 be, nl, false⟩ := by
  have hsc : ∀ p ∈ qs, IsScalar p := fun p hp => small_scalar (by have := (h p hp).lt; omega)
  have hsc8 : ∀ p ∈ qs.flatMap (twoB be), IsScalar p := by
    intro p hp
    rcases twoB_mem h hp with rfl | hp
    · decide
    · exact small_scalar (by have := hp.lt; omega)
  have hscO : ∀ p ∈ qs.map (· * 256), IsScalar p := by
    intro p hp
    simp only [List.mem_map] at hp
    obtain ⟨q, hq, rfl⟩ := hp
    exact small_scalar (by have := (h q hq).lt; omega)
  have heb : ∀ be, e16 be ≠ .bytes := by intro be; cases be <;> decide
  obtain ⟨t, s1, t1, d1⟩ := scan_enc (heb be) qs hsc
  obtain ⟨u, s2, t2, d2⟩ := scan_enc (e := .utf8) (by decide) _ hsc8
  obtain ⟨v, s3, t3, d3⟩ := scan_enc (heb (!be)) _ hscO
  rw [← flatMap_as8 be qs h] at s2
  rw [← flatMap_as16 be qs h] at s3
  refine ⟨t, t1, ?_⟩
  intro nl hnl
  generalize hdata : qs.flatMap (encF (e16 be)) = data at s1 s2 s3
  obtain ⟨q0, qs', rfl⟩ : ∃ a b, qs = a :: b := by
    cases qs with
    | nil => exact absurd rfl hne
    | cons a b => exact ⟨a, b, rfl⟩
  have hp0 := h q0 (by simp)
  -- no mark
  have hbom : bomOf data = none := by
    rw [← hdata, flatMap_as8 be _ h]
    refine bomOf_utf8 _ hsc8 ?_
    cases be
    · simp only [List.flatMap_cons, twoB, Bool.false_eq_true, if_false, List.cons_append,
        List.head?_cons, ne_eq, Option.some.injEq]
      have := hp0.lt
      omega
    · simp [List.flatMap_cons, twoB]
  -- the scans
  have hL1 : t.denom = (seen (encF (e16 be)) 4000 0 (q0 :: qs')).length := by
    rw [d1, t1.points]; exact Nat.zero_add _
  have hL3 : v.denom = (seen (encF (e16 !be)) 4000 0 ((q0 :: qs').map (· * 256))).length := by
    rw [d3, t3.points]; exact Nat.zero_add _
  have hL2 : u.denom =
      (seen (encF .utf8) 4000 0 ((q0 :: qs').flatMap (twoB be))).length := by
    rw [d2, t2.points]; exact Nat.zero_add _
  have p1 := seen_prefix (encF (e16 be)) 4000 (q0 :: qs') 0
  have p2 := seen_prefix (encF .utf8) 4000 ((q0 :: qs').flatMap (twoB be)) 0
  have p3 := seen_prefix (encF (e16 !be)) 4000 ((q0 :: qs').map (· * 256)) 0
  have n1 : 0 < t.denom := by
    rw [hL1]
    obtain ⟨l, hl⟩ := nonempty_seen (E := encF (e16 be)) (p := q0) (ps := qs')
    rw [hl]; simp
  have n3 : 0 < v.denom := by
    rw [hL3, List.map_cons]
    obtain ⟨l, hl⟩ := nonempty_seen (E := encF (e16 !be)) (p := q0 * 256) (ps := qs'.map (· * 256))
    rw [hl]; simp
  have n2 : 2 ≤ u.denom := by
    rw [hL2]
    have hlen : ∀ p, p < 127 → (encF .utf8 p).length = 1 := by decide +kernel
    have hq := hlen q0 hp0.lt.2
    have h0 := hlen 0 (by decide)
    cases be
    · simp only [List.flatMap_cons, twoB, Bool.false_eq_true, if_false, List.cons_append,
        List.nil_append, seen, hq]
      simp
    · simp only [List.flatMap_cons, twoB, if_true, List.cons_append,
        List.nil_append, seen, h0]
      simp
  have c2 := prefix_ctl be _ _ h p2
  have hs1 : 2 * (t.denom : Int) ≤ sum2 t := by
    rw [t1.sum, hL1]
    have hall : ∀ p ∈ seen (encF (e16 be)) 4000 0 (q0 :: qs'), PlainN p :=
      fun p hp => h p (p1.subset hp)
    rw [countP_all (P := plainN) hall, countP_zero (P := ctlN), countP_zero (P := extN)]
    · omega
    · intro p hp
      have := (hall p hp).lt
      simp only [extN, decide_eq_false_iff_not]; omega
    · intro p hp
      have := hall p hp
      unfold PlainN plainN at this
      simp only [decide_eq_true_eq] at this
      simp only [ctlN, decide_eq_false_iff_not]; omega
  have hs3 : sum2 v ≤ v.denom := by
    have hbig : ∀ p ∈ seen (encF (e16 !be)) 4000 0 ((q0 :: qs').map (· * 256)),
        256 ≤ p ∧ p < 65536 := by
      intro p hp
      have := p3.subset hp
      rw [List.mem_map] at this
      obtain ⟨q, hq, rfl⟩ := this
      have := (h q hq).lt
      omega
    rw [t3.sum, countP_zero (P := whiteN), countP_zero (P := plainN), countP_zero (P := ctlN),
      countP_zero (P := extN)]
    · omega
    all_goals
      intro p hp
      have := hbig p hp
      simp only [extN, ctlN, plainN, whiteN, decide_eq_false_iff_not]
      omega
  have hctl : 0 < u.numControl := by
    rw [t2.control]
    show 0 < 0 + _
    rw [hL2] at n2
    omega
  have hs2 : sum2 u ≤ u.denom := by
    rw [t2.sum, hL2, countP_zero (P := extN)]
    · have x1 := countP_excl (P := plainN) (Q := ctlN) (by
        intro p; unfold plainN ctlN; simp only [decide_eq_true_eq, decide_eq_false_iff_not]; omega)
        (seen (encF .utf8) 4000 0 ((q0 :: qs').flatMap (twoB be)))
      have x2 := countP_excl (P := whiteN) (Q := ctlN) (by
        intro p; unfold whiteN ctlN; simp only [decide_eq_true_eq, decide_eq_false_iff_not]; omega)
        (seen (encF .utf8) 4000 0 ((q0 :: qs').flatMap (twoB be)))
      rw [hL2] at n2
      omega
    · intro p hp
      rcases twoB_mem h (p2.subset hp) with rfl | hp
      · decide
      · have := hp.lt
        simp only [extN, decide_eq_false_iff_not]; omega
  have hinv : u.numInvalidPoints = 0 := by
    unfold Stats.numInvalidPoints; rw [t2.points, t2.valid]; exact Nat.sub_self _
  -- the decision
  have a3 : Above t v := above_of n1 n3 hs1 hs3
  have a2 : ∀ u', u'.denom = u.denom → sum2 u' = sum2 u → Above t u' := by
    intro u' e1 e2
    exact above_of n1 (by omega) hs1 (by rw [e1, e2]; exact hs2)
  have s2 : scanTextFile utf8E data = some (u, _) := s2
  have hdone : ∀ e8 u', Above t u' →
      choose cmp e8 u' (if be then v else t) (if be then t else v) = some ⟨e16 be, nl, false⟩ := by
    intro e8 u' ha
    unfold choose
    cases be
    · simp only [Bool.false_eq_true, if_false, (hf.gt _ _ a3).2, (hf.ge _ _ ha).2, hnl]
      rfl
    · simp only [if_true, (hf.gt _ _ a3).1, (hf.ge _ _ ha).2, Bool.false_eq_true, if_false, hnl]
      rfl
  unfold autodetect
  rw [hbom]
  dsimp only
  unfold guessFileEncoding
  rw [s2]
  dsimp only
  rw [if_neg, if_neg (by omega)]
  · unfold guess16
    have e1 : ∃ m, scanTextFile (utf16E false) data = some (if be then v else t, m) := by
      cases be
      · exact ⟨_, s1⟩
      · exact ⟨_, s3⟩
    have e2 : ∃ m, scanTextFile (utf16E true) data = some (if be then t else v, m) := by
      cases be
      · exact ⟨_, s3⟩
      · exact ⟨_, s1⟩
    obtain ⟨m1, e1⟩ := e1
    obtain ⟨m2, e2⟩ := e2
    rw [e1, e2]
    dsimp only
    apply hdone
    split
    · refine a2 _ rfl ?_
      unfold sum2 Stats.numInvalidPoints at *
      dsimp only
      omega
    · exact a2 _ rfl rfl
  · intro hz
    rw [List.length_eq_zero_iff] at hz
    have : (seen (encF .utf8) 4000 0 ((q0 :: qs').flatMap (twoB be))).length = 0 := by
      cases hh : seen (encF .utf8) 4000 0 ((q0 :: qs').flatMap (twoB be)) with
      | nil => rfl
      | cons x l =>
        rw [hh, List.flatMap_cons, List.append_eq_nil_iff] at hz
        have hx : x ∈ (q0 :: qs').flatMap (twoB be) := p2.subset (by rw [hh]; simp)
        have := (dec_enc (e := .utf8) (by decide) (hsc8 x hx) []).2
        rw [hz.1] at this
        simp at this
    omega

end Verif.TFmt
