import Verif.Sort.Model
import Verif.Sort.Spec
/-!
# Lemmas about the partition and trimming loops
-/
namespace Verif.Sort
open Verif Spec

variable {α : Type _} {less : α → α → Bool}

theorem swap_spec {v : List α} {i j : Nat} {a b : α} (hi : v[i]? = some a) (hj : v[j]? = some b) :
    ∃ v', swap v i j = some v' ∧ v'.Perm v ∧ v'[i]? = some b ∧ v'[j]? = some a ∧
      ∀ k, k ≠ i → k ≠ j → v'[k]? = v[k]? := by
  obtain ⟨h1, e1⟩ := List.getElem?_eq_some_iff.mp hi
  obtain ⟨h2, e2⟩ := List.getElem?_eq_some_iff.mp hj
  refine ⟨(v.set i b).set j a, by simp [swap, hi, hj], ?_, ?_, ?_, ?_⟩
  · rw [← e1, ← e2]; exact List.set_set_perm h1 h2
  · rw [List.getElem?_set]
    by_cases hij : j = i
    · subst hij
      rw [hi] at hj
      simp only [List.length_set, h1, ↓reduceIte]
      exact hj
    · rw [if_neg hij, List.getElem?_set, if_pos rfl, if_pos h1]
  · rw [List.getElem?_set, if_pos rfl, List.length_set, if_pos h2]
  · intro k k1 k2
    rw [List.getElem?_set, if_neg (Ne.symm k2), List.getElem?_set, if_neg (Ne.symm k1)]

theorem scanUp_spec (v : List α) (pivot hi : Nat) (p : α) (hp : v[pivot]? = some p) (lo : Nat)
    (h1 : lo ≤ hi) (h2 : hi < v.length) :
    ∃ lo', scanUp less v pivot hi lo = some lo' ∧ lo ≤ lo' ∧ lo' ≤ hi ∧
      (∀ i a, lo ≤ i → i < lo' → v[i]? = some a → less a p = true) ∧
      (∀ a, lo' < hi → v[lo']? = some a → less a p = false) := by
  obtain ⟨d, hd⟩ : ∃ d, hi = lo + d := ⟨hi - lo, by omega⟩
  induction d generalizing lo with
  | zero =>
    refine ⟨lo, ?_, Nat.le_refl _, h1, ?_, ?_⟩
    · rw [scanUp.eq_def, if_neg (by omega)]
    · intro i a h3 h4; omega
    · intro a h; omega
  | succ d ih =>
    have hlo : lo < v.length := by omega
    have hg : v[lo]? = some v[lo] := List.getElem?_eq_getElem hlo
    rw [scanUp.eq_def, if_pos (by omega), hg, hp]
    dsimp only
    by_cases hl : less v[lo] p = true
    · rw [if_pos hl]
      obtain ⟨lo', e1, e2, e3, e4, e5⟩ := ih (lo + 1) (by omega) (by omega)
      refine ⟨lo', e1, by omega, e3, ?_, e5⟩
      intro i a i1 i2 i3
      by_cases hi' : i = lo
      · subst hi'
        rw [hg] at i3
        cases i3
        exact hl
      · exact e4 i a (by omega) i2 i3
    · rw [if_neg hl]
      refine ⟨lo, rfl, Nat.le_refl _, h1, ?_, ?_⟩
      · intro i a h3 h4; omega
      · intro a _ h; rw [hg] at h; cases h; simpa using hl

theorem scanDown_spec (v : List α) (pivot lo : Nat) (p : α) (hp : v[pivot]? = some p) (hi : Nat)
    (h1 : lo ≤ hi) (h2 : hi < v.length) :
    ∃ hi', scanDown less v pivot lo hi = some hi' ∧ lo ≤ hi' ∧ hi' ≤ hi ∧
      (∀ i a, hi' < i → i ≤ hi → v[i]? = some a → less p a = true) ∧
      (∀ a, lo < hi' → v[hi']? = some a → less p a = false) := by
  obtain ⟨d, hd⟩ : ∃ d, hi = lo + d := ⟨hi - lo, by omega⟩
  induction d generalizing hi with
  | zero =>
    refine ⟨hi, ?_, h1, Nat.le_refl _, ?_, ?_⟩
    · rw [scanDown.eq_def, if_neg (by omega)]
    · intro i a h3 h4; omega
    · intro a h; omega
  | succ d ih =>
    have hg : v[hi]? = some v[hi] := List.getElem?_eq_getElem h2
    rw [scanDown.eq_def, if_pos (by omega), hg, hp]
    dsimp only
    by_cases hl : less p v[hi] = true
    · rw [if_pos hl]
      obtain ⟨hi', e1, e2, e3, e4, e5⟩ := ih (hi - 1) (by omega) (by omega) (by omega)
      refine ⟨hi', e1, e2, by omega, ?_, e5⟩
      intro i a i1 i2 i3
      by_cases hi' : i = hi
      · subst hi'
        rw [hg] at i3
        cases i3
        exact hl
      · exact e4 i a i1 (by omega) i3
    · rw [if_neg hl]
      refine ⟨hi, rfl, h1, Nat.le_refl _, ?_, ?_⟩
      · intro i a h3 h4; omega
      · intro a _ h; rw [hg] at h; cases h; simpa using hl

/-- What holds at the head of the partition loop; the ordering part only for proper orders. -/
structure PInv (less : α → α → Bool) (v : List α) (p : α) (lo hi pivot : Nat) : Prop where
  hp : v[pivot]? = some p
  le : lo ≤ hi
  lt : hi < v.length
  c : lo = 0 → 1 ≤ pivot ∧ pivot ≤ hi
  ordA : StrictWeak less → ∀ i a, i < lo → v[i]? = some a → less p a = false
  ordB : StrictWeak less → ∀ j a, hi < j → v[j]? = some a → less a p = false
  ordD : (∀ a, v[hi]? = some a → less a p = false) ∨ (lo ≤ pivot ∧ pivot < hi)

theorem StrictWeak.asymm (h : StrictWeak less) {a b : α} (hab : less a b = true) :
    less b a = false := by
  cases hba : less b a with
  | false => rfl
  | true => have := h.trans a b a hab hba; rw [h.irrefl] at this; simp at this

theorem partitionLoop_spec (hirr : ∀ a, less a a = false) (fuel : Nat) (v : List α) (p : α)
    (lo hi pivot : Nat) (h : PInv less v p lo hi pivot) (hf : hi < lo + fuel) :
    ∃ v' m pivot', partitionLoop less fuel v lo hi pivot = some (v', m, m, pivot') ∧ v'.Perm v ∧
      1 ≤ m ∧ m < v.length ∧ v'[pivot']? = some p ∧
      (StrictWeak less → (∀ i a, i < m → v'[i]? = some a → less p a = false) ∧
        (∀ j a, m ≤ j → v'[j]? = some a → less a p = false)) := by
  induction fuel generalizing v lo hi pivot with
  | zero => have := h.le; omega
  | succ fuel ih =>
    obtain ⟨lo', u1, u2, u3, u4, u5⟩ := scanUp_spec (less := less) v pivot hi p h.hp lo h.le h.lt
    obtain ⟨hi', d1, d2, d3, d4, d5⟩ := scanDown_spec (less := less) v pivot lo' p h.hp hi u3 h.lt
    simp only [partitionLoop, u1, d1]
    have hlt := h.lt
    -- the scans stop at the pivot
    have hup : lo ≤ pivot → lo' ≤ pivot := by
      intro hle
      rcases Nat.lt_or_ge pivot lo' with hc | hc
      · have := u4 pivot p hle hc h.hp
        rw [hirr] at this; simp at this
      · exact hc
    have hdown : pivot ≤ hi → pivot ≤ hi' := by
      intro hle
      rcases Nat.lt_or_ge hi' pivot with hc | hc
      · have := d4 pivot p hc hle h.hp
        rw [hirr] at this; simp at this
      · exact hc
    have hA : StrictWeak less → ∀ i a, i < lo' → v[i]? = some a → less p a = false := by
      intro hs i a hi1 hi2
      rcases Nat.lt_or_ge i lo with hc | hc
      · exact h.ordA hs i a hc hi2
      · exact StrictWeak.asymm hs (u4 i a hc hi1 hi2)
    have hB : StrictWeak less → ∀ j a, hi' < j → v[j]? = some a → less a p = false := by
      intro hs j a hj1 hj2
      rcases Nat.lt_or_ge hi j with hc | hc
      · exact h.ordB hs j a hc hj2
      · exact StrictWeak.asymm hs (d4 j a hj1 hc hj2)
    by_cases hge : lo' ≥ hi'
    · rw [if_pos hge]
      have heq : hi' = lo' := by omega
      subst heq
      have hone : 1 ≤ hi' := by
        rcases Nat.eq_zero_or_pos hi' with hz | hz
        · have := h.c (by omega)
          have := hdown this.2
          omega
        · exact hz
      refine ⟨v, hi', pivot, rfl, List.Perm.refl _, hone, by omega, h.hp, fun hs => ⟨hA hs, ?_⟩⟩
      intro j a hj1 hj2
      rcases Nat.lt_or_ge hi' j with hc | hc
      · exact hB hs j a hc hj2
      · have : j = hi' := by omega
        subst this
        rcases Nat.lt_or_ge j hi with hc2 | hc2
        · exact u5 a hc2 hj2
        · have : j = hi := by omega
          subst this
          rcases h.ordD with hd | ⟨hd1, hd2⟩
          · exact hd a hj2
          · have := hup hd1; omega
    · rw [if_neg hge]
      have hlo : lo' < v.length := by omega
      have hhi : hi' < v.length := by omega
      have ga : v[lo']? = some v[lo'] := List.getElem?_eq_getElem hlo
      have gb : v[hi']? = some v[hi'] := List.getElem?_eq_getElem hhi
      have fa : less v[lo'] p = false := u5 _ (by omega) ga
      have fb : less p v[hi'] = false := d5 _ (by omega) gb
      obtain ⟨v', s1, s2, s3, s4, s5⟩ := swap_spec ga gb
      have hpl : pivot < v.length := (List.getElem?_eq_some_iff.mp h.hp).1
      rw [ga, gb, h.hp]
      dsimp only
      rw [if_neg (by simp [fa, fb]), s1]
      dsimp only
      generalize hpv : (if lo' = pivot then hi' else if hi' = pivot then lo' else pivot) = pivot'
      have hp' : v'[pivot']? = some p := by
        rw [← hpv]
        by_cases c1 : lo' = pivot
        · rw [if_pos c1, s4, ← ga, c1]; exact h.hp
        · rw [if_neg c1]
          by_cases c2 : hi' = pivot
          · rw [if_pos c2, s3, ← gb, c2]; exact h.hp
          · rw [if_neg c2, s5 pivot (Ne.symm c1) (Ne.symm c2)]; exact h.hp
      have hlen : v'.length = v.length := s2.length_eq
      have hinv : PInv less v' p (lo' + 1) hi' pivot' := by
        refine ⟨hp', by omega, by omega, by omega, ?_, ?_, Or.inl ?_⟩
        · intro hs i a hi1 hi2
          rcases Nat.lt_or_ge i lo' with hc | hc
          · rw [s5 i (by omega) (by omega)] at hi2
            exact hA hs i a hc hi2
          · have : i = lo' := by omega
            subst this
            rw [s3] at hi2; cases hi2; exact fb
        · intro hs j a hj1 hj2
          rw [s5 j (by omega) (by omega)] at hj2
          exact hB hs j a hj1 hj2
        · intro a ha; rw [s4] at ha; cases ha; exact fa
      obtain ⟨v2, m, pv2, e1, e2, e3, e4, e5, e6⟩ := ih v' _ _ _ hinv (by omega)
      exact ⟨v2, m, pv2, e1, e2.trans s2, e3, by omega, e5, e6⟩

theorem trimLeft_spec (v : List α) (pivot : Nat) (p : α) (hp : v[pivot]? = some p) (lo : Nat)
    (h : lo ≤ v.length) :
    ∃ l, trimLeft less v pivot lo = some l ∧ l ≤ lo ∧ 
      (∀ i a, l ≤ i → 1 ≤ i → i < lo → v[i]? = some a → less a p = false) := by
  induction lo with
  | zero => exact ⟨0, rfl, Nat.le_refl _, by intro i a _ _ h; omega⟩
  | succ lo ih =>
    have hlo : lo < v.length := by omega
    have hg : v[lo]? = some v[lo] := List.getElem?_eq_getElem hlo
    simp only [trimLeft]
    by_cases h1 : lo + 1 > 1
    · rw [if_pos h1, hg, hp]
      dsimp only
      by_cases hl : less v[lo] p = true
      · rw [if_neg (by simp [hl])]
        exact ⟨lo + 1, rfl, Nat.le_refl _, by intro i a _ _ h; omega⟩
      · rw [if_pos (by simpa using hl)]
        obtain ⟨l, e1, e2, e3⟩ := ih (by omega)
        refine ⟨l, e1, by omega, ?_⟩
        intro i a i1 i2 i3 i4
        by_cases hi : i = lo
        · subst hi; rw [hg] at i4; cases i4; simpa using hl
        · exact e3 i a i1 i2 (by omega) i4
    · rw [if_neg h1]
      exact ⟨0, rfl, by omega, by intro i a _ _ h; omega⟩

theorem trimRight_spec (v : List α) (pivot : Nat) (q : α) (hq : v[pivot]? = some q) (hi : Nat)
    (h : hi < v.length) :
    ∃ r, trimRight less v pivot hi = some r ∧ hi ≤ r ∧ r ≤ v.length ∧
      (∀ i a, hi ≤ i → i < r → i + 1 < v.length → v[i]? = some a → less q a = false) := by
  obtain ⟨d, hd⟩ : ∃ d, v.length = hi + 1 + d := ⟨v.length - (hi + 1), by omega⟩
  induction d generalizing hi with
  | zero =>
    rw [trimRight.eq_def, if_neg (by omega)]
    exact ⟨_, rfl, by omega, Nat.le_refl _, by intro i a _ _ h; omega⟩
  | succ d ih =>
    have hg : v[hi]? = some v[hi] := List.getElem?_eq_getElem h
    rw [trimRight.eq_def, if_pos (by omega), hg, hq]
    dsimp only
    by_cases hl : less q v[hi] = true
    · rw [if_neg (by simp [hl])]
      exact ⟨hi, rfl, Nat.le_refl _, by omega, by intro i a _ _ h; omega⟩
    · rw [if_pos (by simpa using hl)]
      obtain ⟨r, e1, e2, e3, e4⟩ := ih (hi + 1) (by omega) (by omega)
      refine ⟨r, e1, by omega, e3, ?_⟩
      intro i a i1 i2 i3 i4
      by_cases hc : i = hi
      · subst hc; rw [hg] at i4; cases i4; simpa using hl
      · exact e4 i a (by omega) i2 i3 i4

theorem mem_take_idx {v : List α} {m : Nat} {a : α} (h : a ∈ v.take m) :
    ∃ i, i < m ∧ v[i]? = some a := by
  obtain ⟨i, hi⟩ := List.mem_iff_getElem?.mp h
  rw [List.getElem?_take] at hi
  by_cases hc : i < m
  · rw [if_pos hc] at hi; exact ⟨i, hc, hi⟩
  · rw [if_neg hc] at hi; simp at hi

theorem mem_drop_idx {v : List α} {m : Nat} {a : α} (h : a ∈ v.drop m) :
    ∃ i, m ≤ i ∧ v[i]? = some a := by
  obtain ⟨i, hi⟩ := List.mem_iff_getElem?.mp h
  rw [List.getElem?_drop] at hi
  exact ⟨m + i, by omega, hi⟩

/-- Items all equivalent to `p` are sorted. -/
theorem sorted_equiv (hs : StrictWeak less) (p : α) (l : List α)
    (h1 : ∀ a ∈ l, less a p = false) (h2 : ∀ a ∈ l, less p a = false) : Sorted less l := by
  unfold Sorted
  rw [List.pairwise_iff_forall_sublist]
  intro a b hab
  have ha : a ∈ l := hab.subset (by simp)
  have hb : b ∈ l := hab.subset (by simp)
  exact hs.incomp _ _ _ (h1 b hb) (h2 a ha)

theorem sorted_append (hs : StrictWeak less) (p : α) (l r : List α) (hl : Sorted less l)
    (hr : Sorted less r) (h1 : ∀ a ∈ l, less p a = false) (h2 : ∀ b ∈ r, less b p = false) :
    Sorted less (l ++ r) := by
  unfold Sorted at *
  rw [List.pairwise_append]
  exact ⟨hl, hr, fun a ha b hb => hs.incomp _ _ _ (h2 b hb) (h1 a ha)⟩

theorem drop_take_split (v : List α) {m r : Nat} (h : m ≤ r) :
    v.drop m = (v.drop m).take (r - m) ++ v.drop r := by
  have : v.drop r = (v.drop m).drop (r - m) := by
    rw [List.drop_drop]; congr 1; omega
  rw [this, List.take_append_drop]

theorem sort_spec (hirr : ∀ a, less a a = false) (fuel : Nat) (v : List α) (hf : v.length < fuel)
    (hlen : v.length ≤ 2 ^ 31) :
    ∃ v', sort less fuel v = some v' ∧ v'.Perm v ∧ (StrictWeak less → Sorted less v') := by
  induction fuel generalizing v with
  | zero => omega
  | succ fuel ih =>
    simp only [sort]
    by_cases h1 : v.length ≤ 1
    · rw [if_pos h1]
      refine ⟨v, rfl, List.Perm.refl _, fun _ => ?_⟩
      cases v with
      | nil => exact List.Pairwise.nil
      | cons a t =>
        cases t with
        | nil => exact List.pairwise_singleton _ _
        | cons b t => simp at h1
    · rw [if_neg h1]
      have hpl : v.length / 2 < v.length := by omega
      obtain ⟨p, hp⟩ : ∃ p, v[v.length / 2]? = some p := ⟨_, List.getElem?_eq_getElem hpl⟩
      have hinit : PInv less v p 0 (v.length - 1) (v.length / 2) := by
        refine ⟨hp, by omega, by omega, fun _ => by omega, by intro _ i a h; omega, ?_, ?_⟩
        · intro _ j a h1 h2
          have := (List.getElem?_eq_some_iff.mp h2).1
          omega
        · by_cases hc : v.length / 2 < v.length - 1
          · exact Or.inr ⟨by omega, hc⟩
          · refine Or.inl (fun a ha => ?_)
            have : v.length - 1 = v.length / 2 := by omega
            rw [this, hp] at ha; cases ha; exact hirr _
      obtain ⟨v1, m, pv, e1, e2, e3, e4, e5, e6⟩ :=
        partitionLoop_spec hirr v.length v p _ _ _ hinit (by omega)
      have hl1 : v1.length = v.length := e2.length_eq
      rw [e1]
      dsimp only
      rw [if_neg (by omega), if_neg (by omega)]
      obtain ⟨l, t1, t2, t3⟩ := trimLeft_spec (less := less) v1 pv p e5 m (by omega)
      rw [t1]
      dsimp only
      -- the left part
      have hleft : ∃ v2, (if l = 0 then some v1
            else (sort less fuel (v1.take l)).map (· ++ v1.drop l)) = some v2 ∧
          v2.Perm v1 ∧ v2.drop m = v1.drop m ∧
          (∃ q, v2[pv]? = some q ∧ (StrictWeak less → less p q = false)) ∧
          (StrictWeak less → Sorted less (v2.take m) ∧ ∀ a ∈ v2.take m, less p a = false) := by
        by_cases hl : l = 0
        · rw [if_pos hl]
          refine ⟨v1, rfl, List.Perm.refl _, rfl, ⟨p, e5, fun _ => hirr p⟩, fun hs => ⟨?_, ?_⟩⟩
          · subst hl
            have : v1.take m = v1.take 1 ++ (v1.drop 1).take (m - 1) := by
              rw [← List.take_add]; congr 1; omega
            rw [this]
            refine sorted_append hs p _ _ ?_ (sorted_equiv hs p _ ?_ ?_) ?_ ?_
            · unfold Sorted
              cases v1 with
              | nil => exact List.Pairwise.nil
              | cons a t => exact List.pairwise_singleton _ _
            all_goals intro a ha
            · obtain ⟨i, i1, i2⟩ := mem_take_idx ha
              rw [List.getElem?_drop] at i2
              exact t3 _ a (by omega) (by omega) (by omega) i2
            · obtain ⟨i, i1, i2⟩ := mem_take_idx ha
              rw [List.getElem?_drop] at i2
              exact (e6 hs).1 _ a (by omega) i2
            · obtain ⟨i, i1, i2⟩ := mem_take_idx ha
              exact (e6 hs).1 _ a (by omega) i2
            · obtain ⟨i, i1, i2⟩ := mem_take_idx ha
              rw [List.getElem?_drop] at i2
              exact t3 _ a (by omega) (by omega) (by omega) i2
          · intro a ha
            obtain ⟨i, i1, i2⟩ := mem_take_idx ha
            exact (e6 hs).1 _ a i1 i2
        · rw [if_neg hl]
          obtain ⟨w, w1, w2, w3⟩ := ih (v1.take l) (by rw [List.length_take]; omega)
            (by rw [List.length_take]; omega)
          have hwl : w.length = l := by rw [w2.length_eq, List.length_take]; omega
          have hwp : ∀ (_ : StrictWeak less), ∀ a ∈ w, less p a = false := by
            intro hs a ha
            obtain ⟨i, i1, i2⟩ := mem_take_idx (w2.subset ha)
            exact (e6 hs).1 _ a (by omega) i2
          have htake : (w ++ v1.drop l).take m = w ++ (v1.drop l).take (m - l) := by
            rw [List.take_append, hwl, List.take_of_length_le (by omega)]
          refine ⟨w ++ v1.drop l, by rw [w1]; rfl, ?_, ?_, ?_, fun hs => ⟨?_, ?_⟩⟩
          · have := w2.append_right (v1.drop l)
            rwa [List.take_append_drop] at this
          · rw [List.drop_append, hwl, List.drop_eq_nil_of_le (by omega), List.nil_append,
              List.drop_drop]
            congr 1; omega
          · rcases Nat.lt_or_ge pv l with hc | hc
            · have hpw : pv < w.length := by omega
              refine ⟨w[pv], ?_, fun hs => hwp hs _ (List.getElem_mem _)⟩
              rw [List.getElem?_append_left hpw, List.getElem?_eq_getElem hpw]
            · refine ⟨p, ?_, fun _ => hirr p⟩
              rw [List.getElem?_append_right (by omega), hwl, List.getElem?_drop]
              rw [show l + (pv - l) = pv by omega]; exact e5
          · rw [htake]
            refine sorted_append hs p _ _ (w3 hs) (sorted_equiv hs p _ ?_ ?_) (hwp hs) ?_
            all_goals intro a ha
            all_goals obtain ⟨i, i1, i2⟩ := mem_take_idx ha
            all_goals rw [List.getElem?_drop] at i2
            · exact t3 _ a (by omega) (by omega) (by omega) i2
            · exact (e6 hs).1 _ a (by omega) i2
            · exact t3 _ a (by omega) (by omega) (by omega) i2
          · rw [htake]
            intro a ha
            rcases List.mem_append.mp ha with ha | ha
            · exact hwp hs a ha
            · obtain ⟨i, i1, i2⟩ := mem_take_idx ha
              rw [List.getElem?_drop] at i2
              exact (e6 hs).1 _ a (by omega) i2
      obtain ⟨v2, l1, l2, l3, ⟨q, l4, l5⟩, l6⟩ := hleft
      have hl2 : v2.length = v.length := by rw [l2.length_eq, hl1]
      rw [l1]
      dsimp only
      obtain ⟨r, r1, r2, r3, r4⟩ := trimRight_spec (less := less) v2 pv q l4 m (by omega)
      rw [r1]
      dsimp only
      have hge : StrictWeak less → ∀ a ∈ v2.drop m, less a p = false := by
        intro hs a ha
        rw [l3] at ha
        obtain ⟨i, i1, i2⟩ := mem_drop_idx ha
        exact (e6 hs).2 _ a i1 i2
      -- every item of the right part before `r`, except a last one, is equivalent to the pivot
      have heqv : StrictWeak less → ∀ i a, m ≤ i → i < r → i + 1 < v2.length → v2[i]? = some a →
          less p a = false := by
        intro hs i a i1 i2 i3 i4
        exact hs.incomp _ _ _ (l5 hs) (r4 i a i1 i2 i3 i4)
      by_cases hr : r = v2.length
      · rw [if_pos hr]
        refine ⟨v2, rfl, l2.trans e2, fun hs => ?_⟩
        obtain ⟨s1, s2⟩ := l6 hs
        have hsplit : v2 = v2.take m ++ ((v2.drop m).take (v2.length - 1 - m) ++
            v2.drop (v2.length - 1)) := by
          rw [← drop_take_split v2 (by omega), List.take_append_drop]
        rw [hsplit]
        refine sorted_append hs p _ _ s1 (sorted_append hs p _ _ (sorted_equiv hs p _ ?_ ?_) ?_ ?_ ?_)
          s2 ?_
        · intro a ha; exact hge hs a (List.mem_of_mem_take ha)
        · intro a ha
          obtain ⟨i, i1, i2⟩ := mem_take_idx ha
          rw [List.getElem?_drop] at i2
          exact heqv hs _ a (by omega) (by omega) (by omega) i2
        · have : (v2.drop (v2.length - 1)).length = 1 := by rw [List.length_drop]; omega
          obtain ⟨x, hx⟩ := List.length_eq_one_iff.mp this
          rw [hx]; exact List.pairwise_singleton _ _
        · intro a ha
          obtain ⟨i, i1, i2⟩ := mem_take_idx ha
          rw [List.getElem?_drop] at i2
          exact heqv hs _ a (by omega) (by omega) (by omega) i2
        · intro a ha
          apply hge hs
          rw [drop_take_split v2 (show m ≤ v2.length - 1 by omega)]
          exact List.mem_append_right _ ha
        · intro a ha
          rw [← drop_take_split v2 (by omega)] at ha
          exact hge hs a ha
      · rw [if_neg hr]
        obtain ⟨w, w1, w2, w3⟩ := ih (v2.drop r) (by rw [List.length_drop]; omega)
          (by rw [List.length_drop]; omega)
        rw [w1]
        refine ⟨_, rfl, ?_, fun hs => ?_⟩
        · have := w2.append_left (v2.take r)
          rw [List.take_append_drop] at this
          exact this.trans (l2.trans e2)
        · obtain ⟨s1, s2⟩ := l6 hs
          have htk : v2.take r = v2.take m ++ (v2.drop m).take (r - m) := by
            rw [← List.take_add]; congr 1; omega
          dsimp only
          rw [htk, List.append_assoc]
          have hw : ∀ a ∈ w, less a p = false := by
            intro a ha
            apply hge hs
            rw [drop_take_split v2 r2]
            exact List.mem_append_right _ (w2.subset ha)
          have hb1 : ∀ a ∈ (v2.drop m).take (r - m), less p a = false := by
            intro a ha
            obtain ⟨i, i1, i2⟩ := mem_take_idx ha
            rw [List.getElem?_drop] at i2
            exact heqv hs _ a (by omega) (by omega) (by omega) i2
          have hb2 : ∀ a ∈ (v2.drop m).take (r - m), less a p = false := by
            intro a ha
            exact hge hs a (List.mem_of_mem_take ha)
          refine sorted_append hs p _ _ s1
            (sorted_append hs p _ _ (sorted_equiv hs p _ hb2 hb1) (w3 hs) hb1 hw) s2 ?_
          intro a ha
          rcases List.mem_append.mp ha with ha | ha
          · exact hb2 a ha
          · exact hw a ha

end Verif.Sort
