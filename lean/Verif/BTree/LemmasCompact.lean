import Verif.BTree.Lemmas
/-!
# Lemmas: deleting links and merging nodes
-/
namespace Verif.BTree
open Spec
variable {K V : Type}

/-- A node of height `h` that has become empty. -/
def Empty : Nat → Node K V → Prop
  | 0, .leaf xs => xs = []
  | _ + 1, .inner ls => ls = []
  | _, _ => False

theorem Empty.flat {h : Nat} {n : Node K V} (e : Empty h n) : flat n = [] ∧ n.size = 0 := by
  cases h <;> cases n <;> simp [Empty] at e <;> subst e <;> simp [Node.size]

theorem deleteLink_mid {T : Traits K V} {h : Nat} {k : K} {pre post : List (Link K V)} {l : Link K V}
    {c : Ctx K V} (hc : CGood T h k c) (hk : headKey (pre ++ [l]) k = k) :
    ∃ c', deleteLink (pre ++ l :: post) pre.length c = some (pre ++ post, c') ∧
      before c' = before c ∧ after c' = after c ∧
      CGood T h (headKey (pre ++ post) k) c' := by
  have he : (pre ++ l :: post).eraseIdx pre.length = pre ++ post := by
    rw [List.eraseIdx_append_of_length_le (Nat.le_refl _)]; simp
  unfold deleteLink
  rw [if_pos (by simp)]
  dsimp only
  rw [he]
  cases pre with
  | nil =>
    cases post with
    | nil => exact ⟨c, rfl, rfl, rfl, hc⟩
    | cons p ps =>
      obtain ⟨h1, h2, h3⟩ := updateIndexInParent_good (k' := p.1) hc
      exact ⟨_, rfl, h2, h3, h1⟩
  | cons p ps =>
    refine ⟨c, ?_, rfl, rfl, ?_⟩
    · show some (_, if (ps.length + 1) = 0 then _ else c) = _
      rw [if_neg (by omega)]
    · rw [List.cons_append] at hk ⊢
      rw [headKey_cons] at hk ⊢
      rw [hk]; exact hc

theorem merge_good {T : Traits K V} {h : Nat} {l r : Node K V} {k : K} (gl : Good T h l)
    (hl : firstIndex T l = some k) (gr : Good T h r) (hc : l.size + r.size ≤ T.cap) :
    ∃ m, merge T l r = some m ∧ Good T h m ∧ firstIndex T m = some k ∧ flat m = flat l ++ flat r := by
  unfold merge
  rw [if_pos hc]
  cases h with
  | zero =>
    obtain ⟨xs, rfl, h1, h2⟩ := gl.zero
    obtain ⟨ys, rfl, h3, h4⟩ := gr.zero
    refine ⟨_, rfl, ⟨by simp [h1], ?_⟩, ?_, by simp⟩
    · simpa [Node.size] using hc
    · cases xs with
      | nil => exact absurd rfl h1
      | cons => exact hl
  | succ h =>
    obtain ⟨xs, rfl, h1, h2, h5⟩ := gl.succ
    obtain ⟨ys, rfl, h3, h4, h6⟩ := gr.succ
    refine ⟨_, rfl, Good.inner_iff.2 ⟨by simp [h1], ?_, LGood.append.2 ⟨h5, h6⟩⟩, ?_, by simp⟩
    · simpa [Node.size] using hc
    · cases xs with
      | nil => exact absurd rfl h1
      | cons => exact hl

theorem Good.isLeaf_eq {T : Traits K V} {h : Nat} {a b : Node K V} (ga : Good T h a)
    (gb : Good T h b) : a.isLeaf = b.isLeaf := by
  cases h with
  | zero =>
    obtain ⟨xs, rfl, -⟩ := ga.zero
    obtain ⟨ys, rfl, -⟩ := gb.zero
    rfl
  | succ h =>
    obtain ⟨xs, rfl, -⟩ := ga.succ
    obtain ⟨ys, rfl, -⟩ := gb.succ
    rfl

/-- What becomes of the root: the same items, in a well-formed tree or none at all. -/
def Result (T : Traits K V) (l : List V) (t : Option (Tree K V)) : Prop :=
  (t = some none ∧ l = []) ∨ ∃ r h, t = some (some r) ∧ Good T h r ∧ flat r = l

theorem compactRight_good {T : Traits K V} {fs : Ctx K V} {h : Nat} {k : K} {n : Node K V}
    {f : Frame K V} (hc : CGood T h k (f :: fs)) (g : Good T h n) (gk : firstIndex T n = some k) :
    compactRight T n f fs = some none ∨
    ∃ ls c' k', compactRight T n f fs = some (some (ls, c')) ∧ CGood T (h + 1) k' c' ∧
      Good T (h + 1) (.inner ls) ∧ firstIndex T (.inner ls) = some k' ∧
      before c' ++ flats ls ++ after c' = before (f :: fs) ++ flat n ++ after (f :: fs) := by
  obtain ⟨hk, hl, hr, hcap, hfs⟩ := hc
  obtain ⟨left, key, right⟩ := f
  obtain rfl : key = k := hk
  dsimp only at hl hr hcap hfs
  unfold compactRight
  dsimp only [Frame.links]
  cases right with
  | nil => exact .inl rfl
  | cons r rs =>
    obtain ⟨⟨g1, g2⟩, g3⟩ := LGood.cons.1 hr
    dsimp only [List.head?_cons]
    rw [if_neg (by rw [g.isLeaf_eq g1]; simp)]
    by_cases hs : n.size + r.2.size ≤ T.cap
    · rw [if_pos hs]
      obtain ⟨m, e1, e2, e3, e4⟩ := merge_good g gk g1 hs
      rw [e1]
      dsimp only
      have es : (left ++ (key, n) :: r :: rs).set left.length (key, m) =
          (left ++ [(key, m)]) ++ r :: rs := by
        rw [List.set_append_right _ _ (Nat.le_refl _)]; simp
      have el : left.length + 1 = (left ++ [(key, m)]).length := by simp
      rw [es, el]
      obtain ⟨c', d1, d2, d3, d4⟩ := deleteLink_mid (pre := left ++ [(key, m)]) (l := r)
        (post := rs) hfs (by cases left <;> simp)
      rw [d1]
      have hk' : headKey (left ++ [(key, m)] ++ rs) (headKey left key) = headKey left key := by
        cases left <;> simp
      rw [hk'] at d4
      refine .inr ⟨_, c', headKey left key, rfl, d4, ?_, by cases left <;> rfl, ?_⟩
      · exact Good.inner_iff.2 ⟨by simp, by simp at hcap ⊢; omega,
          LGood.append.2 ⟨LGood.append.2 ⟨hl, LGood.cons.2 ⟨⟨e2, e3⟩, LGood.nil⟩⟩, g3⟩⟩
      · rw [d2, d3]
        simp [before, after, e4]
    · rw [if_neg hs]
      exact .inl rfl

theorem compactStep_good {T : Traits K V} {fs : Ctx K V} {h : Nat} {k : K} {n : Node K V}
    {f : Frame K V} (hc : CGood T h k (f :: fs)) (g : Good T h n) (gk : firstIndex T n = some k) :
    compactStep T n f fs = some none ∨
    ∃ ls c' k', compactStep T n f fs = some (some (ls, c')) ∧ CGood T (h + 1) k' c' ∧
      Good T (h + 1) (.inner ls) ∧ firstIndex T (.inner ls) = some k' ∧
      before c' ++ flats ls ++ after c' = before (f :: fs) ++ flat n ++ after (f :: fs) := by
  have tryR := compactRight_good hc g gk
  unfold compactStep
  rw [if_neg (by have := g.size_pos; omega)]
  obtain ⟨hk, hl, hr, hcap, hfs⟩ := hc
  obtain ⟨left, key, right⟩ := f
  obtain rfl : key = k := hk
  dsimp only at hl hr hcap hfs
  dsimp only [Frame.links]
  rcases hlast : left.getLast? with _ | l
  · exact tryR
  · dsimp only
    obtain ⟨left', rfl⟩ : ∃ left', left = left' ++ [l] := by
      rw [List.getLast?_eq_some_iff] at hlast
      obtain ⟨ys, e⟩ := hlast
      exact ⟨ys, e⟩
    obtain ⟨g0, g1⟩ := LGood.append.1 hl
    obtain ⟨⟨g1, g2⟩, -⟩ := LGood.cons.1 g1
    rw [if_neg (by rw [g.isLeaf_eq g1]; simp)]
    by_cases hs : n.size + l.2.size ≤ T.cap
    · rw [if_pos hs]
      obtain ⟨m, e1, e2, e3, e4⟩ := merge_good g1 g2 g (by omega)
      rw [e1]
      dsimp only
      have es : (left' ++ [l] ++ (key, n) :: right).set ((left' ++ [l]).length - 1) (l.1, m) =
          (left' ++ [(l.1, m)]) ++ (key, n) :: right := by
        rw [List.append_assoc, List.set_append_right _ _ (by simp)]; simp
      have el : (left' ++ [l]).length = (left' ++ [(l.1, m)]).length := by simp
      rw [es, el]
      have hk0 : headKey (left' ++ [l]) key = headKey left' l.1 := by cases left' <;> simp
      rw [hk0] at hfs
      obtain ⟨c', d1, d2, d3, d4⟩ := deleteLink_mid (pre := left' ++ [(l.1, m)]) (l := (key, n))
        (post := right) hfs (by cases left' <;> simp)
      rw [d1]
      have hk' : headKey (left' ++ [(l.1, m)] ++ right) (headKey left' l.1) = headKey left' l.1 := by
        cases left' <;> simp
      rw [hk'] at d4
      refine .inr ⟨_, c', headKey left' l.1, rfl, d4, ?_, by cases left' <;> rfl, ?_⟩
      · exact Good.inner_iff.2 ⟨by simp, by simp at hcap ⊢; omega,
          LGood.append.2 ⟨LGood.append.2 ⟨g0, LGood.cons.2 ⟨⟨e2, e3⟩, LGood.nil⟩⟩, hr⟩⟩
      · rw [d2, d3]
        simp [before, after, e4]
    · rw [if_neg hs]
      exact tryR

theorem compactStep_empty {T : Traits K V} {fs : Ctx K V} {h : Nat} {k : K} {n : Node K V}
    {f : Frame K V} (hc : CGood T h k (f :: fs)) (g : Empty h n) :
    ∃ ls c' k', compactStep T n f fs = some (some (ls, c')) ∧ CGood T (h + 1) k' c' ∧
      (Good T (h + 1) (.inner ls) ∧ firstIndex T (.inner ls) = some k' ∨ Empty (h + 1) (.inner ls)) ∧
      before c' ++ flats ls ++ after c' = before (f :: fs) ++ flat n ++ after (f :: fs) := by
  unfold compactStep
  rw [if_pos g.flat.2]
  obtain ⟨hk, hl, hr, hcap, hfs⟩ := hc
  obtain ⟨left, key, right⟩ := f
  obtain rfl : key = k := hk
  dsimp only at hl hr hcap hfs
  dsimp only [Frame.links]
  obtain ⟨c', d1, d2, d3, d4⟩ := deleteLink_mid (pre := left) (l := (key, n)) (post := right)
    hfs (by cases left <;> simp)
  rw [d1]
  refine ⟨_, c', _, rfl, d4, ?_, ?_⟩
  · cases hlr : left ++ right with
    | nil => exact .inr rfl
    | cons x xs =>
      refine .inl ⟨?_, rfl⟩
      rw [← hlr]
      exact Good.inner_iff.2 ⟨by simp [hlr], by simp; omega, LGood.append.2 ⟨hl, hr⟩⟩
  · rw [d2, d3]
    simp [before, after, g.flat.1]

theorem tryCompact_good {T : Traits K V} {c : Ctx K V} {h : Nat} {k : K} {n : Node K V}
    (hc : CGood T h k c) (g : (Good T h n ∧ firstIndex T n = some k) ∨ Empty h n) :
    Result T (before c ++ flat n ++ after c) (tryCompact T n c) := by
  generalize hlen : c.length = len
  induction len generalizing c h k n with
  | zero =>
    obtain rfl := List.length_eq_zero_iff.1 hlen
    rw [tryCompact.eq_def]
    dsimp only
    rcases g with ⟨g, _⟩ | g
    · rw [if_neg (by have := g.size_pos; omega)]
      cases h with
      | zero =>
        obtain ⟨xs, rfl, h1, h2⟩ := g.zero
        exact .inr ⟨_, 0, rfl, g, by simp [before, after]⟩
      | succ h =>
        obtain ⟨xs, rfl, h1, h2, h3⟩ := g.succ
        match xs, h1, g with
        | [l], _, _ =>
          exact .inr ⟨l.2, h, rfl, (h3 l (by simp)).1, by simp [before, after]⟩
        | _ :: _ :: _, _, g => exact .inr ⟨_, h + 1, rfl, g, by simp [before, after]⟩
    · rw [if_pos g.flat.2]
      exact .inl ⟨rfl, by simp [before, after, g.flat.1]⟩
  | succ len ih =>
    obtain ⟨f, fs, rfl⟩ := List.exists_cons_of_length_eq_add_one hlen
    have hlen' : fs.length = len := by simpa using hlen
    rw [tryCompact.eq_def]
    dsimp only
    rcases g with ⟨g, gk⟩ | g
    · rcases compactStep_good hc g gk with e | ⟨ls, c', k', e, h1, h2, h3, h4⟩
      · split
        · next e' => rw [e] at e'; cases e'
        · exact .inr ⟨_, _, rfl, zip_good hc g gk, flat_zip _ _⟩
        · next e' => rw [e] at e'; cases e'
      · split
        · next e' => rw [e] at e'; cases e'
        · next e' => rw [e] at e'; cases e'
        · next r e' =>
          have hl := compactStep_length e'
          rw [e] at e'; cases e'
          have := ih h1 (.inl ⟨h2, h3⟩) (by dsimp only at hl; omega)
          rw [flat_inner, h4] at this
          exact this
    · obtain ⟨ls, c', k', e, h1, h2, h4⟩ := compactStep_empty hc g
      split
      · next e' => rw [e] at e'; cases e'
      · next e' => rw [e] at e'; cases e'
      · next r e' =>
        have hl := compactStep_length e'
        rw [e] at e'; cases e'
        have := ih h1 h2 (by dsimp only at hl; omega)
        rw [flat_inner, h4] at this
        exact this

end Verif.BTree
