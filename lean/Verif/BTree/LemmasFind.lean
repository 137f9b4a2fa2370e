import Verif.BTree.LemmasCompact
/-!
# Lemmas: searching and stepping
-/
namespace Verif.BTree
open Spec
variable {K V : Type}

theorem lastLessLoop_spec {T : Traits K V} {ls : List (Link K V)} {x : K}
    (mono : ∀ (i j : Nat) a b, i < j → ls[i]? = some a → ls[j]? = some b → T.less b.1 x = true →
      T.less a.1 x = true) (lo hi : Nat) (hlh : lo ≤ hi) (hhi : hi < ls.length)
    (h1 : lo = 0 ∨ ∀ a, ls[lo]? = some a → T.less a.1 x = true)
    (h2 : ∀ (j : Nat) a, hi < j → ls[j]? = some a → T.less a.1 x = false) :
    ∃ r, lastLessLoop T ls x lo hi = some r ∧ r < ls.length ∧
      (r = 0 ∨ ∀ a, ls[r]? = some a → T.less a.1 x = true) ∧
      (∀ (j : Nat) a, r < j → ls[j]? = some a → T.less a.1 x = false) := by
  rw [lastLessLoop]
  by_cases h : lo < hi
  · rw [if_pos h]
    dsimp only
    obtain ⟨v, hv⟩ : ∃ v, ls[(lo + hi + 1) / 2]? = some v :=
      ⟨_, List.getElem?_eq_getElem (by omega)⟩
    rw [hv]
    dsimp only
    by_cases hp : T.less v.1 x = true
    · rw [if_pos hp]
      exact lastLessLoop_spec mono _ hi (by omega) hhi
        (.inr fun a ha => by rw [hv] at ha; cases ha; exact hp) h2
    · rw [if_neg hp]
      refine lastLessLoop_spec mono lo _ (by omega) (by omega) h1 ?_
      intro j a hj ha
      by_cases hj2 : j = (lo + hi + 1) / 2
      · subst hj2; rw [hv] at ha; cases ha; simpa using hp
      · refine Bool.eq_false_iff.2 fun hc => hp (mono _ j v a (by omega) hv ha hc)
  · rw [if_neg h]
    have : lo = hi := by omega
    subst this
    exact ⟨lo, rfl, hhi, h1, h2⟩
termination_by hi - lo

theorem geLoop_spec {T : Traits K V} {xs : List V} {x : K}
    (mono : ∀ (i j : Nat) a b, i < j → xs[i]? = some a → xs[j]? = some b →
      T.less (T.idx b) x = true → T.less (T.idx a) x = true)
    (lo hi : Nat) (hlh : lo ≤ hi) (hhi : hi ≤ xs.length)
    (h1 : ∀ (j : Nat) a, j < lo → xs[j]? = some a → T.less (T.idx a) x = true)
    (h2 : ∀ (j : Nat) a, hi ≤ j → xs[j]? = some a → T.less (T.idx a) x = false) :
    ∃ r, geLoop T xs x lo hi = some r ∧ r ≤ xs.length ∧
      (∀ (j : Nat) a, j < r → xs[j]? = some a → T.less (T.idx a) x = true) ∧
      (∀ (j : Nat) a, r ≤ j → xs[j]? = some a → T.less (T.idx a) x = false) := by
  rw [geLoop]
  by_cases h : lo < hi
  · rw [if_pos h]
    dsimp only
    obtain ⟨v, hv⟩ : ∃ v, xs[(lo + hi) / 2]? = some v :=
      ⟨_, List.getElem?_eq_getElem (by omega)⟩
    rw [hv]
    dsimp only
    by_cases hp : T.less (T.idx v) x = true
    · rw [if_neg (by simp [hp])]
      refine geLoop_spec mono _ hi (by omega) hhi ?_ h2
      intro j a hj ha
      by_cases hj2 : j = (lo + hi) / 2
      · subst hj2; rw [hv] at ha; cases ha; exact hp
      · exact mono j _ a v (by omega) ha hv hp
    · have hp : T.less (T.idx v) x = false := by simpa using hp
      rw [if_pos (by simp [hp])]
      refine geLoop_spec mono lo _ (by omega) (by omega) h1 ?_
      intro j a hj ha
      by_cases hj2 : j = (lo + hi) / 2
      · subst hj2; rw [hv] at ha; cases ha; exact hp
      · refine Bool.eq_false_iff.2 fun hc => ?_
        have := mono _ j v a (by omega) hv ha hc
        rw [hp] at this; cases this
  · rw [if_neg h]
    have : lo = hi := by omega
    subst this
    exact ⟨lo, rfl, hhi, h1, h2⟩
termination_by hi - lo

theorem insLoop_spec {T : Traits K V} {xs : List V} {x : K}
    (mono : ∀ (i j : Nat) a b, i < j → xs[i]? = some a → xs[j]? = some b →
      T.less x (T.idx a) = true → T.less x (T.idx b) = true)
    (lo hi : Nat) (hlh : lo ≤ hi) (hhi : hi ≤ xs.length)
    (h1 : ∀ (j : Nat) a, j < lo → xs[j]? = some a → T.less x (T.idx a) = false)
    (h2 : ∀ (j : Nat) a, hi ≤ j → xs[j]? = some a → T.less x (T.idx a) = true) :
    ∃ r, insLoop T xs x lo hi = some r ∧ r ≤ xs.length ∧
      (∀ (j : Nat) a, j < r → xs[j]? = some a → T.less x (T.idx a) = false) ∧
      (∀ (j : Nat) a, r ≤ j → xs[j]? = some a → T.less x (T.idx a) = true) := by
  rw [insLoop]
  by_cases h : lo < hi
  · rw [if_pos h]
    dsimp only
    obtain ⟨v, hv⟩ : ∃ v, xs[(lo + hi) / 2]? = some v :=
      ⟨_, List.getElem?_eq_getElem (by omega)⟩
    rw [hv]
    dsimp only
    by_cases hp : T.less x (T.idx v) = true
    · rw [if_pos hp]
      refine insLoop_spec mono lo _ (by omega) (by omega) h1 ?_
      intro j a hj ha
      by_cases hj2 : j = (lo + hi) / 2
      · subst hj2; rw [hv] at ha; cases ha; exact hp
      · exact mono _ j v a (by omega) hv ha hp
    · rw [if_neg hp]
      refine insLoop_spec mono _ hi (by omega) hhi ?_ h2
      intro j a hj ha
      by_cases hj2 : j = (lo + hi) / 2
      · subst hj2; rw [hv] at ha; cases ha; simpa using hp
      · refine Bool.eq_false_iff.2 fun hc => ?_
        exact hp (mono j _ a v (by omega) ha hv hc)
  · rw [if_neg h]
    have : lo = hi := by omega
    subst this
    exact ⟨lo, rfl, hhi, h1, h2⟩
termination_by hi - lo

theorem Sorted.get {less : K → K → Bool} {idx : V → K} {l : List V} (h : Sorted less idx l)
    {i j : Nat} {a b : V} (hij : i < j) (ha : l[i]? = some a) (hb : l[j]? = some b) :
    less (idx b) (idx a) = false := by
  obtain ⟨h1, rfl⟩ := List.getElem?_eq_some_iff.1 ha
  obtain ⟨h2, rfl⟩ := List.getElem?_eq_some_iff.1 hb
  exact List.pairwise_iff_getElem.1 h i j h1 h2 hij

theorem Sorted.append {less : K → K → Bool} {idx : V → K} {a b : List V} :
    Sorted less idx (a ++ b) ↔ Sorted less idx a ∧ Sorted less idx b ∧
      ∀ x ∈ a, ∀ y ∈ b, less (idx y) (idx x) = false := List.pairwise_append

theorem less_of_le {less : K → K → Bool} (o : StrictWeak less) {a b x : K} (h : less b a = false)
    (hb : less b x = true) : less a x = true := by
  refine Classical.byContradiction fun hc => ?_
  have hc : less a x = false := by simpa using hc
  have := o.negTrans b a x h hc
  rw [this] at hb; cases hb

theorem less_of_le' {less : K → K → Bool} (o : StrictWeak less) {a b x : K} (h : less b a = false)
    (hb : less x a = true) : less x b = true := by
  refine Classical.byContradiction fun hc => ?_
  have hc : less x b = false := by simpa using hc
  have := o.negTrans x b a hc h
  rw [this] at hb; cases hb

theorem greaterOrEqualPos_spec {T : Traits K V} (o : StrictWeak T.less) {xs : List V} (x : K)
    (hs : Sorted T.less T.idx xs) :
    ∃ r, greaterOrEqualPos T xs x = some r ∧ r ≤ xs.length ∧
      (∀ a ∈ xs.take r, T.less (T.idx a) x = true) ∧
      (∀ a ∈ xs.drop r, T.less (T.idx a) x = false) := by
  obtain ⟨r, h1, h2, h3, h4⟩ := geLoop_spec (T := T) (xs := xs) (x := x)
    (fun i j a b hij ha hb hl => less_of_le o (Sorted.get hs hij ha hb) hl) 0 xs.length (by omega) (by omega)
    (by intro j a hj; omega)
    (by intro j a hj ha; have := (List.getElem?_eq_some_iff.1 ha).1; omega)
  refine ⟨r, h1, h2, ?_, ?_⟩
  · intro a ha
    obtain ⟨j, hj, rfl⟩ := List.getElem_of_mem ha
    have hj' : j < r := by simp at hj; omega
    refine h3 j _ hj' ?_
    simp [List.getElem_take]
  · intro a ha
    obtain ⟨j, hj, rfl⟩ := List.getElem_of_mem ha
    refine h4 (r + j) _ (by omega) ?_
    simp [List.getElem_drop]

theorem insertPos_spec {T : Traits K V} (o : StrictWeak T.less) {xs : List V} (x : K)
    (hs : Sorted T.less T.idx xs) :
    ∃ r, insertPos T xs x = some r ∧ r ≤ xs.length ∧
      (∀ a ∈ xs.take r, T.less x (T.idx a) = false) ∧
      (∀ a ∈ xs.drop r, T.less x (T.idx a) = true) := by
  obtain ⟨r, h1, h2, h3, h4⟩ := insLoop_spec (T := T) (xs := xs) (x := x)
    (fun i j a b hij ha hb hl => less_of_le' o (Sorted.get hs hij ha hb) hl) 0 xs.length (by omega) (by omega)
    (by intro j a hj; omega)
    (by intro j a hj ha; have := (List.getElem?_eq_some_iff.1 ha).1; omega)
  refine ⟨r, h1, h2, ?_, ?_⟩
  · intro a ha
    obtain ⟨j, hj, rfl⟩ := List.getElem_of_mem ha
    have hj' : j < r := by simp at hj; omega
    refine h3 j _ hj' ?_
    simp [List.getElem_take]
  · intro a ha
    obtain ⟨j, hj, rfl⟩ := List.getElem_of_mem ha
    refine h4 (r + j) _ (by omega) ?_
    simp [List.getElem_drop]

theorem childAt_good {T : Traits K V} {h : Nat} {k : K} {ls : List (Link K V)} {c : Ctx K V}
    {pos : Nat} (hp : pos < ls.length) (hc : CGood T (h + 1) k c) (g : Good T (h + 1) (.inner ls))
    (gk : firstIndex T (.inner ls) = some k) :
    ∃ n f, childAt ls pos = some (n, f) ∧ Good T h n ∧ firstIndex T n = some f.key ∧
      CGood T h f.key (f :: c) ∧ zip n (f :: c) = zip (.inner ls) c ∧
      ls = f.left ++ (f.key, n) :: f.right ∧ f.left.length = pos := by
  obtain ⟨hne, hcap, hl⟩ := Good.inner_iff.1 g
  have e : ls = ls.take pos ++ ls[pos] :: ls.drop (pos + 1) := by simp
  generalize hla : ls.take pos = a at e
  generalize hlb : ls.drop (pos + 1) = b at e
  generalize hlx : ls[pos] = x at e
  have hal : a.length = pos := by rw [← hla]; simp; omega
  have e1 : childAt ls pos = some (x.2, ⟨a, x.1, b⟩) := by
    have := childAt_mid a x b
    rw [← e, hal] at this
    exact this
  rw [e] at hl
  obtain ⟨h1, h2⟩ := LGood.append.1 hl
  obtain ⟨⟨h3, h4⟩, h5⟩ := LGood.cons.1 h2
  refine ⟨_, _, e1, h3, h4, ⟨rfl, h1, h5, ?_, ?_⟩, ?_, e, hal⟩
  · rw [e] at hcap; simp at hcap ⊢; omega
  · have : headKey a x.1 = k := by
      rw [e] at gk
      cases a <;> exact Option.some.inj gk
    dsimp only
    rw [this]; exact hc
  · show zip (.inner (a ++ (x.1, x.2) :: b)) c = _
    rw [show ((x.1, x.2) : Link K V) = x from rfl, ← e]

/-- What a search arrives at: a leaf at its place in the same tree. -/
structure Place (T : Traits K V) (root : Node K V) (items : List V) (c : Ctx K V) : Prop where
  zip : zip (.leaf items) c = root
  ne : items ≠ []
  cap : items.length ≤ T.cap
  ctx : ∃ k, firstIndex T (.leaf items : Node K V) = some k ∧ CGood T 0 k c

theorem Place.flat {T : Traits K V} {root items c} (p : Place T root items c) :
    flat root = before c ++ items ++ after c := by
  rw [← p.zip, flat_zip, flat_leaf]

theorem descend_spec {T : Traits K V} (o : StrictWeak T.less) {x : K} {h : Nat} {n : Node K V}
    {c : Ctx K V} {k : K} (g : Good T h n) (gk : firstIndex T n = some k) (hc : CGood T h k c)
    (hs : Sorted T.less T.idx (flat n))
    (hb : ∀ v ∈ before c, T.less (T.idx v) x = true)
    (ha : ∀ v ∈ after c, T.less (T.idx v) x = false) :
    ∃ items c', descend T x n c = some (items, c') ∧ Place T (zip n c) items c' ∧
      (∀ v ∈ before c', T.less (T.idx v) x = true) ∧
      (∀ v ∈ after c', T.less (T.idx v) x = false) := by
  induction h generalizing n c k with
  | zero =>
    obtain ⟨xs, rfl, h1, h2⟩ := g.zero
    exact ⟨xs, c, by rw [descend], ⟨rfl, h1, h2, k, gk, hc⟩, hb, ha⟩
  | succ h ih =>
    obtain ⟨ls, rfl, h1, h2, h3⟩ := g.succ
    rw [descend.eq_def]
    dsimp only
    have hlen : 0 < ls.length := List.length_pos_iff.2 h1
    -- every item of a link, in terms of keys
    have hsl : ∀ (i j : Nat) a b, i < j → ls[i]? = some a → ls[j]? = some b → ∀ v ∈ flat a.2,
        ∀ w ∈ flat b.2, T.less (T.idx w) (T.idx v) = false := by
      intro i j a b hij hia hjb v hv w hw
      obtain ⟨hi, rfl⟩ := List.getElem?_eq_some_iff.1 hia
      obtain ⟨hj, rfl⟩ := List.getElem?_eq_some_iff.1 hjb
      have e : ls = ls.take j ++ ls.drop j := by simp
      have e2 : flats ls = flats (ls.take j) ++ flats (ls.drop j) := by
        rw [← flats_append]; simp
      rw [flat_inner, e2] at hs
      refine (Sorted.append.1 hs).2.2 v (List.mem_flatMap.2 ⟨ls[i], ?_, hv⟩) w
        (List.mem_flatMap.2 ⟨ls[j], ?_, hw⟩)
      · exact List.mem_take_iff_getElem.2 ⟨i, by omega, rfl⟩
      · exact List.mem_drop_iff_getElem.2 ⟨0, by omega, rfl⟩
    have key : ∀ (i : Nat) a, ls[i]? = some a → ∃ v vs, flat a.2 = v :: vs ∧ T.idx v = a.1 := by
      intro i a hia
      obtain ⟨q1, q2⟩ := h3 a (List.mem_of_getElem? hia)
      obtain ⟨v, vs, q3, q4⟩ := q1.first
      rw [q2] at q4
      exact ⟨v, vs, q3, (Option.some.inj q4).symm⟩
    obtain ⟨r, r1, r2, r3, r4⟩ := lastLessLoop_spec (T := T) (ls := ls) (x := x)
      (by
        intro i j a b hij hia hjb hl
        obtain ⟨v, vs, e1, e2⟩ := key i a hia
        obtain ⟨w, ws, e3, e4⟩ := key j b hjb
        have := hsl i j a b hij hia hjb v (by simp [e1]) w (by simp [e3])
        rw [e2, e4] at this
        exact less_of_le o this hl) 0 (ls.length - 1) (by omega) (by omega) (.inl rfl)
      (by intro j a hj ha; have := (List.getElem?_eq_some_iff.1 ha).1; omega)
    have e : lastChildLessThan T ls x = some r := by
      unfold lastChildLessThan; rw [if_pos hlen]; exact r1
    rw [e]
    dsimp only
    obtain ⟨m, f, m1, m2, m3, m4, m5, m6, m7⟩ := childAt_good r2 hc g gk
    split
    · next e' => rw [m1] at e'; cases e'
    · next r' e' =>
      rw [m1] at e'; cases e'
      dsimp only
      have hrm : ls[r]? = some (f.key, m) := by rw [m6, ← m7]; simp
      have hsm : Sorted T.less T.idx (flat m) := by
        rw [flat_inner, m6] at hs
        simp only [flats_append, flats_cons] at hs
        exact (Sorted.append.1 (Sorted.append.1 hs).2.1).1
      have key' := ih m2 m3 m4 hsm ?_ ?_
      · obtain ⟨items, c', k1, k2, k3, k4⟩ := key'
        rw [m5] at k2
        exact ⟨items, c', k1, k2, k3, k4⟩
      · intro v hv
        rw [before] at hv
        rcases List.mem_append.1 hv with hv | hv
        · exact hb v hv
        · obtain ⟨l, hl, hlv⟩ := List.mem_flatMap.1 hv
          obtain ⟨i, hi, rfl⟩ := List.getElem_of_mem hl
          have hi' : ls[i]? = some f.left[i] := by
            rw [m6, List.getElem?_append_left hi]; simp
          rcases r3 with r3 | r3
          · omega
          · obtain ⟨w, ws, e3, e4⟩ := key r _ hrm
            have := hsl i r _ _ (by omega) hi' hrm v hlv w (by simp [e3])
            refine less_of_le o this ?_
            rw [e4]; exact r3 _ hrm
      · intro v hv
        rw [after] at hv
        rcases List.mem_append.1 hv with hv | hv
        · obtain ⟨l, hl, hlv⟩ := List.mem_flatMap.1 hv
          obtain ⟨i, hi, rfl⟩ := List.getElem_of_mem hl
          have hi' : ls[r + 1 + i]? = some f.right[i] := by
            rw [m6, List.getElem?_append_right (by omega), m7,
              show r + 1 + i - r = i + 1 by omega]
            simp
          have hlt := r4 (r + 1 + i) _ (by omega) hi'
          obtain ⟨w, ws, e3, e4⟩ := key _ _ hi'
          rw [← e4] at hlt
          -- w is the first of that child
          have hvw : T.less (T.idx v) (T.idx w) = false := by
            have hs' : Sorted T.less T.idx (flat f.right[i].2) := by
              have : f.right[i] ∈ ls := by rw [m6]; simp
              obtain ⟨p, q, epq⟩ := List.append_of_mem this
              rw [flat_inner, epq] at hs
              simp only [flats_append, flats_cons] at hs
              exact (Sorted.append.1 (Sorted.append.1 hs).2.1).1
            rw [e3] at hs' hlv
            rcases List.mem_cons.1 hlv with rfl | hv2
            · exact o.irrefl _
            · exact (List.pairwise_cons.1 hs').1 v hv2
          exact o.negTrans _ _ _ hvw hlt
        · exact ha v hv

theorem leftmost_spec {T : Traits K V} {h : Nat} {n : Node K V} {c : Ctx K V} {k : K}
    (g : Good T h n) (gk : firstIndex T n = some k) (hc : CGood T h k c) :
    ∃ items c', leftmost n c = some (items, c') ∧ Place T (zip n c) items c' ∧ before c' = before c := by
  induction h generalizing n c k with
  | zero =>
    obtain ⟨xs, rfl, h1, h2⟩ := g.zero
    exact ⟨xs, c, by rw [leftmost], ⟨rfl, h1, h2, k, gk, hc⟩, rfl⟩
  | succ h ih =>
    obtain ⟨ls, rfl, h1, h2, h3⟩ := g.succ
    rw [leftmost.eq_def]
    dsimp only
    obtain ⟨m, f, m1, m2, m3, m4, m5, m6, m7⟩ := childAt_good (List.length_pos_iff.2 h1) hc g gk
    split
    · next e' => rw [m1] at e'; cases e'
    · next r' e' =>
      rw [m1] at e'; cases e'
      dsimp only
      obtain ⟨items, c', k1, k2, k3⟩ := ih m2 m3 m4
      rw [m5] at k2
      refine ⟨items, c', k1, k2, ?_⟩
      rw [k3, before, List.length_eq_zero_iff.1 m7]; simp

theorem rightmost_spec {T : Traits K V} {h : Nat} {n : Node K V} {c : Ctx K V} {k : K}
    (g : Good T h n) (gk : firstIndex T n = some k) (hc : CGood T h k c) :
    ∃ items c', rightmost n c = some (items, c') ∧ Place T (zip n c) items c' ∧ after c' = after c := by
  induction h generalizing n c k with
  | zero =>
    obtain ⟨xs, rfl, h1, h2⟩ := g.zero
    exact ⟨xs, c, by rw [rightmost], ⟨rfl, h1, h2, k, gk, hc⟩, rfl⟩
  | succ h ih =>
    obtain ⟨ls, rfl, h1, h2, h3⟩ := g.succ
    rw [rightmost.eq_def]
    dsimp only
    have hlen : 0 < ls.length := List.length_pos_iff.2 h1
    obtain ⟨m, f, m1, m2, m3, m4, m5, m6, m7⟩ :=
      childAt_good (show ls.length - 1 < ls.length by omega) hc g gk
    split
    · next e' => rw [m1] at e'; cases e'
    · next r' e' =>
      rw [m1] at e'; cases e'
      dsimp only
      obtain ⟨items, c', k1, k2, k3⟩ := ih m2 m3 m4
      rw [m5] at k2
      refine ⟨items, c', k1, k2, ?_⟩
      have : f.right = [] := by
        have := congrArg List.length m6
        simp at this
        exact List.length_eq_zero_iff.1 (by omega)
      rw [k3, after, this]; simp

theorem climbRight_spec {T : Traits K V} {h : Nat} {n : Node K V} {c : Ctx K V} {k : K}
    (g : Good T h n) (gk : firstIndex T n = some k) (hc : CGood T h k c) :
    (climbRight n c = none ∧ after c = []) ∨
    ∃ n' c' h' k', climbRight n c = some (n', c') ∧ Good T h' n' ∧ firstIndex T n' = some k' ∧
      CGood T h' k' c' ∧ zip n' c' = zip n c ∧ before c' = before c ++ flat n := by
  induction c generalizing n h k with
  | nil => exact .inl ⟨rfl, rfl⟩
  | cons f fs ih =>
    rw [climbRight]
    have hc0 := hc
    obtain ⟨left, key, right⟩ := f
    cases right with
    | nil =>
      obtain ⟨g1, g2⟩ := Frame.inner_good hc g gk
      rcases ih g1 g2 hc.2.2.2.2 with ⟨e1, e2⟩ | ⟨n', c', h', k', e1, e2, e3, e4, e5, e6⟩
      · exact .inl ⟨e1, by simp [after, e2]⟩
      · exact .inr ⟨n', c', h', k', e1, e2, e3, e4, e5, by simp [e6, before, Frame.links]⟩
    | cons r rs =>
      obtain ⟨-, s2, s3, s4, s5⟩ := stepRight_good hc0 g gk (kr := r.1) (r := r.2) (rs := rs) rfl
      refine .inr ⟨_, _, h, r.1, rfl, s3, s4, s2, ?_, s5⟩
      show zip (.inner (left ++ [(key, n)] ++ (r.1, r.2) :: rs)) fs = _
      rw [List.append_assoc]; rfl

theorem climbLeft_spec {T : Traits K V} {h : Nat} {n : Node K V} {c : Ctx K V} {k : K}
    (g : Good T h n) (gk : firstIndex T n = some k) (hc : CGood T h k c) :
    (climbLeft n c = none ∧ before c = []) ∨
    ∃ n' c' h' k', climbLeft n c = some (n', c') ∧ Good T h' n' ∧ firstIndex T n' = some k' ∧
      CGood T h' k' c' ∧ zip n' c' = zip n c ∧ after c' = flat n ++ after c := by
  induction c generalizing n h k with
  | nil => exact .inl ⟨rfl, rfl⟩
  | cons f fs ih =>
    rw [climbLeft]
    rcases hl : f.left.getLast? with _ | l
    · obtain ⟨g1, g2⟩ := Frame.inner_good hc g gk
      have hnil := List.getLast?_eq_none_iff.1 hl
      rcases ih g1 g2 hc.2.2.2.2 with ⟨e1, e2⟩ | ⟨n', c', h', k', e1, e2, e3, e4, e5, e6⟩
      · exact .inl ⟨e1, by simp [before, e2, hnil]⟩
      · exact .inr ⟨n', c', h', k', e1, e2, e3, e4, e5, by simp [e6, after, Frame.links, hnil]⟩
    · obtain ⟨ys, e⟩ := List.getLast?_eq_some_iff.1 hl
      obtain ⟨left, key, right⟩ := f
      dsimp only at e hl
      subst e
      obtain ⟨rfl, q1, q2, q3, q4⟩ := hc
      dsimp only at q1 q2 q3 q4
      obtain ⟨q5, q6⟩ := LGood.append.1 q1
      obtain ⟨⟨q7, q8⟩, -⟩ := LGood.cons.1 q6
      refine .inr ⟨_, _, h, l.1, rfl, q7, q8, ⟨rfl, ?_, ?_, ?_, ?_⟩, ?_, ?_⟩
      · simpa using q5
      · exact LGood.cons.2 ⟨⟨g, gk⟩, q2⟩
      · simp at q3 ⊢; omega
      · dsimp only
        rw [List.dropLast_concat]
        rw [headKey_append] at q4
        exact q4
      · show zip (.inner ((ys ++ [l]).dropLast ++ (l.1, l.2) :: (key, n) :: right)) fs =
          zip (.inner ((ys ++ [l]) ++ (key, n) :: right)) fs
        rw [List.dropLast_concat, List.append_assoc]; rfl
      · simp [after]

theorem Place.good {T : Traits K V} {root items c} (p : Place T root items c) :
    Good T 0 (.leaf items : Node K V) := ⟨p.ne, p.cap⟩

theorem rightSibling_spec {T : Traits K V} {root : Node K V} {items : List V} {c : Ctx K V}
    (p : Place T root items c) :
    (rightSibling items c = some none ∧ after c = []) ∨
    ∃ items' c', rightSibling items c = some (some (items', c')) ∧ Place T root items' c' ∧
      before c' = before c ++ items := by
  obtain ⟨k, hk, hc⟩ := p.ctx
  unfold rightSibling
  rcases climbRight_spec p.good hk hc with ⟨e1, e2⟩ | ⟨n', c', h', k', e1, e2, e3, e4, e5, e6⟩
  · rw [e1]; exact .inl ⟨rfl, e2⟩
  · rw [e1]
    obtain ⟨i, c'', d1, d2, d3⟩ := leftmost_spec e2 e3 e4
    dsimp only
    rw [d1]
    rw [e5, p.zip] at d2
    exact .inr ⟨i, c'', rfl, d2, by rw [d3, e6]; simp⟩

theorem leftSibling_spec {T : Traits K V} {root : Node K V} {items : List V} {c : Ctx K V}
    (p : Place T root items c) :
    (leftSibling items c = some none ∧ before c = []) ∨
    ∃ items' c', leftSibling items c = some (some (items', c')) ∧ Place T root items' c' ∧
      after c' = items ++ after c := by
  obtain ⟨k, hk, hc⟩ := p.ctx
  unfold leftSibling
  rcases climbLeft_spec p.good hk hc with ⟨e1, e2⟩ | ⟨n', c', h', k', e1, e2, e3, e4, e5, e6⟩
  · rw [e1]; exact .inl ⟨rfl, e2⟩
  · rw [e1]
    obtain ⟨i, c'', d1, d2, d3⟩ := rightmost_spec e2 e3 e4
    dsimp only
    rw [d1]
    rw [e5, p.zip] at d2
    exact .inr ⟨i, c'', rfl, d2, by rw [d3, e6]; simp⟩

end Verif.BTree
