import Verif.BTree.Spec
/-!
# Lemmas: contexts, keys and splitting
-/
namespace Verif.BTree
open Spec
variable {K V : Type}

/-- The items below a node, in order. -/
def flat (n : Node K V) : List V :=
  match n with
  | .leaf items => items
  | .inner links => links.attach.flatMap fun l => flat l.1.2
termination_by sizeOf n
decreasing_by
  have h2 := List.sizeOf_lt_of_mem l.2
  obtain ⟨⟨a, b⟩, h⟩ := l
  simp at h2 ⊢
  omega

/-- The items below some links. -/
def flats (ls : List (Link K V)) : List V := ls.flatMap fun l => flat l.2

@[simp] theorem flat_leaf (xs : List V) : flat (.leaf xs : Node K V) = xs := by rw [flat]

@[simp] theorem flat_inner (ls : List (Link K V)) : flat (.inner ls) = flats ls := by
  rw [flat, flats]
  exact List.flatMap_subtype (p := (· ∈ ls)) (g := fun l => flat l.2) (by intro a b; rfl) |>.trans
    (by simp)

@[simp] theorem flats_nil : flats ([] : List (Link K V)) = [] := rfl
@[simp] theorem flats_cons (l : Link K V) (ls) : flats (l :: ls) = flat l.2 ++ flats ls := rfl
@[simp] theorem flats_append (a b : List (Link K V)) : flats (a ++ b) = flats a ++ flats b := by
  simp [flats]

/-- What comes before a place in the tree, and after. -/
def before : Ctx K V → List V
  | [] => []
  | f :: fs => before fs ++ flats f.left
def after : Ctx K V → List V
  | [] => []
  | f :: fs => flats f.right ++ after fs

theorem flat_zip (n : Node K V) (c : Ctx K V) : flat (zip n c) = before c ++ flat n ++ after c := by
  induction c generalizing n with
  | nil => simp [zip, before, after]
  | cons f fs ih => simp [zip, ih, before, after, Frame.links]

/-- Well-formed nodes of height `h`. -/
def Good (T : Traits K V) : Nat → Node K V → Prop
  | 0, .leaf xs => xs ≠ [] ∧ xs.length ≤ T.cap
  | h + 1, .inner ls => ls ≠ [] ∧ ls.length ≤ T.cap ∧
      ∀ l ∈ ls, Good T h l.2 ∧ firstIndex T l.2 = some l.1
  | _, _ => False

/-- Well-formed links. -/
def LGood (T : Traits K V) (h : Nat) (ls : List (Link K V)) : Prop :=
  ∀ l ∈ ls, Good T h l.2 ∧ firstIndex T l.2 = some l.1

theorem LGood.nil {T : Traits K V} {h : Nat} : LGood T h [] := by intro l hl; cases hl
theorem LGood.cons {T : Traits K V} {h : Nat} {l : Link K V} {ls} :
    LGood T h (l :: ls) ↔ (Good T h l.2 ∧ firstIndex T l.2 = some l.1) ∧ LGood T h ls := by
  simp [LGood]
theorem LGood.append {T : Traits K V} {h : Nat} {a b} :
    LGood T h (a ++ b) ↔ LGood T h a ∧ LGood T h b := by
  simp only [LGood, List.mem_append]; grind
theorem LGood.take {T : Traits K V} {h : Nat} {a} (m : Nat) (g : LGood T h a) : LGood T h (a.take m) :=
  fun l hl => g l (List.mem_of_mem_take hl)
theorem LGood.drop {T : Traits K V} {h : Nat} {a} (m : Nat) (g : LGood T h a) : LGood T h (a.drop m) :=
  fun l hl => g l (List.mem_of_mem_drop hl)

theorem Good.inner_iff {T : Traits K V} {h : Nat} {ls : List (Link K V)} :
    Good T (h + 1) (.inner ls) ↔ ls ≠ [] ∧ ls.length ≤ T.cap ∧ LGood T h ls := Iff.rfl

theorem Good.leaf_iff {T : Traits K V} {xs : List V} :
    Good T 0 (.leaf xs) ↔ xs ≠ [] ∧ xs.length ≤ T.cap := Iff.rfl

theorem Good.zero {T : Traits K V} {n : Node K V} (g : Good T 0 n) :
    ∃ xs, n = .leaf xs ∧ xs ≠ [] ∧ xs.length ≤ T.cap := by
  cases n with
  | leaf xs => exact ⟨xs, rfl, g⟩
  | inner ls => exact g.elim

theorem Good.succ {T : Traits K V} {h : Nat} {n : Node K V} (g : Good T (h + 1) n) :
    ∃ ls, n = .inner ls ∧ ls ≠ [] ∧ ls.length ≤ T.cap ∧ LGood T h ls := by
  cases n with
  | leaf xs => exact g.elim
  | inner ls => exact ⟨ls, rfl, g⟩

theorem Good.first {T : Traits K V} {h : Nat} {n : Node K V} (g : Good T h n) :
    ∃ v vs, flat n = v :: vs ∧ firstIndex T n = some (T.idx v) := by
  induction h generalizing n with
  | zero =>
    obtain ⟨xs, rfl, hne, -⟩ := g.zero
    obtain ⟨y, ys, rfl⟩ := List.exists_cons_of_ne_nil hne
    exact ⟨y, ys, by simp, rfl⟩
  | succ h ih =>
    obtain ⟨ls, rfl, hne, -, hl⟩ := g.succ
    obtain ⟨y, ys, rfl⟩ := List.exists_cons_of_ne_nil hne
    obtain ⟨g1, g2⟩ := (LGood.cons.1 hl).1
    obtain ⟨v, vs, e1, e2⟩ := ih g1
    refine ⟨v, vs ++ flats ys, by simp [e1], ?_⟩
    show some y.1 = _
    rw [← g2, e2]

theorem Good.size_pos {T : Traits K V} {h : Nat} {n : Node K V} (g : Good T h n) : 0 < n.size := by
  cases h with
  | zero =>
    obtain ⟨xs, rfl, hne, -⟩ := g.zero
    exact List.length_pos_iff.2 hne
  | succ h =>
    obtain ⟨ls, rfl, hne, -, hl⟩ := g.succ
    exact List.length_pos_iff.2 hne

theorem Good.balanced {T : Traits K V} {h : Nat} {n : Node K V} (g : Good T h n) :
    Balanced T.cap h n := by
  induction h generalizing n with
  | zero =>
    obtain ⟨xs, rfl, hne, hc⟩ := g.zero
    exact .leaf _ hne hc
  | succ h ih =>
    obtain ⟨ls, rfl, hne, hc, hl⟩ := g.succ
    exact .inner _ _ hne hc fun l hm => ih (hl l hm).1

/-- The key of the first of some links, or else `k`. -/
def headKey (ls : List (Link K V)) (k : K) : K :=
  match ls with
  | [] => k
  | l :: _ => l.1

@[simp] theorem headKey_nil (k : K) : headKey ([] : List (Link K V)) k = k := rfl
@[simp] theorem headKey_cons (l : Link K V) (ls) (k : K) : headKey (l :: ls) k = l.1 := rfl
theorem headKey_append (a : List (Link K V)) (l : Link K V) (b) (k : K) :
    headKey (a ++ l :: b) k = headKey a l.1 := by
  cases a <;> rfl

/-- A context fit for a node of height `h` starting with `k`. -/
def CGood (T : Traits K V) : Nat → K → Ctx K V → Prop
  | _, _, [] => True
  | h, k, f :: fs => f.key = k ∧ LGood T h f.left ∧ LGood T h f.right ∧
      f.left.length + 1 + f.right.length ≤ T.cap ∧ CGood T (h + 1) (headKey f.left k) fs

theorem Frame.inner_good {T : Traits K V} {h : Nat} {k : K} {f : Frame K V} {fs : Ctx K V} {n}
    (c : CGood T h k (f :: fs)) (g : Good T h n) (hk : firstIndex T n = some k) :
    Good T (h + 1) (.inner (f.links n)) ∧ firstIndex T (.inner (f.links n)) = some (headKey f.left k) := by
  obtain ⟨rfl, hl, hr, hc, _⟩ := c
  refine ⟨Good.inner_iff.2 ⟨by simp [Frame.links], by simp [Frame.links]; omega, ?_⟩, ?_⟩
  · exact LGood.append.2 ⟨hl, LGood.cons.2 ⟨⟨g, hk⟩, hr⟩⟩
  · unfold Frame.links
    cases hf : f.left <;> simp [firstIndex]

theorem zip_good {T : Traits K V} {h : Nat} {k : K} {c : Ctx K V} {n} (hc : CGood T h k c)
    (g : Good T h n) (hk : firstIndex T n = some k) : Good T (h + c.length) (zip n c) := by
  induction c generalizing n h k with
  | nil => exact g
  | cons f fs ih =>
    obtain ⟨g1, g2⟩ := Frame.inner_good hc g hk
    have := ih hc.2.2.2.2 g1 g2
    rw [List.length_cons, Nat.add_comm fs.length, ← Nat.add_assoc]
    exact this

theorem updateIndexInParent_good {T : Traits K V} {h : Nat} {k k' : K} {c : Ctx K V}
    (hc : CGood T h k c) : CGood T h k' (updateIndexInParent k' c) ∧
      before (updateIndexInParent k' c) = before c ∧ after (updateIndexInParent k' c) = after c := by
  induction c generalizing h k with
  | nil => exact ⟨trivial, rfl, rfl⟩
  | cons f fs ih =>
    obtain ⟨rfl, hl, hr, hcap, hfs⟩ := hc
    unfold updateIndexInParent
    obtain ⟨left, key, right⟩ := f
    cases left with
    | nil =>
      obtain ⟨h1, h2, h3⟩ := ih hfs
      exact ⟨⟨rfl, hl, hr, hcap, h1⟩, by simp [before, h2], by simp [after, h3]⟩
    | cons l ls =>
      exact ⟨⟨rfl, hl, hr, hcap, hfs⟩, by simp [before], by simp [after]⟩

theorem mem_flats_of_mem {T : Traits K V} {h : Nat} {ls : List (Link K V)} (g : LGood T h ls)
    {l : Link K V} (hl : l ∈ ls) : ∃ v ∈ flats ls, T.idx v = l.1 := by
  obtain ⟨g1, g2⟩ := g l hl
  obtain ⟨v, vs, e1, e2⟩ := g1.first
  rw [e2] at g2
  refine ⟨v, ?_, Option.some.inj g2⟩
  exact List.mem_flatMap.2 ⟨l, hl, by simp [e1]⟩

theorem updateLoop_good [DecidableEq K] {T : Traits K V} {h : Nat} {k k' : K} {c : Ctx K V}
    (hc : CGood T h k c) (hb : ∀ v ∈ before c, T.less k' (T.idx v) = false)
    (ha : ∀ v ∈ after c, T.less (T.idx v) k' = false) :
    ∃ c', updateLoop T k' c = some c' ∧ CGood T h k' c' ∧ before c' = before c ∧
      after c' = after c := by
  induction c generalizing h k with
  | nil => exact ⟨[], rfl, trivial, rfl, rfl⟩
  | cons f fs ih =>
    have hc0 := hc
    obtain ⟨hk, hl, hr, hcap, hfs⟩ := hc
    unfold updateLoop
    rw [if_neg, if_neg]
    · by_cases e : k' = f.key
      · rw [if_pos e]
        subst e; subst hk
        exact ⟨_, rfl, hc0, rfl, rfl⟩
      · rw [if_neg e]
        obtain ⟨left, key, right⟩ := f
        subst hk
        cases left with
        | nil =>
          obtain ⟨c', e1, e2, e3, e4⟩ := ih hfs
            (fun v hv => hb v (by simp [before, hv]))
            (fun v hv => ha v (by simp [after, hv]))
          dsimp only
          rw [if_pos List.length_nil, e1]
          exact ⟨_, rfl, ⟨rfl, hl, hr, hcap, e2⟩, by simp [before, e3], by simp [after, e4]⟩
        | cons l ls =>
          rw [if_neg (by simp)]
          exact ⟨_, rfl, ⟨rfl, hl, hr, hcap, hfs⟩, by simp [before], by simp [after]⟩
    · intro e
      split at e
      · cases e
      · next r hr' =>
        obtain ⟨v, hv, hv'⟩ := mem_flats_of_mem hr (List.mem_of_head? hr')
        have := ha v (by simp [after, hv])
        rw [hv'] at this
        simp [this] at e
    · intro e
      split at e
      · cases e
      · next r hr' =>
        obtain ⟨v, hv, hv'⟩ := mem_flats_of_mem hl (List.mem_of_getLast? hr')
        have := hb v (by simp [before, hv])
        rw [hv'] at this
        simp [this] at e

theorem childAt_mid (pre : List (Link K V)) (l : Link K V) (post) :
    childAt (pre ++ l :: post) pre.length = some (l.2, ⟨pre, l.1, post⟩) := by
  simp [childAt]

theorem insertLink_mid {T : Traits K V} {pre : List (Link K V)} {l : Link K V} {post} {r : Node K V}
    {kr : K} (hr : firstIndex T r = some kr) (hc : pre.length + 1 + post.length < T.cap) :
    insertLink T (pre ++ l :: post) r (pre.length + 1) = some (pre ++ l :: (kr, r) :: post) := by
  unfold insertLink
  rw [if_pos (by simp; omega), hr]
  have e1 : (pre ++ l :: post).take (pre.length + 1) = pre ++ [l] := by
    rw [show pre ++ l :: post = (pre ++ [l]) ++ post by simp]
    exact List.take_left' (by simp)
  have e2 : (pre ++ l :: post).drop (pre.length + 1) = post := by
    rw [show pre ++ l :: post = (pre ++ [l]) ++ post by simp]
    exact List.drop_left' (by simp)
  dsimp only
  rw [e1, e2]
  simp

theorem stepRight_good {T : Traits K V} {h : Nat} {k kr : K} {f : Frame K V} {fs : Ctx K V} {n r}
    {rs} (hc : CGood T h k (f :: fs)) (g : Good T h n) (hk : firstIndex T n = some k)
    (hr : f.right = (kr, r) :: rs) :
    stepRight n (f :: fs) = some (r, ⟨f.left ++ [(f.key, n)], kr, rs⟩ :: fs) ∧
    CGood T h kr (⟨f.left ++ [(f.key, n)], kr, rs⟩ :: fs) ∧ Good T h r ∧ firstIndex T r = some kr ∧
    before (⟨f.left ++ [(f.key, n)], kr, rs⟩ :: fs) = before (f :: fs) ++ flat n := by
  obtain ⟨rfl, hl, hrg, hcap, hfs⟩ := hc
  rw [hr] at hrg
  obtain ⟨⟨g1, g2⟩, g3⟩ := LGood.cons.1 hrg
  refine ⟨by simp [stepRight, hr], ⟨rfl, ?_, g3, ?_, ?_⟩, g1, g2, by simp [before]⟩
  · exact LGood.append.2 ⟨hl, LGood.cons.2 ⟨⟨g, hk⟩, LGood.nil⟩⟩
  · rw [hr] at hcap; simp at hcap ⊢; omega
  · dsimp only; rw [headKey_append]; exact hfs

theorem take_mid_le {α : Type} (pre : List α) (x : α) (post : List α) {m : Nat} (h : m ≤ pre.length) :
    (pre ++ x :: post).take m = pre.take m ∧ (pre ++ x :: post).drop m = pre.drop m ++ x :: post := by
  constructor
  · rw [List.take_append_of_le_length h]
  · rw [List.drop_append_of_le_length h]

theorem take_mid_gt {α : Type} (pre : List α) (x : α) (post : List α) {m : Nat} (h : pre.length < m) :
    (pre ++ x :: post).take m = pre ++ x :: post.take (m - pre.length - 1) ∧
    (pre ++ x :: post).drop m = post.drop (m - pre.length - 1) := by
  obtain ⟨j, rfl⟩ : ∃ j, m = pre.length + 1 + j := ⟨m - pre.length - 1, by omega⟩
  rw [show pre ++ x :: post = (pre ++ [x]) ++ post by simp]
  have e : (pre ++ [x]).length = pre.length + 1 := by simp
  have e2 : pre.length + 1 + j - pre.length - 1 = j := by omega
  rw [e2, ← e, List.take_length_add_append, List.drop_length_add_append]
  simp

theorem insertRightChild_good {T : Traits K V} (h2 : 2 ≤ T.cap) {c : Ctx K V} {h : Nat} {k kr : K}
    {L R : Node K V} (hc : CGood T h k c) (gL : Good T h L) (hL : firstIndex T L = some k)
    (gR : Good T h R) (hR : firstIndex T R = some kr) :
    ∃ f' fs' rest, insertRightChild T L R c = some (f' :: fs') ∧ CGood T h k (f' :: fs') ∧
      f'.right = (kr, R) :: rest ∧ before (f' :: fs') = before c ∧
      after (f' :: fs') = flat R ++ after c := by
  induction c generalizing h k kr L R with
  | nil =>
    refine ⟨⟨[], k, [(kr, R)]⟩, [], [], ?_, ⟨rfl, LGood.nil, ?_, ?_, trivial⟩, rfl, ?_, ?_⟩
    · simp [insertRightChild, hL, hR]
    · exact LGood.cons.2 ⟨⟨gR, hR⟩, LGood.nil⟩
    · simpa using h2
    · simp [before]
    · simp [after]
  | cons f fs ih =>
    have hc0 := hc
    obtain ⟨hk, hl, hr, hcap, hfs⟩ := hc
    obtain ⟨left, key, right⟩ := f
    obtain rfl : key = k := hk
    dsimp only at hl hr hcap hfs
    unfold insertRightChild
    dsimp only [Frame.links]
    by_cases hfull : (left ++ (key, L) :: right).length ≥ T.cap
    · rw [if_pos hfull]
      have hlen : (left ++ (key, L) :: right).length = left.length + 1 + right.length := by simp; omega
      unfold splitList
      rw [if_pos (by omega)]
      dsimp only
      generalize hm : (left ++ (key, L) :: right).length / 2 = m
      by_cases hm2 : m ≤ left.length
      · obtain ⟨e1, e2⟩ := take_mid_le left (key, L) right hm2
        rw [e1, e2]
        -- the left half
        have hmp : 0 < m := by omega
        obtain ⟨l0, ls0, hl0⟩ := List.exists_cons_of_ne_nil
          (l := left.take m) (by intro e; have := congrArg List.length e; rw [List.length_take, List.length_nil] at this; omega)
        have ga : Good T (h + 1) (.inner (left.take m)) :=
          Good.inner_iff.2 ⟨by simp [hl0], by simp; omega, hl.take m⟩
        have fa : firstIndex T (.inner (left.take m)) = some (headKey left key) := by
          cases left with
          | nil => simp at hl0
          | cons x xs =>
            cases m with
            | zero => omega
            | succ m => rfl
        obtain ⟨kb, fb⟩ : ∃ kb, firstIndex T (.inner (left.drop m ++ (key, L) :: right)) = some kb := by
          cases left.drop m <;> exact ⟨_, rfl⟩
        have gb : Good T (h + 1) (.inner (left.drop m ++ (key, L) :: right)) :=
          Good.inner_iff.2 ⟨by simp, by simp; omega,
            LGood.append.2 ⟨hl.drop m, LGood.cons.2 ⟨⟨gL, hL⟩, hr⟩⟩⟩
        obtain ⟨f', fs', rest, i1, i2, i3, i4, i5⟩ := ih hfs ga fa gb fb
        rw [i1]
        dsimp only
        have hlm : (left.take m).length = m := by simp; omega
        rw [hlm, if_pos (by omega), if_pos (by simp; omega)]
        obtain ⟨s1, s2, -, -, s5⟩ := stepRight_good i2 ga fa i3
        have e3 : left.length + 1 - m = (left.drop m).length + 1 := by simp; omega
        rw [s1, e3, insertLink_mid hR (by simp; omega)]
        dsimp only
        rw [Nat.add_sub_cancel, childAt_mid]
        refine ⟨_, _, right, rfl, ⟨rfl, hl.drop m, LGood.cons.2 ⟨⟨gR, hR⟩, hr⟩, ?_, ?_⟩, rfl, ?_, ?_⟩
        · simp; omega
        · have : kb = headKey (left.drop m) key := by
            cases hd : left.drop m with
            | nil => rw [hd] at fb; exact (Option.some.inj fb).symm
            | cons x xs => rw [hd] at fb; exact (Option.some.inj fb).symm
          dsimp only
          rw [← this]; exact s2
        · rw [before, s5, i4]
          dsimp only
          rw [flat_inner, List.append_assoc, ← flats_append, List.take_append_drop]
          rfl
        · have h5 := i5
          rw [after, i3] at h5
          rw [after]
          simp [after] at h5 ⊢
          have h6 : flats rest ++ after fs' = after fs := by
            simpa using h5
          rw [h6]
      · have hm2 : left.length < m := by omega
        obtain ⟨e1, e2⟩ := take_mid_gt left (key, L) right hm2
        rw [e1, e2]
        generalize hj : m - left.length - 1 = j
        have ga : Good T (h + 1) (.inner (left ++ (key, L) :: right.take j)) :=
          Good.inner_iff.2 ⟨by simp, by simp; omega,
            LGood.append.2 ⟨hl, LGood.cons.2 ⟨⟨gL, hL⟩, hr.take j⟩⟩⟩
        have fa : firstIndex T (.inner (left ++ (key, L) :: right.take j)) =
            some (headKey left key) := by
          cases left <;> rfl
        obtain ⟨l0, ls0, hl0⟩ := List.exists_cons_of_ne_nil
          (l := right.drop j) (by intro e; have := congrArg List.length e; rw [List.length_drop, List.length_nil] at this; omega)
        have gb : Good T (h + 1) (.inner (right.drop j)) :=
          Good.inner_iff.2 ⟨by simp [hl0], by simp; omega, hr.drop j⟩
        have fb : firstIndex T (.inner (right.drop j)) = some l0.1 := by rw [hl0]; rfl
        obtain ⟨f', fs', rest, i1, i2, i3, i4, i5⟩ := ih hfs ga fa gb fb
        rw [i1]
        dsimp only
        have hla : (left ++ (key, L) :: right.take j).length = m := by simp; omega
        rw [if_neg (by omega), insertLink_mid hR (by simp at hla ⊢; omega)]
        dsimp only
        rw [Nat.add_sub_cancel, childAt_mid]
        refine ⟨_, _, right.take j, rfl, ⟨rfl, hl, LGood.cons.2 ⟨⟨gR, hR⟩, hr.take j⟩, ?_, i2⟩, rfl,
          ?_, ?_⟩
        · simp at hla ⊢; omega
        · rw [before, i4]; rfl
        · rw [after, i5]
          simp only [flat_inner, flats_cons, List.append_assoc]
          rw [← List.append_assoc (flats (right.take j)), ← flats_append, List.take_append_drop]
          rfl
    · rw [if_neg hfull]
      have hfull : left.length + 1 + right.length < T.cap := by simp at hfull; omega
      rw [insertLink_mid hR hfull]
      dsimp only
      rw [Nat.add_sub_cancel, childAt_mid]
      refine ⟨_, _, right, rfl, ⟨rfl, hl, LGood.cons.2 ⟨⟨gR, hR⟩, hr⟩, ?_, hfs⟩, rfl, rfl, ?_⟩
      · simp; omega
      · simp [after]

end Verif.BTree
