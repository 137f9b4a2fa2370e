import Verif.BTree.LemmasFind
/-!
# Lemmas: inserting, removing and iterating
-/
namespace Verif.BTree
open Spec
variable {K V : Type}

/-- A well-formed tree holding `l`. -/
structure Rep (T : Traits K V) (t : Tree K V) (l : List V) : Prop where
  sorted : Sorted T.less T.idx l
  tree : (t = none ∧ l = []) ∨ ∃ r h, t = some r ∧ Good T h r ∧ flat r = l

theorem Rep.of_result {T : Traits K V} {l : List V} {t : Option (Tree K V)} (r : Result T l t)
    (hs : Sorted T.less T.idx l) : ∃ t', t = some t' ∧ Rep T t' l := by
  rcases r with ⟨rfl, rfl⟩ | ⟨r, h, rfl, g, e⟩
  · exact ⟨none, rfl, hs, .inl ⟨rfl, rfl⟩⟩
  · exact ⟨some r, rfl, hs, .inr ⟨r, h, rfl, g, e⟩⟩

/-- The iterator `it` is at the `i`-th item of the tree. -/
structure At (T : Traits K V) (root : Node K V) (it : Iter K V) (i : Nat) : Prop where
  place : Place T root it.items it.ctx
  lt : it.pos < it.items.length
  rank : (before it.ctx).length + it.pos = i

theorem At.get {T : Traits K V} {root it i} (a : At T root it i) :
    it.get = (flat root)[i]? ∧ i < (flat root).length := by
  rw [a.place.flat]
  have h1 := a.lt
  have h2 := a.rank
  constructor
  · rw [List.append_assoc, List.getElem?_append_right (by omega),
      List.getElem?_append_left (by omega)]
    unfold Iter.get
    congr 1; omega
  · simp; omega

theorem At.next {T : Traits K V} {root it i} (a : At T root it i) :
    (it.next = some none ∧ i + 1 = (flat root).length) ∨
    ∃ it', it.next = some (some it') ∧ At T root it' (i + 1) := by
  unfold Iter.next
  have h1 := a.lt
  have h2 := a.rank
  by_cases h : it.pos + 1 < it.items.length
  · rw [if_pos h]
    exact .inr ⟨_, rfl, ⟨a.place, h, by show (before it.ctx).length + (it.pos + 1) = _; omega⟩⟩
  · rw [if_neg h]
    rcases rightSibling_spec a.place with ⟨e1, e2⟩ | ⟨items', c', e1, e2, e3⟩
    · rw [e1]
      refine .inl ⟨rfl, ?_⟩
      rw [a.place.flat, e2]; simp; omega
    · rw [e1]
      refine .inr ⟨_, rfl, ⟨e2, List.length_pos_iff.2 e2.ne, ?_⟩⟩
      dsimp only; rw [e3]; simp; omega

theorem At.prev {T : Traits K V} {root it i} (a : At T root it i) :
    (it.prev = none ∧ i = 0) ∨ ∃ it', it.prev = some it' ∧ At T root it' (i - 1) ∧ 0 < i := by
  unfold Iter.prev
  have h1 := a.lt
  have h2 := a.rank
  by_cases h : it.pos > 0
  · rw [if_pos h]
    refine .inr ⟨_, rfl, ⟨a.place, ?_, ?_⟩, by omega⟩
    · dsimp only; omega
    · dsimp only; omega
  · rw [if_neg h]
    rcases leftSibling_spec a.place with ⟨e1, e2⟩ | ⟨items', c', e1, e2, e3⟩
    · rw [e1]
      refine .inl ⟨rfl, ?_⟩
      rw [e2] at h2; simp at h2; omega
    · rw [e1]
      have hp := List.length_pos_iff.2 e2.ne
      dsimp only
      rw [if_pos hp]
      have hb : before c' ++ items' = before it.ctx := by
        have := e2.flat.symm.trans a.place.flat
        rw [e3] at this
        simp only [← List.append_assoc] at this
        exact List.append_cancel_right (List.append_cancel_right this)
      have hbl := congrArg List.length hb
      simp at hbl
      refine .inr ⟨_, rfl, ⟨e2, ?_, ?_⟩, by omega⟩
      · dsimp only; omega
      · dsimp only; omega

theorem mkIter_at {T : Traits K V} {root : Node K V} {items c pos} (p : Place T root items c)
    (h : pos < items.length) :
    ∃ it, mkIter T items c pos = some it ∧ At T root it ((before c).length + pos) := by
  have := p.cap
  exact ⟨⟨items, c, pos⟩, by unfold mkIter; rw [if_pos (by omega)], ⟨p, h, rfl⟩⟩

theorem begin_spec {T : Traits K V} {t : Tree K V} {l : List V} (r : Rep T t l) :
    (begin T t = some none ∧ l = [] ∧ t = none) ∨
    ∃ root it, t = some root ∧ flat root = l ∧ begin T t = some (some it) ∧ At T root it 0 := by
  rcases r.tree with ⟨rfl, rfl⟩ | ⟨root, h, rfl, g, rfl⟩
  · exact .inl ⟨rfl, rfl, rfl⟩
  · obtain ⟨v, vs, e1, e2⟩ := g.first
    obtain ⟨items, c', d1, d2, d3⟩ := leftmost_spec (c := []) g e2 trivial
    unfold begin
    dsimp only
    rw [d1]
    have hp := List.length_pos_iff.2 d2.ne
    obtain ⟨it, i1, i2⟩ := mkIter_at d2 hp
    dsimp only
    rw [i1]
    refine .inr ⟨_, it, rfl, rfl, rfl, ?_⟩
    rw [d3] at i2
    exact i2

theorem take_append_length {α : Type} (a b : List α) : (a ++ b).take a.length = a := by simp

theorem findFirstGE_spec {T : Traits K V} (o : StrictWeak T.less) {t : Tree K V} {l : List V}
    (r : Rep T t l) (x : K) :
    ∃ i, i ≤ l.length ∧ (∀ v ∈ l.take i, T.less (T.idx v) x = true) ∧
      (∀ v ∈ l.drop i, T.less (T.idx v) x = false) ∧
      ((findFirstGE T t x = some none ∧ i = l.length) ∨
        ∃ root it, t = some root ∧ flat root = l ∧ findFirstGE T t x = some (some it) ∧
          At T root it i) ∧
      ((findLastLessThan T t x = some none ∧ i = 0) ∨
        ∃ root it, t = some root ∧ flat root = l ∧ findLastLessThan T t x = some (some it) ∧
          At T root it (i - 1) ∧ 0 < i) := by
  rcases r.tree with ⟨rfl, rfl⟩ | ⟨root, h, rfl, g, rfl⟩
  · exact ⟨0, by simp, by simp, by simp, .inl ⟨rfl, rfl⟩, .inl ⟨rfl, rfl⟩⟩
  · obtain ⟨v, vs, e1, e2⟩ := g.first
    obtain ⟨items, c, d1, d2, d3, d4⟩ := descend_spec (c := []) o (x := x) g e2 trivial r.sorted
      (by simp [before]) (by simp [after])
    have d2 : Place T root items c := d2
    have hfl := d2.flat
    have hs := r.sorted
    rw [hfl] at hs
    obtain ⟨p, p1, p2, p3, p4⟩ := greaterOrEqualPos_spec o x
      (Sorted.append.1 (Sorted.append.1 hs).1).2.1
    refine ⟨(before c).length + p, ?_, ?_, ?_, ?_, ?_⟩
    · rw [hfl]; simp; omega
    · intro v hv
      rw [hfl, List.append_assoc, List.take_append, List.take_of_length_le (by omega),
        show (before c).length + p - (before c).length = p by omega,
        List.take_append_of_le_length p2] at hv
      rcases List.mem_append.1 hv with hv | hv
      · exact d3 v hv
      · exact p3 v hv
    · intro v hv
      rw [hfl, List.append_assoc, List.drop_append, List.drop_of_length_le (by omega),
        show (before c).length + p - (before c).length = p by omega,
        List.drop_append_of_le_length p2] at hv
      rcases List.mem_append.1 hv with hv | hv
      · cases hv
      · rcases List.mem_append.1 hv with hv | hv
        · exact p4 v hv
        · exact d4 v hv
    · unfold findFirstGE
      dsimp only
      rw [d1]
      dsimp only
      rw [p1]
      dsimp only
      by_cases hp : p ≥ items.length
      · rw [if_pos hp]
        have hp : p = items.length := by omega
        rcases rightSibling_spec d2 with ⟨s1, s2⟩ | ⟨items', c', s1, s2, s3⟩
        · rw [s1]
          refine .inl ⟨rfl, ?_⟩
          rw [hfl, s2]; simp; omega
        · rw [s1]
          obtain ⟨it, i1, i2⟩ := mkIter_at s2 (List.length_pos_iff.2 s2.ne)
          dsimp only
          rw [i1]
          refine .inr ⟨_, it, rfl, rfl, rfl, ?_⟩
          rw [s3] at i2; simp at i2; rw [hp]; exact i2
      · rw [if_neg hp]
        obtain ⟨it, i1, i2⟩ := mkIter_at d2 (pos := p) (by omega)
        rw [i1]
        exact .inr ⟨_, it, rfl, rfl, rfl, i2⟩
    · unfold findLastLessThan
      dsimp only
      rw [d1]
      dsimp only
      rw [p1]
      dsimp only
      by_cases hp : p > 0
      · rw [if_pos hp]
        obtain ⟨it, i1, i2⟩ := mkIter_at d2 (pos := p - 1) (by omega)
        rw [i1]
        refine .inr ⟨_, it, rfl, rfl, rfl, ?_, by omega⟩
        rw [show (before c).length + p - 1 = (before c).length + (p - 1) by omega]
        exact i2
      · rw [if_neg hp]
        have hp : p = 0 := by omega
        rcases leftSibling_spec d2 with ⟨s1, s2⟩ | ⟨items', c', s1, s2, s3⟩
        · rw [s1]
          refine .inl ⟨rfl, ?_⟩
          rw [s2]; simp; omega
        · rw [s1]
          have hpos := List.length_pos_iff.2 s2.ne
          obtain ⟨it, i1, i2⟩ := mkIter_at s2 (pos := items'.length - 1) (by omega)
          dsimp only
          rw [i1]
          have hb : before c' ++ items' = before c := by
            have := s2.flat.symm.trans d2.flat
            rw [s3] at this
            simp only [← List.append_assoc] at this
            exact List.append_cancel_right (List.append_cancel_right this)
          have hbl := congrArg List.length hb
          simp at hbl
          refine .inr ⟨_, it, rfl, rfl, rfl, ?_, by omega⟩
          rw [show (before c).length + p - 1 = (before c').length + (items'.length - 1) by omega]
          exact i2

theorem insert_leaf [DecidableEq K] {T : Traits K V} {items : List V} {c : Ctx K V} {k : K}
    {v : V} {pos : Nat} (hk : firstIndex T (.leaf items : Node K V) = some k) (hc : CGood T 0 k c)
    (hcap : items.length < T.cap) (hp : pos ≤ items.length)
    (hs : Sorted T.less T.idx (before c ++ (items.take pos ++ v :: items.drop pos) ++ after c)) :
    ∃ its c', insertItemAt T items pos v = some its ∧ updateLinkIndex T its pos c = some c' ∧
      Good T c'.length (zip (.leaf its) c') ∧
      flat (zip (.leaf its) c') = before c ++ (items.take pos ++ v :: items.drop pos) ++ after c := by
  unfold insertItemAt
  rw [if_pos ⟨hcap, hp⟩]
  have hlen : (items.take pos ++ v :: items.drop pos).length ≤ T.cap := by simp; omega
  cases pos with
  | zero =>
    obtain ⟨c', u1, u2, u3, u4⟩ := updateLoop_good (k' := T.idx v) hc
      (fun w hw => (Sorted.append.1 (Sorted.append.1 hs).1).2.2 w hw v (by simp))
      (fun w hw => (Sorted.append.1 hs).2.2 v (by simp) w hw)
    refine ⟨_, c', rfl, ?_, ?_, ?_⟩
    · simp only [List.take_zero, List.nil_append, List.drop_zero, updateLinkIndex, if_true]
      exact u1
    · have := zip_good u2 (n := .leaf (items.take 0 ++ v :: items.drop 0))
        (Good.leaf_iff.2 ⟨by simp, hlen⟩) rfl
      simpa using this
    · rw [flat_zip, flat_leaf, u3, u4]
  | succ pos =>
    cases items with
    | nil => simp at hp
    | cons i is =>
      refine ⟨_, c, rfl, ?_, ?_, ?_⟩
      · simp [updateLinkIndex]
      · have := zip_good hc (n := .leaf ((i :: is).take (pos + 1) ++ v :: (i :: is).drop (pos + 1)))
          (Good.leaf_iff.2 ⟨by simp, hlen⟩) hk
        simpa using this
      · rw [flat_zip, flat_leaf]

theorem insert_spec [DecidableEq K] {T : Traits K V} (o : StrictWeak T.less) (h2 : 2 ≤ T.cap)
    {t : Tree K V} {l : List V} (r : Rep T t l) (v : V) :
    ∃ t' a b, insert T t v = some t' ∧ l = a ++ b ∧ Rep T t' (a ++ v :: b) ∧
      t'.isSome ∧ (∀ items, t = some (.leaf items) → ∀ w ∈ b, T.less (T.idx v) (T.idx w) = true) := by
  rcases r.tree with ⟨rfl, rfl⟩ | ⟨root, h, rfl, g, rfl⟩
  · refine ⟨some (.leaf [v]), [], [], ?_, rfl, ⟨by simp [Sorted], .inr ⟨_, 0, rfl, ?_, ?_⟩⟩, rfl, by simp⟩
    · unfold insert prepareInsert
      dsimp only
      rw [descend]
      have : insertPos T ([] : List V) (T.idx v) = some 0 := by
        unfold insertPos; rw [insLoop]; simp
      dsimp only
      rw [this]
      dsimp only
      rw [if_neg (by simp; omega)]
      unfold mkIter
      rw [if_pos (by omega)]
      simp [insertItemAt, updateLinkIndex, updateLoop, zip, show 0 < T.cap by omega]
    · exact ⟨by simp, by simp; omega⟩
    · simp
  · obtain ⟨v0, vs0, e1, e2⟩ := g.first
    obtain ⟨items, c, d1, d2, d3, d4⟩ := descend_spec (c := []) o (x := T.idx v) g e2 trivial r.sorted
      (by simp [before]) (by simp [after])
    have d2 : Place T root items c := d2
    have hfl := d2.flat
    have hs := r.sorted
    rw [hfl] at hs
    obtain ⟨s12, s3, s4⟩ := Sorted.append.1 hs
    obtain ⟨s1, s2, s5⟩ := Sorted.append.1 s12
    obtain ⟨p, p1, p2, p3, p4⟩ := insertPos_spec o (T.idx v) s2
    have asym : ∀ a b, T.less a b = true → T.less b a = false := by
      intro a b hab
      refine Bool.eq_false_iff.2 fun hba => ?_
      have := o.trans _ _ _ hab hba
      rw [o.irrefl] at this; cases this
    -- the new list
    have hnew : Sorted T.less T.idx (before c ++ (items.take p ++ v :: items.drop p) ++ after c) := by
      have hsp : items.take p ++ items.drop p = items := List.take_append_drop p items
      rw [← hsp] at s2 s4 s5
      obtain ⟨t1, t2, t3⟩ := Sorted.append.1 s2
      refine Sorted.append.2 ⟨Sorted.append.2 ⟨s1, Sorted.append.2 ⟨t1, ?_, ?_⟩, ?_⟩, s3, ?_⟩
      · exact List.pairwise_cons.2 ⟨fun w hw => asym _ _ (p4 w hw), t2⟩
      · intro x hx y hy
        rcases List.mem_cons.1 hy with rfl | hy
        · exact p3 x hx
        · exact t3 x hx y hy
      · intro x hx y hy
        rcases List.mem_append.1 hy with hy | hy
        · exact s5 x hx y (List.mem_append_left _ hy)
        · rcases List.mem_cons.1 hy with rfl | hy
          · exact asym _ _ (d3 x hx)
          · exact s5 x hx y (List.mem_append_right _ hy)
      · intro x hx y hy
        rcases List.mem_append.1 hx with hx | hx
        · exact s4 x (List.mem_append_left _ hx) y hy
        · rcases List.mem_append.1 hx with hx | hx
          · exact s4 x (List.mem_append_right _ (List.mem_append_left _ hx)) y hy
          · rcases List.mem_cons.1 hx with rfl | hx
            · exact d4 y hy
            · exact s4 x (List.mem_append_right _ (List.mem_append_right _ hx)) y hy
    obtain ⟨k, hk, hc⟩ := d2.ctx
    -- enough to find a leaf with room
    suffices H : ∃ its c' pos, prepareInsert T (some root) (T.idx v) = some ⟨its, c', pos⟩ ∧
        pos ≤ its.length ∧ its.length < T.cap ∧
        (∃ k, firstIndex T (.leaf its : Node K V) = some k ∧ CGood T 0 k c') ∧
        before c' ++ its.take pos = before c ++ items.take p ∧
        its.drop pos ++ after c' = items.drop p ++ after c by
      obtain ⟨its, c', pos, q1, q2, q3, ⟨k', q4, q5⟩, q6, q7⟩ := H
      have heq : before c' ++ (its.take pos ++ v :: its.drop pos) ++ after c' =
          before c ++ (items.take p ++ v :: items.drop p) ++ after c := by
        have : before c' ++ (its.take pos ++ v :: its.drop pos) ++ after c' =
          (before c' ++ its.take pos) ++ v :: (its.drop pos ++ after c') := by simp
        rw [this, q6, q7]; simp
      obtain ⟨its', c'', w1, w2, w3, w4⟩ := insert_leaf (v := v) q4 q5 q3 q2 (by rw [heq]; exact hnew)
      refine ⟨some (zip (.leaf its') c''), before c ++ items.take p, items.drop p ++ after c, ?_, ?_,
        ⟨?_, .inr ⟨_, _, rfl, w3, ?_⟩⟩, rfl, ?_⟩
      · unfold insert
        rw [q1]
        dsimp only
        rw [w1]
        dsimp only
        rw [w2]
      · rw [hfl]
        have hsp : items.take p ++ items.drop p = items := List.take_append_drop p items
        rw [← List.append_assoc, List.append_assoc (before c) (items.take p), hsp]
      · simpa using hnew
      · rw [w4, heq]; simp
      · intro its2 e w hw
        obtain rfl := Option.some.inj e
        rw [descend] at d1
        cases d1
        rcases List.mem_append.1 hw with hw | hw
        · exact p4 w hw
        · cases hw
    unfold prepareInsert
    dsimp only
    rw [d1]
    dsimp only
    rw [p1]
    dsimp only
    have hcap := d2.cap
    by_cases hfull : items.length ≥ T.cap
    · rw [if_pos hfull]
      have hlen : items.length = T.cap := by omega
      unfold splitList
      rw [if_pos (by omega)]
      dsimp only
      generalize hm : items.length / 2 = m
      have hm0 : 0 < m := by omega
      have hla : (items.take m).length = m := by simp; omega
      have hlb : (items.drop m).length = items.length - m := by simp
      have ga : Good T 0 (.leaf (items.take m) : Node K V) :=
        ⟨by intro e; rw [e] at hla; simp at hla; omega, by omega⟩
      have gb : Good T 0 (.leaf (items.drop m) : Node K V) :=
        ⟨by intro e; rw [e] at hlb; simp at hlb; omega, by omega⟩
      have fa : firstIndex T (.leaf (items.take m) : Node K V) = some k := by
        cases items with
        | nil => simp at hlen; omega
        | cons i is =>
          cases m with
          | zero => omega
          | succ m => exact hk
      obtain ⟨v1, vs1, -, fb⟩ := gb.first
      obtain ⟨f', fs', rest, i1, i2, i3, i4, i5⟩ := insertRightChild_good h2 hc ga fa gb fb
      rw [i1]
      dsimp only
      by_cases hpm : p > (items.take m).length
      · rw [if_pos hpm]
        obtain ⟨st1, st2, -, -, st5⟩ := stepRight_good i2 ga fa i3
        rw [st1]
        dsimp only
        unfold mkIter
        rw [hla] at hpm ⊢
        rw [if_pos (by omega)]
        refine ⟨_, _, _, rfl, by omega, by omega, ⟨_, fb, st2⟩, ?_, ?_⟩
        · rw [st5, i4, flat_leaf, List.append_assoc]
          congr 1
          rw [List.take_drop, show m + (p - m) = p by omega]
          have e9 := List.take_append_drop m (items.take p)
          rw [List.take_take, Nat.min_eq_left (by omega)] at e9
          exact e9
        · rw [List.drop_drop, show m + (p - m) = p by omega]
          congr 1
          rw [after, i3] at i5
          simp only [flats_cons, List.append_assoc] at i5
          exact List.append_cancel_left i5
      · rw [if_neg hpm]
        unfold mkIter
        rw [hla] at hpm
        rw [if_pos (by omega)]
        refine ⟨_, _, _, rfl, by omega, by omega, ⟨_, fa, i2⟩, ?_, ?_⟩
        · rw [i4, List.take_take, Nat.min_eq_left (by omega)]
        · rw [i5, flat_leaf, ← List.append_assoc]
          congr 1
          have e9 := List.take_append_drop (m - p) (items.drop p)
          rw [List.drop_drop, show p + (m - p) = m by omega] at e9
          rw [List.drop_take]
          exact e9
    · rw [if_neg hfull]
      unfold mkIter
      rw [if_pos (by omega)]
      exact ⟨_, _, _, rfl, p2, by omega, ⟨k, hk, hc⟩, rfl, rfl⟩

theorem eraseIdx_mid {α : Type} (a b c : List α) {p : Nat} (h : p < b.length) :
    (a ++ b ++ c).eraseIdx (a.length + p) = a ++ b.eraseIdx p ++ c := by
  rw [List.append_assoc, List.eraseIdx_append_of_length_le (by omega),
    show a.length + p - a.length = p by omega, List.eraseIdx_append_of_lt_length h, List.append_assoc]

theorem remove_spec [DecidableEq K] {T : Traits K V} (o : StrictWeak T.less) {root : Node K V}
    {it : Iter K V} {i : Nat} (hs : Sorted T.less T.idx (flat root)) (a : At T root it i) :
    ∃ v t', remove T it = some (v, t') ∧ (flat root)[i]? = some v ∧
      Rep T t' ((flat root).eraseIdx i) := by
  obtain ⟨g1, g2⟩ := a.get
  obtain ⟨items, c, pos⟩ := it
  have hp := a.lt
  have hr := a.rank
  have d2 := a.place
  dsimp only at hp hr d2
  obtain ⟨k, hk, hc⟩ := d2.ctx
  have hfl := d2.flat
  have hcap := d2.cap
  have hnew : (flat root).eraseIdx i = before c ++ items.eraseIdx pos ++ after c := by
    rw [hfl, ← hr]; exact eraseIdx_mid _ _ _ hp
  have hs' : Sorted T.less T.idx ((flat root).eraseIdx i) := hs.sublist (List.eraseIdx_sublist _ _)
  rw [hnew] at hs'
  unfold remove
  rw [g1, List.getElem?_eq_getElem g2]
  dsimp only
  -- enough: the leaf after deletion has a fitting context
  suffices H : ∃ c1 c2 k', deleteItem T items pos c = some (items.eraseIdx pos, c1) ∧
      updateLinkIndex T (items.eraseIdx pos) pos c1 = some c2 ∧ CGood T 0 k' c2 ∧
      ((Good T 0 (.leaf (items.eraseIdx pos) : Node K V) ∧
        firstIndex T (.leaf (items.eraseIdx pos) : Node K V) = some k') ∨
        Empty 0 (.leaf (items.eraseIdx pos) : Node K V)) ∧
      before c2 = before c ∧ after c2 = after c by
    obtain ⟨c1, c2, k', e1, e2, e3, e4, e5, e6⟩ := H
    rw [e1]
    dsimp only
    rw [e2]
    dsimp only
    have := tryCompact_good e3 e4
    rw [flat_leaf, e5, e6] at this
    obtain ⟨t', q1, q2⟩ := Rep.of_result this hs'
    rw [q1]
    refine ⟨_, t', rfl, rfl, ?_⟩
    rw [hnew]; exact q2
  unfold deleteItem
  rw [if_pos hp]
  dsimp only
  have hlen : (items.eraseIdx pos).length = items.length - 1 := by
    rw [List.length_eraseIdx, if_pos hp]
  cases he : items.eraseIdx pos with
  | nil => exact ⟨c, c, k, rfl, rfl, hc, .inr rfl, rfl, rfl⟩
  | cons w ws =>
    have gl : Good T 0 (.leaf (w :: ws) : Node K V) := by
      refine ⟨by simp, ?_⟩
      rw [← he]; omega
    by_cases hpos : pos = 0
    · subst hpos
      obtain ⟨u1, u2, u3⟩ := updateIndexInParent_good (k' := T.idx w) hc
      rw [he] at hs'
      obtain ⟨c2, w1, w2, w3, w4⟩ := updateLoop_good (k' := T.idx w) u1
        (by rw [u2]; exact fun x hx => (Sorted.append.1 (Sorted.append.1 hs').1).2.2 x hx w (by simp))
        (by rw [u3]; exact fun x hx => (Sorted.append.1 hs').2.2 w (by simp) x hx)
      refine ⟨_, c2, T.idx w, rfl, ?_, w2, .inl ⟨gl, rfl⟩, by rw [w3, u2], by rw [w4, u3]⟩
      simpa [updateLinkIndex] using w1
    · refine ⟨c, c, k, ?_, ?_, hc, .inl ⟨gl, ?_⟩, rfl, rfl⟩
      · dsimp only; rw [if_neg hpos]
      · simp [updateLinkIndex, hpos]
      · obtain ⟨x, xs, rfl⟩ := List.exists_cons_of_ne_nil d2.ne
        obtain ⟨q, rfl⟩ := Nat.exists_eq_succ_of_ne_zero hpos
        rw [List.eraseIdx_cons_succ] at he
        cases he
        exact hk

end Verif.BTree
