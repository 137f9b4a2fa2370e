import Verif.BTree.LemmasClient
/-!
# C21: the B-tree behaves as a sorted multiset
-/
namespace Verif.BTree
open Spec
variable {K V : Type}

/-- **C21.** For every history of insertions and removals on an initially empty tree, every node
capacity of at least two and every strict weak order: no assertion fails and nothing outside a node is
touched; the items handed out, and the contents afterwards, are those of a sorted list treated the
same way; the contents are in order, and iterating forward and backward and both lookups show exactly
them. -/
theorem C21_sorted_multiset [DecidableEq K] (T : Traits K V) (o : StrictWeak T.less) (h2 : 2 ≤ T.cap)
    (ops : List (Op K V)) :
    ∃ t outs l, run T none ops = some (t, outs) ∧ Steps T.less T.idx [] ops l outs ∧
      Sorted T.less T.idx l ∧ Shows T t l := by
  obtain ⟨t, outs, l, h1, h2, h3⟩ := run_spec o h2 ops Rep.nil
  exact ⟨t, outs, l, h1, h2, h3.sorted, h3.shows o⟩

/-- **C21.** After every such history, all leaves are at the same depth, and no node is empty or over
capacity. -/
theorem C21_balanced [DecidableEq K] (T : Traits K V) (o : StrictWeak T.less) (h2 : 2 ≤ T.cap)
    (ops : List (Op K V)) (t : Tree K V) (outs : List (Option V)) (h : run T none ops = some (t, outs))
    (root : Node K V) (ht : t = some root) : ∃ d, Balanced T.cap d root := by
  obtain ⟨t', outs', l, h1, h2, h3⟩ := run_spec o h2 ops Rep.nil
  rw [h] at h1
  cases h1
  rcases h3.tree with ⟨e, -⟩ | ⟨r, d, e, g, -⟩
  · rw [ht] at e; cases e
  · rw [ht] at e; cases e
    exact ⟨d, g.balanced⟩

/-- **C21.** An insertion keeps the other items in their order, whatever state the tree is in: the
contents afterwards are the contents before with the item put in somewhere, and sorted. -/
theorem C21_insert [DecidableEq K] (T : Traits K V) (o : StrictWeak T.less) (h2 : 2 ≤ T.cap)
    (ops : List (Op K V)) (t : Tree K V) (outs : List (Option V)) (h : run T none ops = some (t, outs))
    (v : V) :
    ∃ t' a b, insert T t v = some t' ∧ Shows T t (a ++ b) ∧ Shows T t' (a ++ v :: b) ∧
      Sorted T.less T.idx (a ++ v :: b) := by
  obtain ⟨t1, outs1, l, h1, h2', h3⟩ := run_spec o h2 ops Rep.nil
  rw [h] at h1
  cases h1
  obtain ⟨t', a, b, e1, rfl, e3, -⟩ := insert_spec o h2 h3 v
  exact ⟨t', a, b, e1, h3.shows o, e3.shows o, e3.sorted⟩

/-- **C21, partial.** Equal items queue up in order of insertion (rt/container/BTree.h:184-186) as long
as the history has no more insertions than fit one node.  Missing: larger trees, for which it is false
(`C21_not_a_queue`). -/
theorem C21_queue_partial [DecidableEq K] (T : Traits K V) (o : StrictWeak T.less) (h2 : 2 ≤ T.cap)
    (ops : List (Op K V)) (hc : inserts ops ≤ T.cap) :
    ∃ t outs l, run T none ops = some (t, outs) ∧ StepsQueue T.less T.idx [] ops l outs ∧
      Shows T t l := by
  obtain ⟨t, outs, l, h1, h2, h3⟩ := run_queue o h2 ops Rep.nil (.inl rfl) (by simpa using hc)
  exact ⟨t, outs, l, h1, h2, h3.shows o⟩

/-- Numbers with a tag, ordered by the number, four to a node. -/
def pairs : Traits Nat (Nat × Nat) := ⟨(·.1), fun a b => decide (a < b), 4⟩

theorem pairs_order : StrictWeak pairs.less :=
  ⟨by simp [pairs], by simp [pairs]; omega, by simp [pairs]; omega⟩

/-- Six items inserted in turn, then popped. -/
def sixThenPop : List (Op Nat (Nat × Nat)) :=
  [.insert (1, 0), .insert (1, 1), .insert (1, 2), .insert (1, 3), .insert (1, 4), .insert (1, 5),
    .popFront, .popFront, .popFront]

/-- **C21.** Items with equal indexes do not queue up in general: of six equal items, the sixth comes
out third. -/
theorem C21_not_a_queue :
    ∃ t, run pairs none sixThenPop = some (t, [none, none, none, none, none, none,
      some (1, 0), some (1, 1), some (1, 5)]) := by
  have h : (run pairs none sixThenPop).map (·.2) = some [none, none, none, none, none, none,
      some (1, 0), some (1, 1), some (1, 5)] := by decide +kernel
  obtain ⟨⟨t, outs⟩, h1, h2⟩ := Option.map_eq_some_iff.1 h
  exact ⟨t, by rw [h1]; simp at h2; rw [h2]⟩

/-- **C21.** A capacity of one, which the constructor accepts (rt/container/BTree.h:556-558), fails an
assertion at every second insertion: such a tree never holds two items. -/
theorem C21_capacity_one [DecidableEq K] (T : Traits K V) (h1 : T.cap = 1) (v w : V) :
    ∃ t, insert T none v = some t ∧ insert T t w = none := by
  refine ⟨some (.leaf [v]), ?_, ?_⟩
  · unfold insert prepareInsert
    dsimp only
    rw [descend]
    have : insertPos T ([] : List V) (T.idx v) = some 0 := by
      unfold insertPos; rw [insLoop]; simp
    dsimp only
    rw [this]
    dsimp only
    rw [if_neg (by simp [h1])]
    simp [mkIter, insertItemAt, updateLinkIndex, updateLoop, zip, h1]
  · unfold insert prepareInsert
    dsimp only
    rw [descend]
    dsimp only
    cases insertPos T [v] (T.idx w) with
    | none => rfl
    | some pos => simp [h1, splitList]

/-! Concrete cases -/

/-- A history with splits, merges and a shrinking root. -/
def mixed : List (Op Nat (Nat × Nat)) :=
  (List.range 12).map (fun i => .insert (i * 7 % 12, i)) ++
    [.removeGE 3, .removeLess 6, .removeNth 5, .popFront, .popFront, .removeGE 12, .insert (4, 99)]

example : (run pairs none mixed).map (fun r => ((List.range 9).map fun n => itemAt n (begin pairs r.1))) =
    some [some (some (2, 2)), some (some (4, 4)), some (some (4, 99)), some (some (6, 6)),
      some (some (8, 8)), some (some (9, 3)), some (some (10, 10)), some (some (11, 5)),
      some none] := by decide +kernel

example : ∃ t outs l, run pairs none mixed = some (t, outs) ∧ Steps pairs.less pairs.idx [] mixed l outs ∧
    Sorted pairs.less pairs.idx l ∧ Shows pairs t l :=
  C21_sorted_multiset pairs pairs_order (by decide) mixed

/-- The tree above has inner nodes. -/
example : (run pairs none (mixed.take 12)).map (fun r => r.1.map Node.isLeaf) =
    some (some false) := by decide +kernel

/-- Four insertions fit one node. -/
def four : List (Op Nat (Nat × Nat)) :=
  [.insert (1, 0), .insert (1, 1), .popFront, .insert (0, 2), .insert (1, 3)]

example : ∃ t outs l, run pairs none four = some (t, outs) ∧
    StepsQueue pairs.less pairs.idx [] four l outs ∧ Shows pairs t l :=
  C21_queue_partial pairs pairs_order (by decide) four (by decide)

example : (run pairs none [.insert (5, 0), .insert (3, 1)]).isSome ∧ pairs.cap = 4 := by
  decide +kernel

end Verif.BTree
