import Verif.Markdown.LemmasLine

/-!
# What the block parser keeps of the lines
-/

namespace Verif.Markdown

open Verif Verif.Markdown.Spec

theorem Spec.Keeps.append {a b a' b' : List (List Byte)} (h : Keeps a b) (h' : Keeps a' b') :
    Keeps (a ++ a') (b ++ b') := by
  induction h with
  | nil => exact h'
  | blank h _ ih => exact .blank h ih
  | blankCode h _ ih => exact .blankCode h ih
  | text h1 h2 _ ih => exact .text h1 h2 ih
  | heading h1 h2 h3 h4 _ ih => exact .heading h1 h2 h3 h4 ih
  | emptyHeading h1 h2 h3 h4 _ ih => exact .emptyHeading h1 h2 h3 h4 ih
  | code h1 _ ih => exact .code h1 ih
  | codeTab h1 h2 h3 _ ih => exact .codeTab h1 h2 h3 ih

theorem keeps_blank : ∀ {bl : List (List Byte)}, (∀ l ∈ bl, Blank l) → Keeps bl []
  | [], _ => .nil
  | l :: bl, h => .blank (h l (by simp)) (keeps_blank fun x hx => h x (List.mem_cons_of_mem _ hx))

theorem keeps_blankCode : ∀ {bl : List (List Byte)}, (∀ l ∈ bl, Blank l) →
    Keeps bl (List.replicate bl.length [10])
  | [], _ => .nil
  | l :: bl, h =>
    .blankCode (h l (by simp)) (keeps_blankCode fun x hx => h x (List.mem_cons_of_mem _ hx))

/-- All texts, in the order of their nodes. -/
def flat (nodes : List BNode) : List (List Byte) := nodes.flatMap (fun n => n.raw)

theorem flat_append (a b : List BNode) : flat (a ++ b) = flat a ++ flat b := by
  unfold flat; rw [List.flatMap_append]

theorem flat_nil {b : List BNode} (h : ∀ n ∈ b, n.raw = []) : flat b = [] := by
  unfold flat
  rw [List.flatMap_eq_nil_iff]
  exact h

/-- Adding lines to a node with no text after it. -/
theorem flat_appendRaw {nodes : List BNode} {lf : Nat} {ls : List (List Byte)} (h : lf < nodes.length)
    (hn : ∀ j n, lf < j → nodes[j]? = some n → n.raw = []) :
    flat (appendRaw nodes lf ls) = flat nodes ++ ls := by
  have e : nodes = nodes.take lf ++ nodes[lf] :: nodes.drop (lf + 1) := by
    rw [← List.drop_eq_getElem_cons h, List.take_append_drop]
  have hd : flat (nodes.drop (lf + 1)) = [] := by
    apply flat_nil
    intro n hn'
    obtain ⟨j, hj⟩ := List.getElem?_of_mem hn'
    rw [List.getElem?_drop] at hj
    exact hn _ n (by omega) hj
  have hl : (nodes.take lf).length = lf := by rw [List.length_take]; omega
  have e2 : appendRaw nodes lf ls = nodes.take lf ++
      { nodes[lf] with raw := nodes[lf].raw ++ ls } :: nodes.drop (lf + 1) := by
    unfold appendRaw
    rw [List.modify_eq_take_cons_drop h]
  have e3 : flat nodes = flat (nodes.take lf) ++ nodes[lf].raw := by
    conv => lhs; rw [e]
    rw [flat_append]
    show flat (nodes.take lf) ++ (nodes[lf].raw ++ flat (nodes.drop (lf + 1))) = _
    rw [hd, List.append_nil]
  rw [e2, flat_append, e3]
  show flat (nodes.take lf) ++ ((nodes[lf].raw ++ ls) ++ flat (nodes.drop (lf + 1))) = _
  rw [hd, List.append_nil, List.append_assoc]

/-- The node is a container. -/
def Cont (nodes : List BNode) (i : Nat) : Prop :=
  ∃ n, nodes[i]? = some n ∧ n.type.isContainer = true

theorem Cont.lt {nodes : List BNode} {i : Nat} (h : Cont nodes i) : i < nodes.length := by
  obtain ⟨n, h1, _⟩ := h
  exact (List.getElem?_eq_some_iff.mp h1).1

theorem Cont.append {a : List BNode} {i : Nat} (h : Cont a i) (b : List BNode) : Cont (a ++ b) i := by
  have hl := h.lt
  obtain ⟨n, h1, h2⟩ := h
  exact ⟨n, by rw [List.getElem?_append_left hl]; exact h1, h2⟩

/-- Parents come before their children and are containers; only leaves have text. -/
def Tree (nodes : List BNode) : Prop :=
  0 < nodes.length ∧ ∀ i n, nodes[i]? = some n →
    (i = 0 → n.parent = none ∧ n.type = .document) ∧
    (0 < i → ∃ p, n.parent = some p ∧ p < i ∧ Cont nodes p) ∧
    (n.raw ≠ [] → n.type.isContainer = false)

/-- `Anc nodes i j`: node `i` is node `j` or above it. -/
inductive Anc (nodes : List BNode) (i : Nat) : Nat → Prop where
  | refl : Anc nodes i i
  | step {j p n} : nodes[j]? = some n → n.parent = some p → Anc nodes i p → Anc nodes i j

/-- Nodes are made in the order of a walk over the tree. -/
def Pre (nodes : List BNode) : Prop :=
  ∀ i n p, nodes[i]? = some n → n.parent = some p → Anc nodes p (i - 1)

/-- There is a list directly in a list. -/
def Bad (nodes : List BNode) : Prop :=
  ∃ (i : Nat) (n : BNode) (p : Nat), nodes[i]? = some n ∧ n.type = .list ∧ n.parent = some p ∧ isType nodes .list p = true

/-- The nodes have the same parents and types. -/
def Shape (a b : List BNode) : Prop :=
  ∀ (i : Nat) (n : BNode), a[i]? = some n → ∃ n' : BNode, b[i]? = some n' ∧ n'.parent = n.parent ∧ n'.type = n.type

theorem Anc.shape {a b : List BNode} (h : Shape a b) {i j : Nat} (hA : Anc a i j) : Anc b i j := by
  induction hA with
  | refl => exact .refl
  | step h1 h2 _ ih =>
    obtain ⟨n', k1, k2, _⟩ := h _ _ h1
    exact .step k1 (k2.trans h2) ih

theorem Shape.isType {a b : List BNode} (h : Shape a b) {ty : BType} {i : Nat}
    (ht : isType a ty i = true) : isType b ty i = true := by
  unfold Markdown.isType at *
  cases ha : a[i]? with
  | none => rw [ha] at ht; cases ht
  | some n =>
    obtain ⟨n', k1, _, k3⟩ := h i n ha
    rw [ha] at ht
    rw [k1]; dsimp only at ht ⊢; rw [k3]; exact ht

theorem Shape.bad {a b : List BNode} (h : Shape a b) (hb : Bad a) : Bad b := by
  obtain ⟨i, n, p, h1, h2, h3, h4⟩ := hb
  obtain ⟨n', k1, k2, k3⟩ := h i n h1
  exact ⟨i, n', p, k1, k3.trans h2, k2.trans h3, h.isType h4⟩

theorem shape_append (a b : List BNode) : Shape a (a ++ b) := by
  intro i n hn
  have := (List.getElem?_eq_some_iff.mp hn).1
  exact ⟨n, by rw [List.getElem?_append_left this]; exact hn, rfl, rfl⟩

theorem Pre.shape {a b : List BNode} (hl : b.length = a.length) (h : Shape a b) (hp : Pre a) : Pre b := by
  intro i n' p hn hpar
  have hi : i < a.length := by rw [← hl]; exact (List.getElem?_eq_some_iff.mp hn).1
  obtain ⟨n, hn0⟩ : ∃ n, a[i]? = some n := ⟨a[i], by simp [hi]⟩
  obtain ⟨n2, k1, k2, _⟩ := h i n hn0
  rw [hn] at k1; cases k1
  exact (hp i n p hn0 (k2 ▸ hpar)).shape h

/-- Nodes under a node come after it. -/
theorem Anc.le {nodes : List BNode} (ht : Tree nodes) {i j : Nat} (h : Anc nodes i j) : i ≤ j := by
  induction h with
  | refl => exact Nat.le_refl _
  | @step j p n h1 h2 _ ih =>
    obtain ⟨k1, k2, _⟩ := ht.2 _ _ h1
    by_cases h0 : j = 0
    · rw [(k1 h0).1] at h2; cases h2
    · obtain ⟨q, e1, e2, _⟩ := k2 (by omega)
      rw [e1] at h2; cases h2; omega

/-- The nodes under a node are next to each other. -/
theorem Anc.mid {nodes : List BNode} (ht : Tree nodes) (hp : Pre nodes) {i : Nat} :
    ∀ (d j : Nat), Anc nodes i (j + d) → i ≤ j → Anc nodes i j
  | 0, j, h, _ => h
  | d + 1, j, h, hij => by
    refine Anc.mid ht hp d j ?_ hij
    cases h with
    | refl => exfalso; omega
    | step h1 h2 h3 =>
      have := hp _ _ _ h1 h2
      rw [show j + (d + 1) - 1 = j + d by omega] at this
      generalize j + d = x at this
      clear h1 h2 hij
      induction this with
      | refl => exact h3
      | step k1 k2 _ ih => exact .step k1 k2 ih

theorem Anc.trans {nodes : List BNode} {i j k : Nat} (h : Anc nodes i j) (h' : Anc nodes j k) :
    Anc nodes i k := by
  induction h' with
  | refl => exact h
  | step k1 k2 _ ih => exact .step k1 k2 ih

/-- Nodes are in order, and the stack is the way to a node above the last one. -/
def Fine (nodes : List BNode) (stack : List Nat) : Prop :=
  Pre nodes ∧ (∀ s ∈ stack, Anc nodes s (nodes.length - 1)) ∧ stack.Pairwise (Anc nodes)

/-- The order of the nodes, unless there is a list in a list. -/
def Ord (nodes : List BNode) (stack : List Nat) : Prop := Bad nodes ∨ Fine nodes stack

theorem Ord.shape {a b : List BNode} {s t : List Nat} (hl : b.length = a.length) (h : Shape a b)
    (hs : t.Sublist s) (ho : Ord a s) : Ord b t := by
  rcases ho with ho | ⟨h1, h2, h3⟩
  · exact Or.inl (h.bad ho)
  · refine Or.inr ⟨h1.shape hl h, fun i hi => ?_, ?_⟩
    · rw [hl]
      exact (h2 i (hs.subset hi)).shape h
    · exact (h3.sublist hs).imp (fun h' => h'.shape h)

/-- A new node under a node on the way to the last one. -/
theorem Ord.snoc {nodes : List BNode} {s : List Nat} {n : BNode} {p : Nat} (h : Ord nodes s)
    (hn : n.parent = some p)
    (hp : Fine nodes s → Anc nodes p (nodes.length - 1) ∧ ∀ x ∈ s, Anc nodes x p) :
    Ord (nodes ++ [n]) (s ++ [nodes.length]) := by
  rcases h with h | hf
  · exact Or.inl ((shape_append _ _).bad h)
  · obtain ⟨k1, k2⟩ := hp hf
    obtain ⟨h1, h2, h3⟩ := hf
    have hnew : (nodes ++ [n])[nodes.length]? = some n := by simp
    have hx : ∀ x ∈ s, Anc (nodes ++ [n]) x nodes.length := fun x hx =>
      .step hnew hn ((k2 x hx).shape (shape_append _ _))
    refine Or.inr ⟨fun i m q hm hq => ?_, fun i hi => ?_, ?_⟩
    · by_cases hlt : i < nodes.length
      · rw [List.getElem?_append_left hlt] at hm
        exact (h1 i m q hm hq).shape (shape_append _ _)
      · have : i < (nodes ++ [n]).length := (List.getElem?_eq_some_iff.mp hm).1
        have e : i = nodes.length := by simp at this; omega
        subst e
        rw [hnew] at hm; cases hm
        rw [hn] at hq; cases hq
        exact k1.shape (shape_append _ _)
    · rw [List.length_append, List.length_singleton, Nat.add_sub_cancel]
      rcases List.mem_append.mp hi with hi | hi
      · exact hx i hi
      · rw [List.mem_singleton.mp hi]; exact .refl
    · rw [List.pairwise_append]
      refine ⟨h3.imp (fun h' => h'.shape (shape_append _ _)), by simp, fun x hxs y hy => ?_⟩
      rw [List.mem_singleton.mp hy]; exact hx x hxs

theorem Fine.last {nodes : List BNode} {s : List Nat} {p : Nat} (h : Fine nodes s)
    (hp : s.getLast? = some p) : Anc nodes p (nodes.length - 1) ∧ ∀ x ∈ s, Anc nodes x p := by
  obtain ⟨h1, h2, h3⟩ := h
  refine ⟨h2 p (List.mem_of_getLast? hp), fun x hx => ?_⟩
  obtain ⟨l, rfl⟩ := List.getLast?_eq_some_iff.mp hp
  rw [List.pairwise_append] at h3
  rcases List.mem_append.mp hx with hx | hx
  · exact h3.2.2 x hx p (by simp)
  · rw [List.mem_singleton.mp hx]; exact .refl

/-- What holds between lines. -/
structure Ok (st : St) : Prop where
  tree : Tree st.nodes
  stack : ∀ i ∈ st.stack, Cont st.nodes i
  leaf : ∀ lf, st.leaf = some lf → (∃ n, st.nodes[lf]? = some n ∧ n.type.isContainer = false) ∧
    ∀ j n, lf < j → st.nodes[j]? = some n → n.raw = []
  ord : Ord st.nodes st.stack

theorem Ok.leaf_lt {st : St} {lf : Nat} (h : Ok st) (hl : st.leaf = some lf) :
    lf < st.nodes.length := by
  obtain ⟨⟨n, h1, _⟩, _⟩ := h.leaf lf hl
  exact (List.getElem?_eq_some_iff.mp h1).1

/-- The nodes are the same up to flags. -/
def Same (a b : List BNode) : Prop :=
  a.length = b.length ∧ ∀ (i : Nat) (n : BNode), a[i]? = some n →
    ∃ n' : BNode, b[i]? = some n' ∧ n'.parent = n.parent ∧ n'.raw = n.raw ∧ n'.type = n.type

theorem Same.refl (a : List BNode) : Same a a := ⟨rfl, fun _ n h => ⟨n, h, rfl, rfl, rfl⟩⟩

theorem Same.trans {a b c : List BNode} (h : Same a b) (k : Same b c) : Same a c := by
  refine ⟨h.1.trans k.1, fun i n hn => ?_⟩
  obtain ⟨n1, h1, h2, h3, h4⟩ := h.2 i n hn
  obtain ⟨n2, k1, k2, k3, k4⟩ := k.2 i n1 h1
  exact ⟨n2, k1, k2.trans h2, k3.trans h3, k4.trans h4⟩

theorem Same.flat {a b : List BNode} (h : Same a b) : flat a = flat b := by
  have : a.map (fun n => n.raw) = b.map (fun n => n.raw) := by
    apply List.ext_getElem?
    intro i
    rw [List.getElem?_map, List.getElem?_map]
    cases ha : a[i]? with
    | none =>
      have : b[i]? = none := by
        rw [List.getElem?_eq_none_iff] at ha ⊢; rw [← h.1]; exact ha
      rw [this]
    | some n =>
      obtain ⟨n', h1, _, h3, _⟩ := h.2 i n ha
      rw [h1, Option.map_some, Option.map_some, h3]
  unfold Markdown.flat
  rw [List.flatMap_def, List.flatMap_def, this]

theorem Same.back {a b : List BNode} (h : Same a b) {i : Nat} {n' : BNode} (hn : b[i]? = some n') :
    ∃ n, a[i]? = some n ∧ n'.parent = n.parent ∧ n'.raw = n.raw ∧ n'.type = n.type := by
  cases ha : a[i]? with
  | none =>
    have : b[i]? = none := by
      rw [List.getElem?_eq_none_iff] at ha ⊢; rw [← h.1]; exact ha
    rw [this] at hn; cases hn
  | some n =>
    obtain ⟨n1, h1, h2⟩ := h.2 i n ha
    rw [hn] at h1; cases h1
    exact ⟨n, rfl, h2⟩

theorem Same.isType {a b : List BNode} (h : Same a b) (ty : BType) (i : Nat) :
    isType b ty i = isType a ty i := by
  unfold Markdown.isType
  cases ha : a[i]? with
  | none =>
    have : b[i]? = none := by
      rw [List.getElem?_eq_none_iff] at ha ⊢; rw [← h.1]; exact ha
    rw [this]
  | some n =>
    obtain ⟨n1, h1, _, _, h2⟩ := h.2 i n ha
    rw [h1]; simp [h2]

theorem Same.cont {a b : List BNode} (h : Same a b) {i : Nat} (hc : Cont a i) : Cont b i := by
  obtain ⟨n, h1, h2⟩ := hc
  obtain ⟨n', k1, _, _, k4⟩ := h.2 i n h1
  exact ⟨n', k1, k4 ▸ h2⟩

theorem Same.tree {a b : List BNode} (h : Same a b) (ht : Tree a) : Tree b := by
  refine ⟨by rw [← h.1]; exact ht.1, fun i n' hn => ?_⟩
  obtain ⟨n, h1, h2, h3, h4⟩ := h.back hn
  rw [h2, h3, h4]
  obtain ⟨k1, k2, k3⟩ := ht.2 i n h1
  refine ⟨k1, fun h0 => ?_, k3⟩
  obtain ⟨p, e1, e2, e3⟩ := k2 h0
  exact ⟨p, e1, e2, h.cont e3⟩

theorem Same.shape {a b : List BNode} (h : Same a b) : Shape a b := by
  intro i n hn
  obtain ⟨n', h1, h2, _, h4⟩ := h.2 i n hn
  exact ⟨n', h1, h2, h4⟩

theorem Ok.same {st st' : St} (h : Ok st) (hs : Same st.nodes st'.nodes)
    (hk : st'.stack.Sublist st.stack) (hl : st'.leaf = none ∨ st'.leaf = st.leaf) : Ok st' := by
  refine ⟨hs.tree h.tree, fun i hi => hs.cont (h.stack i (hk.subset hi)), fun lf hlf => ?_,
    h.ord.shape hs.1.symm hs.shape hk⟩
  rcases hl with hl | hl
  · rw [hl] at hlf; cases hlf
  · rw [hl] at hlf
    obtain ⟨h1, h2⟩ := h.leaf lf hlf
    refine ⟨?_, fun j n' hj hn => ?_⟩
    · obtain ⟨n, e1, e2⟩ := h1
      obtain ⟨n', k1, _, _, k4⟩ := hs.2 lf n e1
      exact ⟨n', k1, k4 ▸ e2⟩
    obtain ⟨n, k1, _, k2, _⟩ := hs.back hn
    rw [k2]
    exact h2 j n hj k1

theorem same_modify {nodes : List BNode} {p : Nat} {f : BNode → BNode}
    (hf : ∀ n, (f n).parent = n.parent ∧ (f n).raw = n.raw ∧ (f n).type = n.type) :
    Same nodes (nodes.modify p f) := by
  refine ⟨by simp, fun i n hn => ?_⟩
  rw [List.getElem?_modify, hn]
  by_cases h : p = i
  · exact ⟨f n, by simp [h], hf n⟩
  · exact ⟨n, by simp [h], rfl, rfl, rfl⟩

theorem markLoop_same : ∀ {ns : List Nat} {st st' : St}, markLoop ns st = some st' →
    Same st.nodes st'.nodes ∧ st'.stack = st.stack ∧ st'.leaf = st.leaf ∧ st'.blanks = st.blanks
  | [], st, st', h => by rw [markLoop] at h; cases h; exact ⟨Same.refl _, rfl, rfl, rfl⟩
  | n :: ns, st, st', h => by
    rw [markLoop] at h
    split at h
    · cases h
    · split at h
      · split at h
        · cases h
        · split at h
          · cases h
          · split at h
            · split at h
              · obtain ⟨h1, h2, h3, h4⟩ := markLoop_same h
                exact ⟨(same_modify (by intro n; exact ⟨rfl, rfl, rfl⟩)).trans h1, h2, h3, h4⟩
              · exact markLoop_same h
            · cases h
      · exact markLoop_same h

theorem loosenLoop_same : ∀ {ns : List Nat} {st st' : St}, loosenLoop ns st = some st' →
    Same st.nodes st'.nodes ∧ st'.stack = st.stack ∧ st'.leaf = st.leaf ∧ st'.blanks = st.blanks
  | [], st, st', h => by rw [loosenLoop] at h; cases h; exact ⟨Same.refl _, rfl, rfl, rfl⟩
  | n :: ns, st, st', h => by
    rw [loosenLoop] at h
    split at h
    · cases h
    · split at h
      · split at h
        · cases h
        · split at h
          · cases h
          · split at h
            · split at h
              · obtain ⟨h1, h2, h3, h4⟩ := loosenLoop_same h
                exact ⟨(same_modify (by intro n; exact ⟨rfl, rfl, rfl⟩)).trans h1, h2, h3, h4⟩
              · exact loosenLoop_same h
            · cases h
      · exact loosenLoop_same h

theorem loosen_same {st st' : St} (h : st.loosen = some st') :
    Same st.nodes st'.nodes ∧ st'.stack = st.stack ∧ st'.leaf = st.leaf ∧ st'.blanks = st.blanks := by
  unfold St.loosen at h
  split at h
  · split at h
    · cases h
    · split at h
      · cases h
      · rename_i hl
        cases h
        obtain ⟨h1, h2, h3, h4⟩ := loosenLoop_same hl
        exact ⟨h1, h2, h3, h4⟩
  · cases h; exact ⟨Same.refl _, rfl, rfl, rfl⟩

/-- The lines read so far, and the state. -/
def Acc (lines : List (List Byte)) (st : St) : Prop :=
  ∃ ls bl, lines = ls ++ bl ∧ Keeps ls (flat st.nodes) ∧ (∀ l ∈ bl, Blank l) ∧
    ∀ lf, st.leaf = some lf → isType st.nodes .code lf = true → bl.length = st.blanks

theorem Acc.all {lines : List (List Byte)} {st : St} (h : Acc lines st) :
    Keeps lines (flat st.nodes) := by
  obtain ⟨ls, bl, rfl, h1, h2, _⟩ := h
  have := h1.append (keeps_blank h2)
  rwa [List.append_nil] at this

theorem Acc.of_keeps {lines : List (List Byte)} {st : St} (h : Keeps lines (flat st.nodes))
    (hl : ∀ lf, st.leaf = some lf → isType st.nodes .code lf = true → st.blanks = 0) :
    Acc lines st :=
  ⟨lines, [], by simp, h, by simp, fun lf h1 h2 => by rw [hl lf h1 h2]; rfl⟩

theorem Acc.same {lines : List (List Byte)} {st st' : St} (h : Acc lines st)
    (hs : Same st.nodes st'.nodes) (hl : st'.leaf = none ∨ st'.leaf = st.leaf ∧ st'.blanks = st.blanks) :
    Acc lines st' := by
  obtain ⟨ls, bl, h1, h2, h3, h4⟩ := h
  refine ⟨ls, bl, h1, hs.flat ▸ h2, h3, fun lf hlf hty => ?_⟩
  rcases hl with hl | ⟨hl, hb⟩
  · rw [hl] at hlf; cases hlf
  · rw [hs.isType] at hty
    rw [hl] at hlf
    rw [hb]; exact h4 lf hlf hty

theorem truncate_ok {st : St} {k : Nat} (h : Ok st) : Ok (st.truncate k) := by
  unfold St.truncate
  split
  · exact h.same (Same.refl _) (List.take_sublist _ _) (Or.inl rfl)
  · exact h

theorem truncate_acc {st : St} {k : Nat} {lines : List (List Byte)} (h : Acc lines st) :
    Acc lines (st.truncate k) := by
  unfold St.truncate
  split
  · exact h.same (Same.refl _) (Or.inl rfl)
  · exact h

/-- Adding container nodes. -/
theorem Ok.grow {st st' : St} {new : List BNode} (h : Ok st) (hn : st'.nodes = st.nodes ++ new)
    (hr : ∀ n ∈ new, n.raw = [])
    (hp : ∀ k n, new[k]? = some n → ∃ p, n.parent = some p ∧ p < st.nodes.length + k ∧ Cont st'.nodes p)
    (hk : ∀ i ∈ st'.stack, Cont st'.nodes i) (ho : Ord st'.nodes st'.stack) (hl : st'.leaf = none ∨ st'.leaf = st.leaf) :
    Ok st' := by
  refine ⟨⟨by rw [hn]; have := h.tree.1; simp; omega, fun i n hi => ?_⟩, hk, fun lf hlf => ?_, ho⟩
  · rw [hn] at hi
    by_cases hlt : i < st.nodes.length
    · rw [List.getElem?_append_left hlt] at hi
      obtain ⟨k1, k2, k3⟩ := h.tree.2 i n hi
      refine ⟨k1, fun h0 => ?_, k3⟩
      obtain ⟨p, e1, e2, e3⟩ := k2 h0
      exact ⟨p, e1, e2, hn ▸ e3.append _⟩
    · rw [List.getElem?_append_right (by omega)] at hi
      have := h.tree.1
      obtain ⟨p, h1, h2, h3⟩ := hp _ n hi
      exact ⟨fun e => by omega, fun _ => ⟨p, h1, by omega, h3⟩,
        fun e => absurd (hr n (List.mem_of_getElem? hi)) e⟩
  · rcases hl with hl | hl
    · rw [hl] at hlf; cases hlf
    · rw [hl] at hlf
      have hlt := h.leaf_lt hlf
      obtain ⟨h1, h2⟩ := h.leaf lf hlf
      refine ⟨by rw [hn, List.getElem?_append_left hlt]; exact h1, fun j n hj hjn => ?_⟩
      rw [hn] at hjn
      by_cases hlt : j < st.nodes.length
      · rw [List.getElem?_append_left hlt] at hjn
        exact h2 j n hj hjn
      · rw [List.getElem?_append_right (by omega)] at hjn
        exact hr n (List.mem_of_getElem? hjn)

theorem isType_append {a b : List BNode} {ty : BType} {i : Nat} (h : i < a.length) :
    isType (a ++ b) ty i = isType a ty i := by
  unfold isType; rw [List.getElem?_append_left h]

theorem Acc.grow {lines : List (List Byte)} {st st' : St} {new : List BNode} (h : Acc lines st)
    (hok : Ok st) (hn : st'.nodes = st.nodes ++ new) (hr : ∀ n ∈ new, n.raw = [])
    (hl : st'.leaf = none ∨ st'.leaf = st.leaf ∧ st'.blanks = st.blanks) : Acc lines st' := by
  obtain ⟨ls, bl, h1, h2, h3, h4⟩ := h
  refine ⟨ls, bl, h1, by rw [hn, flat_append, flat_nil hr, List.append_nil]; exact h2, h3,
    fun lf hlf hty => ?_⟩
  rcases hl with hl | ⟨hl, hb⟩
  · rw [hl] at hlf; cases hlf
  · rw [hl] at hlf
    rw [hn, isType_append (hok.leaf_lt hlf)] at hty
    rw [hb]; exact h4 lf hlf hty

theorem getLast_stack {st : St} {p : Nat} (h : Ok st) (hp : st.stack.getLast? = some p) :
    Cont st.nodes p := h.stack p (List.mem_of_getLast? hp)

theorem addItem_some {st : St} {l p outer : Nat} {num : Int} {punc : Byte}
    {lines : List (List Byte)} (h : Ok st) (ha : Acc lines st) (hl : st.leaf = none)
    (hc : Cont st.nodes l)
    (hpl : Fine st.nodes st.stack →
      Anc st.nodes l (st.nodes.length - 1) ∧ ∀ x ∈ st.stack, Anc st.nodes x l) :
    Ok (st.addItem (some l) p outer num punc) ∧ Acc lines (st.addItem (some l) p outer num punc) := by
  refine ⟨h.grow (new := [_]) rfl (by simp) ?_ ?_ ?_ (Or.inl hl),
    ha.grow (new := [_]) h rfl (by simp) (Or.inl hl)⟩
  · intro k n hk
    have : k = 0 := by
      have := (List.getElem?_eq_some_iff.mp hk).1
      simp at this; exact this
    subst this
    simp at hk; subst hk
    exact ⟨l, rfl, hc.lt, hc.append _⟩
  · intro i hi
    simp only [St.addItem, List.mem_append, List.mem_singleton] at hi ⊢
    rcases hi with hi | rfl
    · exact (h.stack i hi).append _
    · exact ⟨_, by simp; rfl, rfl⟩
  · exact h.ord.snoc rfl hpl

theorem tree_snoc {nodes : List BNode} {n : BNode} {p : Nat} (h : Tree nodes) (hn : n.parent = some p)
    (hp : Cont nodes p) (hr : n.raw ≠ [] → n.type.isContainer = false) : Tree (nodes ++ [n]) := by
  refine ⟨by simp, fun i m hi => ?_⟩
  by_cases hlt : i < nodes.length
  · rw [List.getElem?_append_left hlt] at hi
    obtain ⟨k1, k2, k3⟩ := h.2 i m hi
    refine ⟨k1, fun h0 => ?_, k3⟩
    obtain ⟨q, e1, e2, e3⟩ := k2 h0
    exact ⟨q, e1, e2, e3.append _⟩
  · have hi0 := (List.getElem?_eq_some_iff.mp hi).1
    have e : i = nodes.length := by simp at hi0; omega
    subst e
    rw [List.getElem?_append_right (by omega)] at hi
    simp at hi; subst hi
    have := h.1
    exact ⟨fun e => by omega, fun _ => ⟨p, hn, hp.lt, hp.append _⟩, hr⟩

theorem addItem_none {st : St} {p outer : Nat} {num : Int} {punc : Byte}
    {lines : List (List Byte)} (h : Ok st) (ha : Acc lines st) (hl : st.leaf = none)
    (hp : Cont st.nodes p)
    (hpl : isType st.nodes .list p = true ∨ (Fine st.nodes st.stack →
      Anc st.nodes p (st.nodes.length - 1) ∧ ∀ x ∈ st.stack, Anc st.nodes x p)) :
    Ok (st.addItem none p outer num punc) ∧ Acc lines (st.addItem none p outer num punc) := by
  refine ⟨h.grow (new := [_, _]) rfl (by simp) ?_ ?_ ?_ (Or.inl hl),
    ha.grow (new := [_, _]) h rfl (by simp) (Or.inl hl)⟩
  · intro k n hk
    have hk2 : k < 2 := by
      have := (List.getElem?_eq_some_iff.mp hk).1
      simpa using this
    have : k = 0 ∨ k = 1 := by omega
    rcases this with rfl | rfl
    · simp at hk; subst hk
      exact ⟨p, rfl, hp.lt, hp.append _⟩
    · simp at hk; subst hk
      exact ⟨st.nodes.length, rfl, by omega, _, by simp [St.addItem]; rfl, rfl⟩
  · intro i hi
    simp only [St.addItem, List.mem_append, List.mem_singleton] at hi ⊢
    rcases hi with hi | rfl
    · exact (h.stack i hi).append _
    · exact ⟨_, by rw [List.getElem?_append_right (by omega), Nat.add_sub_cancel_left]; rfl, rfl⟩
  · rcases hpl with hpl | hpl
    · refine Or.inl ⟨st.nodes.length, { type := .list, parent := some p, start := num, punc := punc }, p,
        ?_, rfl, rfl, (shape_append _ _).isType hpl⟩
      simp [St.addItem]
    · have h1 := h.ord.snoc (n := { type := .list, parent := some p, start := num, punc := punc }) rfl hpl
      have h2 := h1.snoc (n := { type := .item, parent := some st.nodes.length, level := outer }) rfl
        (fun hf => hf.last (by simp))
      rw [List.append_assoc, List.length_append, List.length_singleton] at h2
      refine h2.shape rfl (fun i n hn => ⟨n, hn, rfl, rfl⟩) ?_
      exact List.Sublist.append (List.sublist_append_left _ _) (List.Sublist.refl _)

theorem mem_childrenOf {nodes : List BNode} {p c : Nat} (h : c ∈ childrenOf nodes p) :
    ∃ n, nodes[c]? = some n ∧ n.parent = some p := by
  unfold childrenOf at h
  rw [List.mem_filter] at h
  cases hn : nodes[c]? with
  | none => rw [hn] at h; simp at h
  | some n => rw [hn] at h; exact ⟨n, rfl, by simpa using h.2⟩

theorem childrenOf_last {nodes : List BNode} {p c : Nat} (h : (childrenOf nodes p).getLast? = some c)
    {d : Nat} (hd : d ∈ childrenOf nodes p) : d ≤ c := by
  have hs : (childrenOf nodes p).Pairwise (· < ·) := by
    unfold childrenOf
    exact List.Pairwise.filter _ List.pairwise_lt_range
  obtain ⟨l, e⟩ := List.getLast?_eq_some_iff.mp h
  rw [e] at hs hd
  rw [List.pairwise_append] at hs
  rcases List.mem_append.mp hd with hd | hd
  · exact Nat.le_of_lt (hs.2.2 d hd c (by simp))
  · rw [List.mem_singleton.mp hd]; exact Nat.le_refl _

theorem childrenOf_mem {nodes : List BNode} {p c : Nat} {n : BNode} (h : nodes[c]? = some n)
    (hp : n.parent = some p) : c ∈ childrenOf nodes p := by
  unfold childrenOf
  rw [List.mem_filter, List.mem_range]
  refine ⟨(List.getElem?_eq_some_iff.mp h).1, ?_⟩
  rw [h]; simp [hp]

/-- The way down to a node goes through a child. -/
theorem Anc.child {nodes : List BNode} {i j : Nat} (h : Anc nodes i j) :
    i = j ∨ ∃ c, c ∈ childrenOf nodes i ∧ Anc nodes c j := by
  induction h with
  | refl => exact Or.inl rfl
  | step h1 h2 _ ih =>
    rcases ih with rfl | ⟨c, k1, k2⟩
    · exact Or.inr ⟨_, childrenOf_mem h1 h2, .refl⟩
    · exact Or.inr ⟨c, k1, .step h1 h2 k2⟩

theorem Tree.lt {nodes : List BNode} (ht : Tree nodes) {i p : Nat} {n : BNode}
    (h : nodes[i]? = some n) (hp : n.parent = some p) : p < i := by
  obtain ⟨k1, k2, _⟩ := ht.2 i n h
  by_cases h0 : i = 0
  · rw [(k1 h0).1] at hp; cases hp
  · obtain ⟨q, e1, e2, _⟩ := k2 (by omega)
    rw [e1] at hp; cases hp; exact e2

/-- A later child is not under an earlier one. -/
theorem Anc.sibling {nodes : List BNode} (ht : Tree nodes) {p c d : Nat} (hc : c ∈ childrenOf nodes p)
    (hd : d ∈ childrenOf nodes p) (hne : c ≠ d) : ¬ Anc nodes c d := by
  intro h
  obtain ⟨nc, hc1, hc2⟩ := mem_childrenOf hc
  obtain ⟨nd, hd1, hd2⟩ := mem_childrenOf hd
  cases h with
  | refl => exact hne rfl
  | step h1 h2 h3 =>
    rw [hd1] at h1; cases h1
    rw [hd2] at h2; cases h2
    have := h3.le ht
    have := ht.lt hc1 hc2
    omega

theorem lastChild_anc {nodes : List BNode} (ht : Tree nodes) (hp : Pre nodes) {p c : Nat}
    (h : Anc nodes p (nodes.length - 1)) (hc : (childrenOf nodes p).getLast? = some c) :
    Anc nodes p c ∧ Anc nodes c (nodes.length - 1) := by
  have hcm := List.mem_of_getLast? hc
  obtain ⟨n, h1, h2⟩ := mem_childrenOf hcm
  have hlt := (List.getElem?_eq_some_iff.mp h1).1
  refine ⟨.step h1 h2 .refl, ?_⟩
  rcases h.child with e | ⟨d, k1, k2⟩
  · have := ht.lt h1 h2
    omega
  · have hdc := childrenOf_last hc k1
    by_cases e : d = c
    · exact e ▸ k2
    · exfalso
      have hle : c ≤ nodes.length - 1 := by omega
      refine Anc.sibling ht k1 hcm e (Anc.mid ht hp (nodes.length - 1 - c) c ?_ hdc)
      rw [Nat.add_sub_cancel' hle]; exact k2

theorem gotListMarker_ok {st st' : St} {outer : Nat} {num : Int} {punc : Byte}
    {lines : List (List Byte)} (h : Ok st) (ha : Acc lines st)
    (hg : st.gotListMarker outer num punc = some st') : Ok st' ∧ Acc lines st' := by
  unfold St.gotListMarker at hg
  dsimp only at hg
  have h0 : Ok { st with leaf := none, blanks := 0 } :=
    h.same (Same.refl _) (List.Sublist.refl _) (Or.inl rfl)
  have a0 : Acc lines { st with leaf := none, blanks := 0 } := ha.same (Same.refl _) (Or.inl rfl)
  split at hg
  · cases hg
  · rename_i p hp
    have hp' := getLast_stack h hp
    split at hg
    · cases hg
    · rename_i par hpar
      split at hg
      · cases hg
      · split at hg
        · rename_i c hc
          split at hg
          · cases hg
          · rename_i child hchild
            split at hg
            · rename_i hty
              cases hg
              refine addItem_some h0 a0 rfl ⟨child, hchild, by rw [hty.1]; rfl⟩ (fun hf => ?_)
              obtain ⟨k1, k2⟩ := hf.last hp
              obtain ⟨k3, k4⟩ := lastChild_anc h.tree hf.1 k1 hc
              exact ⟨k4, fun x hx => (k2 x hx).trans k3⟩
            · cases hg
              exact addItem_none h0 a0 rfl hp' (Or.inr fun hf => hf.last hp)
        · split at hg
          · split at hg
            · cases hg
            · rename_i g hg'
              split at hg
              · rename_i hty
                cases hg
                have : Cont st.nodes g := by
                  have ht := h.tree.2 p par hpar
                  by_cases h0 : p = 0
                  · rw [(ht.1 h0).1] at hg'; cases hg'
                  · obtain ⟨q, h1, h2, h3⟩ := ht.2.1 (by omega)
                    rw [h1] at hg'; cases hg'; exact h3
                exact addItem_none h0 a0 rfl this (Or.inl hty)
              · cases hg
          · cases hg
            exact addItem_none h0 a0 rfl hp' (Or.inr fun hf => hf.last hp)

theorem listMarker_st {st st' : St} {lc lc' : LC} {num : Int} {punc : Byte}
    {lines : List (List Byte)} (h : Ok st) (ha : Acc lines st)
    (hm : listMarker st lc num punc = some (some (st', lc'))) : Ok st' ∧ Acc lines st' := by
  unfold listMarker at hm
  split at hm
  · cases hm
  · split at hm
    · cases hm
    · split at hm
      · cases hm
      · rename_i hg
        cases hm
        exact gotListMarker_ok h ha hg

theorem markerStep_st {st st' : St} {lc lc' : LC} {c : Byte} {r : List Byte}
    {lines : List (List Byte)} (h : Ok st) (ha : Acc lines st)
    (hm : markerStep st lc c r = some (some (st', lc'))) : Ok st' ∧ Acc lines st' := by
  unfold markerStep at hm
  split at hm
  · cases hm
  · split at hm
    · split at hm
      · cases hm
      · rename_i p hp
        cases hm
        refine ⟨h.grow (new := [_]) rfl (by simp) ?_ ?_ (h.ord.snoc rfl fun hf => hf.last hp) (Or.inr rfl),
          ha.grow (new := [_]) h rfl (by simp) (Or.inr ⟨rfl, rfl⟩)⟩
        · intro k n hk
          have : k = 0 := by
            have := (List.getElem?_eq_some_iff.mp hk).1
            simp at this; exact this
          subst this
          simp at hk; subst hk
          exact ⟨p, rfl, (getLast_stack h hp).lt, (getLast_stack h hp).append _⟩
        · intro i hi
          simp only [List.mem_append, List.mem_singleton] at hi ⊢
          rcases hi with hi | rfl
          · exact (h.stack i hi).append _
          · exact ⟨_, by simp; rfl, rfl⟩
    · split at hm
      · exact listMarker_st h ha hm
      · split at hm
        · dsimp only at hm
          split at hm
          · cases hm
          · split at hm
            · cases hm
            · split at hm
              · split at hm
                · exact listMarker_st h ha hm
                · cases hm
              · cases hm
        · cases hm

theorem markerLoop_st {lines : List (List Byte)} : ∀ {n : Nat} {st st' : St} {lc lc' : LC}, Ok st →
    Acc lines st → markerLoop n st lc = some (st', lc') → Ok st' ∧ Acc lines st'
  | 0, st, st', lc, lc', h, ha, hm => by rw [markerLoop] at hm; cases hm; exact ⟨h, ha⟩
  | n + 1, st, st', lc, lc', h, ha, hm => by
    rw [markerLoop] at hm
    split at hm
    · cases hm; exact ⟨h, ha⟩
    · split at hm
      · cases hm; exact ⟨h, ha⟩
      · split at hm
        · cases hm
        · cases hm; exact ⟨h, ha⟩
        · rename_i hs
          obtain ⟨h1, h2⟩ := markerStep_st h ha hs
          exact markerLoop_st h1 h2 hm

theorem appendRaw_ok {st : St} {lf : Nat} {ls : List (List Byte)} {b : Nat} (h : Ok st)
    (hlf : st.leaf = some lf) :
    Ok { st with nodes := appendRaw st.nodes lf ls, blanks := b } := by
  have hget : ∀ i n', (appendRaw st.nodes lf ls)[i]? = some n' →
      ∃ n, st.nodes[i]? = some n ∧ n'.parent = n.parent ∧ (i ≠ lf → n'.raw = n.raw) ∧
        n'.type = n.type := by
    intro i n' hn
    unfold appendRaw at hn
    rw [List.getElem?_modify] at hn
    cases hx : st.nodes[i]? with
    | none => rw [hx] at hn; simp at hn
    | some n =>
      rw [hx] at hn
      refine ⟨n, rfl, ?_⟩
      by_cases e : lf = i
      · simp [e] at hn; subst hn; exact ⟨rfl, fun h => absurd e.symm h, rfl⟩
      · simp [e] at hn; subst hn; exact ⟨rfl, fun _ => rfl, rfl⟩
  have hlen : (appendRaw st.nodes lf ls).length = st.nodes.length := by simp [appendRaw]
  have hty : ∀ (i : Nat) (n : BNode), st.nodes[i]? = some n →
      ∃ n' : BNode, (appendRaw st.nodes lf ls)[i]? = some n' ∧ n'.type = n.type := by
    intro i n hn
    unfold appendRaw
    rw [List.getElem?_modify, hn]
    by_cases e : lf = i
    · exact ⟨{ n with raw := n.raw ++ ls }, by simp [e], rfl⟩
    · exact ⟨n, by simp [e], rfl⟩
  have hcont : ∀ i, Cont st.nodes i → Cont (appendRaw st.nodes lf ls) i := by
    intro i ⟨n, h1, h2⟩
    obtain ⟨n', k1, k2⟩ := hty i n h1
    exact ⟨n', k1, k2 ▸ h2⟩
  obtain ⟨⟨nl, hl1, hl2⟩, hl3⟩ := h.leaf lf hlf
  refine ⟨⟨by show 0 < (appendRaw st.nodes lf ls).length; rw [hlen]; exact h.tree.1, fun i n' hn => ?_⟩,
    fun i hi => hcont i (h.stack i hi), fun lf' hl' => ?_, ?_⟩
  · obtain ⟨n, h1, h2, h3, h4⟩ := hget i n' hn
    obtain ⟨k1, k2, k3⟩ := h.tree.2 i n h1
    rw [h2, h4]
    refine ⟨k1, fun h0 => ?_, fun hr => ?_⟩
    · obtain ⟨p, e1, e2, e3⟩ := k2 h0
      exact ⟨p, e1, e2, hcont p e3⟩
    · by_cases e : i = lf
      · subst e
        rw [hl1] at h1; cases h1; exact hl2
      · rw [h3 e] at hr; exact k3 hr
  · have : lf' = lf := by
      have e : st.leaf = some lf' := hl'
      rw [hlf] at e; cases e; rfl
    subst this
    refine ⟨?_, ?_⟩
    · obtain ⟨n', k1, k2⟩ := hty lf' nl hl1
      exact ⟨n', k1, k2 ▸ hl2⟩
    intro j n' hj hn
    obtain ⟨n, h1, _, h3, _⟩ := hget j n' hn
    rw [h3 (by omega)]
    exact hl3 j n hj h1
  · refine h.ord.shape hlen ?_ (List.Sublist.refl _)
    intro i n hn
    have hi : i < (appendRaw st.nodes lf ls).length := by
      rw [hlen]; exact (List.getElem?_eq_some_iff.mp hn).1
    obtain ⟨n', k1⟩ : ∃ n', (appendRaw st.nodes lf ls)[i]? = some n' :=
      ⟨(appendRaw st.nodes lf ls)[i], by simp [hi]⟩
    obtain ⟨n2, e1, e2, _, e4⟩ := hget i n' k1
    rw [hn] at e1; cases e1
    exact ⟨n', k1, e2, e4⟩

theorem addLeaf_ok {st st' : St} {node : Nat → BNode} (h : Ok st)
    (hn : ∀ p, (node p).parent = some p) (ht : ∀ p, (node p).type.isContainer = false)
    (ha : st.addLeaf node = some st') :
    Ok st' ∧ ∃ p, st' = { st with nodes := st.nodes ++ [node p], leaf := some st.nodes.length } := by
  unfold St.addLeaf at ha
  split at ha
  · cases ha
  · rename_i p hp
    cases ha
    have hp' := getLast_stack h hp
    refine ⟨⟨tree_snoc h.tree (hn p) hp' (fun _ => ht p), fun i hi => (h.stack i hi).append _,
      fun lf hlf => ?_, ?_⟩, p, rfl⟩
    · cases hlf
      refine ⟨⟨node p, by simp, ht p⟩, fun j n hj hjn => ?_⟩
      dsimp only at hjn
      rw [List.getElem?_append_right (by omega)] at hjn
      have := (List.getElem?_eq_some_iff.mp hjn).1
      simp at this; omega
    · exact (h.ord.snoc (hn p) fun hf => hf.last hp).shape rfl (fun i n hn => ⟨n, hn, rfl, rfl⟩)
        (List.sublist_append_left _ _)

theorem LineOk.blank {line : List Byte} {lc : LC} (h : LineOk line lc) (ht : lc.trimmed = []) :
    Blank line := by
  obtain ⟨m, h1, h2, _⟩ := h
  exact ⟨m, lc.rem, h1, h2, white_of_trim ht⟩

theorem Acc.addBlank {lines : List (List Byte)} {st : St} {line : List Byte} (h : Acc lines st)
    (hb : Blank line) (hl : st.leaf = none) : Acc (lines ++ [line]) st := by
  obtain ⟨ls, bl, rfl, h2, h3, h4⟩ := h
  refine ⟨ls, bl ++ [line], by simp, h2, ?_, fun lf hlf => by rw [hl] at hlf; cases hlf⟩
  intro l hl
  rcases List.mem_append.mp hl with hl | hl
  · exact h3 l hl
  · rw [List.mem_singleton.mp hl]; exact hb

theorem addCode_ok {lines : List (List Byte)} {st st' : St} {lf : Nat} {line : List Byte} {lc : LC}
    (h : Ok st) (ha : Acc lines st) (hlf : st.leaf = some lf) (hc : isType st.nodes .code lf = true)
    (hline : LineOk line lc) (hi : lc.inner ≥ 4)
    (hadd : st.addCode lf line (lc.outer + 4) = some st') :
    Ok st' ∧ Acc (lines ++ [line]) st' := by
  unfold St.addCode at hadd
  split at hadd
  · cases hadd
  · rename_i t ht
    cases hadd
    refine ⟨appendRaw_ok h hlf, Acc.of_keeps ?_ (fun _ _ _ => rfl)⟩
    obtain ⟨ls, bl, rfl, h2, h3, h4⟩ := ha
    have hlt := h.leaf_lt hlf
    obtain ⟨_, hraw⟩ := h.leaf lf hlf
    show Keeps (ls ++ bl ++ [line]) (flat (appendRaw st.nodes lf (List.replicate st.blanks [10] ++ [t])))
    rw [flat_appendRaw hlt hraw, ← List.append_assoc, ← h4 lf hlf hc]
    exact (h2.append (keeps_blankCode h3)).append (extract_ok hline hi ht .nil)

theorem blankLine_ok {lines : List (List Byte)} {st st' : St} {line : List Byte} {lc : LC} {keep : Nat}
    (h : Ok st) (ha : Acc lines st) (hline : LineOk line lc) (ht : lc.trimmed = [])
    (hb : st.blankLine line keep lc = some st') : Ok st' ∧ Acc (lines ++ [line]) st' := by
  unfold St.blankLine at hb
  split at hb
  · cases hb
  · dsimp only at hb
    generalize hst1 : (if st.hasPara = true then { st with leaf := none } else st) = st1 at hb
    have h1 : Ok st1 ∧ Acc lines st1 := by
      rw [← hst1]
      split
      · exact ⟨h.same (Same.refl _) (List.Sublist.refl _) (Or.inl rfl), ha.same (Same.refl _) (Or.inl rfl)⟩
      · exact ⟨h, ha⟩
    split at hb
    · cases hb
    · generalize keep + ((st.stack.drop keep).takeWhile (isType st.nodes .item)).length = k at hb
      have h2 := truncate_ok (k := k) h1.1
      have a2 := truncate_acc (k := k) h1.2
      generalize st1.truncate k = st2 at *
      split at hb
      · rename_i lf hlf
        split at hb
        · rename_i hc
          split at hb
          · exact addCode_ok h2 a2 hlf hc hline (by omega) hb
          · cases hb
            refine ⟨h2.same (Same.refl _) (List.Sublist.refl _) (Or.inr rfl), ?_⟩
            obtain ⟨ls, bl, rfl, k2, k3, k4⟩ := a2
            refine ⟨ls, bl ++ [line], by simp, k2, ?_, fun lf' hlf' hc' => ?_⟩
            · intro l hl
              rcases List.mem_append.mp hl with hl | hl
              · exact k3 l hl
              · rw [List.mem_singleton.mp hl]; exact hline.blank ht
            · rw [List.length_append, k4 lf' hlf' hc']; rfl
        · cases hb
      · rename_i hlf
        obtain ⟨k1, k2, k3, k4⟩ := markLoop_same hb
        have hl' : st'.leaf = none := k3.trans hlf
        exact ⟨h2.same k1 (k2 ▸ List.Sublist.refl _) (Or.inl hl'),
          ((a2.same k1 (Or.inl hl')).addBlank (hline.blank ht) hl')⟩

theorem codeText_ok {lines : List (List Byte)} {st st' : St} {line : List Byte} {lc : LC}
    (h : Ok st) (ha : Acc lines st) (hline : LineOk line lc) (hi : lc.inner ≥ 4)
    (hc : st.codeText line lc = some st') : Ok st' ∧ Acc (lines ++ [line]) st' := by
  unfold St.codeText at hc
  split at hc
  · cases hc
  · rename_i st1 h1
    have hst1 : Ok st1 ∧ Acc lines st1 ∧ (st1.leaf = none → lc.trimmed = []) := by
      split at h1
      · split at h1
        · rename_i hb0
          obtain ⟨k1, p, rfl⟩ := addLeaf_ok h (fun p => rfl) (fun p => rfl) h1
          refine ⟨k1, Acc.of_keeps ?_ (fun _ _ _ => hb0), fun e => by cases e⟩
          show Keeps lines (flat (st.nodes ++ [_]))
          rw [flat_append, flat_nil (b := [_]) (by simp), List.append_nil]
          exact ha.all
        · cases h1
      · rename_i hn
        cases h1
        refine ⟨h, ha, fun e => ?_⟩
        apply Classical.byContradiction
        intro hne
        exact hn ⟨hne, e⟩
    obtain ⟨k1, k2, k3⟩ := hst1
    split at hc
    · rename_i hl
      cases hc
      exact ⟨k1, k2.addBlank (hline.blank (k3 hl)) hl⟩
    · rename_i lf hlf
      split at hc
      · rename_i hty
        exact addCode_ok k1 k2 hlf hty hline hi hc
      · cases hc

theorem takeWhile_eq_replicate (c : Byte) (s : List Byte) :
    s.takeWhile (fun x => x == c) = List.replicate (s.takeWhile (fun x => x == c)).length c := by
  rw [List.eq_replicate_iff]
  refine ⟨rfl, fun b hb => ?_⟩
  have := List.all_takeWhile (p := fun x => x == c) (l := s)
  rw [List.all_eq_true] at this
  simpa using this b hb

theorem white_takeWhile (s : List Byte) : White (s.takeWhile Str.isWhite) := by
  intro c hc
  have := List.all_takeWhile (p := Str.isWhite) (l := s)
  rw [List.all_eq_true] at this
  exact this c hc

theorem headingOf_ok {line : List Byte} {lc : LC} {level : Nat} {text : List Byte}
    (hline : LineOk line lc) (hh : headingOf lc = some (level, text)) :
    1 ≤ level ∧ level ≤ 6 ∧ Keeps [line] (if text = [] then [] else [text]) := by
  unfold headingOf at hh
  split at hh
  · rename_i h0
    dsimp only at hh
    split at hh
    · rename_i h1
      obtain ⟨m, e1, e2, _⟩ := hline
      generalize hk : (lc.rem.takeWhile (fun c => c == 35)).length = k at hh h1
      generalize hr : lc.rem.dropWhile (fun c => c == 35) = r at hh h1
      have e3 : lc.rem = List.replicate k 35 ++ r := by
        rw [← hr, ← hk, ← takeWhile_eq_replicate, List.takeWhile_append_dropWhile]
      have hk1 : 1 ≤ k := by
        cases hrem : lc.rem with
        | nil => rw [hrem] at h0; cases h0.1
        | cons c t =>
          rw [hrem] at h0
          simp only [List.head?_cons, Option.some.injEq] at h0
          rw [← hk, hrem, List.takeWhile_cons_of_pos (by simp [h0.1])]
          simp
      generalize hr' : r.dropWhile Str.isWhite = r' at hh h1
      have e4 : r = r.takeWhile Str.isWhite ++ r' := by
        rw [← hr', List.takeWhile_append_dropWhile]
      have hw := white_takeWhile r
      simp only [Option.some.injEq, Prod.mk.injEq] at hh
      obtain ⟨rfl, rfl⟩ := hh
      refine ⟨hk1, h1.1, ?_⟩
      rw [e1, e3, ← List.append_assoc]
      split
      · rename_i ht
        refine .emptyHeading e2 hk1 h1.1 ?_ .nil
        intro c hc
        rw [e4] at hc
        rcases List.mem_append.mp hc with hc | hc
        · exact hw c hc
        · exact white_of_trim ht c hc
      · rename_i ht
        refine .heading e2 hk1 h1.1 ?_ .nil
        obtain ⟨a, b, f1, f2, f3, f4⟩ := trimmed_of_ne ht
        refine ⟨r.takeWhile Str.isWhite ++ a, b, ?_, ?_, f3, f4⟩
        · rw [List.append_assoc, List.append_assoc, ← List.append_assoc a, ← f1, ← e4]
        · intro c hc
          rcases List.mem_append.mp hc with hc | hc
          · exact hw c hc
          · exact f2 c hc
    · cases hh
  · cases hh

theorem isType_para_not_code {nodes : List BNode} {i : Nat} (h : isType nodes .para i = true) :
    isType nodes .code i = false := by
  unfold isType at *
  split at h
  · cases h
  · simp only [beq_iff_eq] at h; simp [h]

theorem isType_appendRaw (nodes : List BNode) (lf : Nat) (ls : List (List Byte)) (ty : BType) (i : Nat) :
    isType (appendRaw nodes lf ls) ty i = isType nodes ty i := by
  unfold isType appendRaw
  rw [List.getElem?_modify]
  cases nodes[i]? with
  | none => simp
  | some n => by_cases e : lf = i <;> simp [e]

theorem addText_ok {lines : List (List Byte)} {st st' : St} {line : List Byte} {lc : LC}
    (h : Ok st) (ha : Acc lines st) (hline : LineOk line lc) (ht : lc.trimmed ≠ [])
    (hadd : st.addText lc st.hasPara = some st') : Ok st' ∧ Acc (lines ++ [line]) st' := by
  unfold St.addText at hadd
  split at hadd
  · rename_i level text hh
    obtain ⟨_, _, hk⟩ := headingOf_ok hline hh
    split at hadd
    · cases hadd
    · rename_i st1 h1
      cases hadd
      obtain ⟨k1, p, rfl⟩ := addLeaf_ok h (fun p => rfl) (fun p => rfl) h1
      refine ⟨k1.same (Same.refl _) (List.Sublist.refl _) (Or.inl rfl), Acc.of_keeps ?_
        (fun lf e => by cases e)⟩
      show Keeps (lines ++ [line]) (flat (st.nodes ++ [headingNode level text p]))
      rw [flat_append]
      have : flat [headingNode level text p] = if text = [] then [] else [text] := by
        simp [flat, headingNode]
      rw [this]
      exact ha.all.append hk
  · split at hadd
    · cases hadd
    · rename_i st1 h1
      have hst1 : Ok st1 ∧ Keeps lines (flat st1.nodes) ∧
          ∀ lf, st1.leaf = some lf → isType st1.nodes .para lf = true := by
        split at h1
        · rename_i hp
          cases h1
          refine ⟨h, ha.all, fun lf hlf => ?_⟩
          unfold St.hasPara at hp
          rw [hlf] at hp
          exact hp
        · rw [Option.map_eq_some_iff] at h1
          obtain ⟨st2, h2, rfl⟩ := h1
          obtain ⟨k1, p, rfl⟩ := addLeaf_ok h (fun p => rfl) (fun p => rfl) h2
          refine ⟨k1.same (Same.refl _) (List.Sublist.refl _) (Or.inr rfl), ?_, fun lf hlf => ?_⟩
          · show Keeps lines (flat (st.nodes ++ [_]))
            rw [flat_append, flat_nil (b := [_]) (by simp), List.append_nil]
            exact ha.all
          · cases hlf
            unfold isType
            simp
      obtain ⟨k1, k2, k3⟩ := hst1
      split at hadd
      · cases hadd
      · rename_i lf hlf
        cases hadd
        refine ⟨appendRaw_ok (b := st1.blanks) k1 hlf, Acc.of_keeps ?_ (fun lf' hlf' hc => ?_)⟩
        · have hlt := k1.leaf_lt hlf
          obtain ⟨_, hraw⟩ := k1.leaf lf hlf
          show Keeps (lines ++ [line]) (flat (appendRaw st1.nodes lf [lc.trimmed]))
          rw [flat_appendRaw hlt hraw]
          obtain ⟨m, e1, e2, _⟩ := hline
          rw [e1]
          exact k2.append (.text e2 (trimmed_of_ne ht) .nil)
        · have := isType_para_not_code (k3 lf' hlf')
          have hc' : isType (appendRaw st1.nodes lf [lc.trimmed]) .code lf' = true := hc
          rw [isType_appendRaw, this] at hc'
          cases hc'

theorem hasPara_same {st st' : St} (hs : Same st.nodes st'.nodes) (hl : st'.leaf = st.leaf) :
    st'.hasPara = st.hasPara := by
  unfold St.hasPara
  rw [hl]
  cases st.leaf with
  | none => rfl
  | some lf => exact hs.isType _ _

theorem parseLine_ok {lines : List (List Byte)} {st st' : St} {line : List Byte} (h : Ok st)
    (ha : Acc lines st) (hp : parseLine st line = some st') : Ok st' ∧ Acc (lines ++ [line]) st' := by
  unfold parseLine matchExisting at hp
  cases hm : matchLoop st.nodes (st.stack.drop 1) 1 ⟨line, 0, 0⟩ with
  | none => rw [hm] at hp; cases hp
  | some kl =>
    obtain ⟨keep, lc⟩ := kl
    rw [hm] at hp
    dsimp only at hp
    have hline := (matchLoop_ok (LineOk.init line) hm).1
    by_cases ht : lc.trimmed = []
    · rw [if_pos ht] at hp
      cases hb : st.blankLine line keep lc with
      | none => rw [hb] at hp; cases hp
      | some st1 =>
        rw [hb] at hp
        cases hp
        exact blankLine_ok h ha hline ht hb
    · rw [if_neg ht] at hp
      dsimp only at hp
      have h1 := truncate_ok (k := keep) h
      have a1 := truncate_acc (k := keep) ha
      generalize st.truncate keep = st1 at *
      unfold parseNewMarkers at hp
      rw [if_neg ht] at hp
      cases hml : markerLoop lc.rem.length st1 lc with
      | none => rw [hml] at hp; cases hp
      | some r =>
        obtain ⟨st2, lc2⟩ := r
        rw [hml] at hp
        dsimp only at hp
        have hline2 := markerLoop_ok hline hml
        obtain ⟨h2, a2⟩ := markerLoop_st h1 a1 hml
        unfold parseParagraphText at hp
        split at hp
        · rename_i hc
          simp only [Bool.and_eq_true, decide_eq_true_eq] at hc
          exact codeText_ok h2 a2 hline2 hc.2 hp
        · split at hp
          · rename_i ht2
            cases hl : st2.loosen with
            | none => rw [hl] at hp; cases hp
            | some st3 =>
              rw [hl] at hp
              dsimp only at hp
              obtain ⟨k1, k2, k3, k4⟩ := loosen_same hl
              rw [← hasPara_same k1 k3] at hp
              exact addText_ok (h2.same k1 (k2 ▸ List.Sublist.refl _) (Or.inr k3))
                (a2.same k1 (Or.inr ⟨k3, k4⟩)) hline2 ht2 hp
          · rename_i ht2
            have ht2' : lc2.trimmed = [] := by
              apply Classical.byContradiction; exact ht2
            split at hp
            · cases hp
            · rename_i hl
              cases hp
              have hl' : st'.leaf = none := by
                simpa using hl
              exact ⟨h2, a2.addBlank (hline2.blank ht2') hl'⟩

theorem parseLines_ok : ∀ {ls lines : List (List Byte)} {st st' : St}, Ok st → Acc lines st →
    parseLines st ls = some st' → Ok st' ∧ Acc (lines ++ ls) st'
  | [], lines, st, st', h, ha, hp => by
    rw [parseLines] at hp; cases hp; rw [List.append_nil]; exact ⟨h, ha⟩
  | l :: ls, lines, st, st', h, ha, hp => by
    rw [parseLines] at hp
    split at hp
    · cases hp
    · rename_i st1 h1
      obtain ⟨k1, k2⟩ := parseLine_ok h ha h1
      have := parseLines_ok k1 k2 hp
      rw [List.append_assoc] at this
      exact this

theorem parseBlocks_ok {src : List Byte} {nodes : List BNode} (h : parseBlocks src = some nodes) :
    Tree nodes ∧ Keeps (splitLines src) (flat nodes) ∧ (Bad nodes ∨ Pre nodes) := by
  unfold parseBlocks at h
  rw [Option.map_eq_some_iff] at h
  obtain ⟨st, h1, rfl⟩ := h
  have hok : Ok St.init := by
    refine ⟨⟨by decide, fun i n hi => ?_⟩, fun i hi => ?_, fun lf hlf => (by cases hlf),
      Or.inr ⟨fun i n p hn hp => ?_, fun s hs => ?_, by simp [St.init]⟩⟩
    · have : i = 0 := by
        have := (List.getElem?_eq_some_iff.mp hi).1
        simp [St.init] at this; exact this
      subst this
      simp [St.init] at hi
      subst hi
      exact ⟨fun _ => ⟨rfl, rfl⟩, fun h => by omega, fun h => absurd rfl h⟩
    · have : i = 0 := by simpa [St.init] using hi
      subst this
      exact ⟨_, rfl, rfl⟩
    · have : i = 0 := by
        have := (List.getElem?_eq_some_iff.mp hn).1
        simp [St.init] at this; exact this
      subst this
      simp [St.init] at hn
      subst hn; cases hp
    · have : s = 0 := by simpa [St.init] using hs
      subst this; exact .refl
  obtain ⟨k1, k2⟩ := parseLines_ok (lines := []) hok ⟨[], [], rfl, .nil, by simp, fun lf e => by cases e⟩ h1
  exact ⟨k1.tree, k2.all, k1.ord.imp id fun h => h.1⟩

end Verif.Markdown
