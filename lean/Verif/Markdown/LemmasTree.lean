import Verif.Markdown.LemmasBlock
import Verif.Markdown.LemmasInline
import Mathlib.Data.List.Nodup

/-!
# The finished tree has every leaf once
-/

namespace Verif.Markdown

open Verif Verif.Markdown.Spec

/-- A walk over the tree below a node. -/
def trav (nodes : List BNode) : Nat → Nat → List Nat
  | 0, _ => []
  | f + 1, i => i :: (childrenOf nodes i).flatMap (trav nodes f)

theorem count_childrenOf (nodes : List BNode) (i j : Nat) :
    (childrenOf nodes i).count j = if (nodes[j]?).any (fun n => n.parent == some i) then 1 else 0 := by
  unfold childrenOf
  by_cases h : (nodes[j]?).any (fun n => n.parent == some i) = true
  · rw [List.count_filter (p := fun x : Nat => (nodes[x]?).any (fun n : BNode => n.parent == some i)) h, if_pos h, List.count_eq_one_of_mem List.nodup_range]
    rw [List.mem_range]
    cases hn : nodes[j]? with
    | none => rw [hn] at h; simp at h
    | some n => exact (List.getElem?_eq_some_iff.mp hn).1
  · rw [if_neg h, List.count_eq_zero_of_not_mem]
    intro hm
    exact h (List.mem_filter.mp hm).2

theorem count_trav (nodes : List BNode) (j : Nat) (f i : Nat) :
    (trav nodes (f + 1) i).count j = (if i = j then 1 else 0) +
      match (nodes[j]?).bind (fun n => n.parent) with
      | none => 0
      | some p => (trav nodes f i).count p := by
  induction f generalizing i with
  | zero =>
    have : (childrenOf nodes i).flatMap (trav nodes 0) = [] := by
      rw [List.flatMap_eq_nil_iff]; intro x _; rfl
    have e : trav nodes (0 + 1) i = [i] := by rw [trav, this]
    have e0 : trav nodes 0 i = [] := rfl
    rw [e, e0, List.count_singleton]
    cases (nodes[j]?).bind (fun n => n.parent) <;> simp
  | succ f ih =>
    rw [trav, List.count_cons, List.count_flatMap]
    have hs : ∀ cs : List Nat, (cs.map (List.count j ∘ trav nodes (f + 1))).sum = cs.count j +
        match (nodes[j]?).bind (fun n => n.parent) with
        | none => 0
        | some p => (cs.map (List.count p ∘ trav nodes f)).sum := by
      intro cs
      induction cs with
      | nil => cases (nodes[j]?).bind (fun n => n.parent) <;> rfl
      | cons c cs ihc =>
        rw [List.map_cons, List.sum_cons, ihc, Function.comp, ih c, List.count_cons]
        cases (nodes[j]?).bind (fun n => n.parent) with
        | none => by_cases e : c = j <;> simp [e] ; omega
        | some p =>
          by_cases e : c = j <;> simp [e] <;> omega
    rw [hs, count_childrenOf]
    cases hb : (nodes[j]?).bind (fun n => n.parent) with
    | none =>
      have : (nodes[j]?).any (fun n => n.parent == some i) = false := by
        cases hn : nodes[j]? with
        | none => rfl
        | some n => rw [hn] at hb; simp at hb; simp [hb]
      simp [this]
    | some p =>
      have : (nodes[j]?).any (fun n => n.parent == some i) = decide (p = i) := by
        cases hn : nodes[j]? with
        | none => rw [hn] at hb; simp at hb
        | some n =>
          rw [hn] at hb; simp at hb
          by_cases e : p = i <;> simp [hb, e]
      rw [this]
      dsimp only
      rw [trav, List.count_cons, List.count_flatMap]
      generalize ((childrenOf nodes i).map (List.count p ∘ trav nodes f)).sum = x
      have e1 : (if (i == j) = true then 1 else 0) = if i = j then 1 else 0 := by
        by_cases e : i = j <;> simp [e]
      have e2 : (if (i == p) = true then 1 else 0) = if decide (p = i) = true then 1 else 0 := by
        by_cases e : p = i
        · simp [e]
        · have : ¬ i = p := fun h => e h.symm
          simp [e, this]
      rw [e1, e2]
      omega

theorem count_root {nodes : List BNode} (ht : Tree nodes) : ∀ (f j : Nat), j < f →
    (trav nodes f 0).count j = if j < nodes.length then 1 else 0
  | 0, j, h => by omega
  | f + 1, j, h => by
    rw [count_trav]
    cases hn : nodes[j]? with
    | none =>
      have hl : ¬ j < nodes.length := by
        intro hlt
        rw [List.getElem?_eq_getElem hlt] at hn; cases hn
      have := ht.1
      rw [if_neg (by omega), if_neg hl]
      rfl
    | some n =>
      have hl := (List.getElem?_eq_some_iff.mp hn).1
      obtain ⟨k1, k2, _⟩ := ht.2 j n hn
      rw [if_pos hl]
      by_cases h0 : j = 0
      · subst h0
        simp [(k1 rfl).1]
      · obtain ⟨p, e1, e2, e3⟩ := k2 (by omega)
        rw [if_neg (by omega)]
        simp only [Option.bind_some, e1]
        rw [count_root ht f p (by omega), if_pos e3.lt]

/-- The walk visits every node once. -/
theorem trav_perm {nodes : List BNode} (ht : Tree nodes) :
    (trav nodes (nodes.length + 1) 0).Perm (List.range nodes.length) := by
  rw [List.perm_iff_count]
  intro j
  by_cases h : j < nodes.length
  · rw [count_root ht _ _ (by omega), if_pos h,
      List.count_eq_one_of_mem List.nodup_range (List.mem_range.mpr h)]
  · rw [List.count_eq_zero_of_not_mem (l := List.range _) (by rw [List.mem_range]; exact h), count_trav]
    have hn : nodes[j]? = none := by rw [List.getElem?_eq_none_iff]; omega
    have := ht.1
    rw [hn, if_neg (by omega)]
    rfl

theorem trav_anc {nodes : List BNode} : ∀ (f i j : Nat), j ∈ trav nodes f i → Anc nodes i j
  | 0, _, _, h => by cases h
  | f + 1, i, j, h => by
    rw [trav, List.mem_cons, List.mem_flatMap] at h
    rcases h with rfl | ⟨c, hc, hj⟩
    · exact .refl
    · obtain ⟨n, h1, h2⟩ := mem_childrenOf hc
      exact Anc.trans (.step h1 h2 .refl) (trav_anc f c j hj)

/-- If nodes are made in order, the walk is sorted. -/
theorem trav_sorted {nodes : List BNode} (ht : Tree nodes) (hp : Pre nodes) : ∀ (f i : Nat),
    (trav nodes f i).Pairwise (· < ·)
  | 0, _ => List.Pairwise.nil
  | f + 1, i => by
    rw [trav, List.pairwise_cons]
    refine ⟨fun j hj => ?_, ?_⟩
    · rw [List.mem_flatMap] at hj
      obtain ⟨c, hc, hj⟩ := hj
      obtain ⟨n, h1, h2⟩ := mem_childrenOf hc
      have := (trav_anc f c j hj).le ht
      have := ht.lt h1 h2
      omega
    · rw [List.pairwise_flatMap]
      refine ⟨fun c _ => trav_sorted ht hp f c, ?_⟩
      have hs : (childrenOf nodes i).Pairwise (· < ·) := by
        unfold childrenOf
        exact List.Pairwise.filter _ List.pairwise_lt_range
      refine List.Pairwise.imp_of_mem ?_ hs
      intro c d hc hd hcd x hx y hy
      have h1 := trav_anc f c x hx
      have h2 := (trav_anc f d y hy).le ht
      apply Classical.byContradiction
      intro hn
      have hdx : d ≤ x := by omega
      refine Anc.sibling ht hc hd (by omega) (Anc.mid ht hp (x - d) d ?_ (by omega))
      rw [Nat.add_sub_cancel' hdx]; exact h1

theorem trav_range {nodes : List BNode} (ht : Tree nodes) (hp : Pre nodes) :
    trav nodes (nodes.length + 1) 0 = List.range nodes.length :=
  (trav_perm ht).eq_of_pairwise (fun a b _ _ h1 h2 => by omega) (trav_sorted ht hp _ _)
    List.pairwise_lt_range

/-- The text of a leaf. -/
def leafRaw (nodes : List BNode) (i : Nat) : Option (List (List Byte)) :=
  match nodes[i]? with
  | none => none
  | some n => if n.type.isContainer then none else some n.raw

theorem flatten_leafRaw_aux : ∀ {nodes : List BNode}, (∀ n ∈ nodes, n.raw ≠ [] → n.type.isContainer = false) →
    (nodes.filterMap (fun n => if n.type.isContainer then none else some n.raw)).flatten = flat nodes
  | [], _ => rfl
  | n :: ns, h => by
    have ih := flatten_leafRaw_aux (nodes := ns) fun m hm => h m (List.mem_cons_of_mem _ hm)
    have hn := h n (by simp)
    rw [List.filterMap_cons]
    show _ = n.raw ++ flat ns
    rw [← ih]
    cases hc : n.type.isContainer with
    | true =>
      have : n.raw = [] := by
        apply Classical.byContradiction
        intro hne
        rw [hn hne] at hc; cases hc
      simp [this]
    | false => simp

theorem filterMap_range (nodes : List BNode) :
    (List.range nodes.length).filterMap (leafRaw nodes) =
      nodes.filterMap (fun n => if n.type.isContainer then none else some n.raw) := by
  have h : ∀ k, k ≤ nodes.length → (List.range k).filterMap (leafRaw nodes) =
      (nodes.take k).filterMap (fun n => if n.type.isContainer then none else some n.raw) := by
    intro k
    induction k with
    | zero => intro _; rfl
    | succ k ih =>
      intro hk
      rw [List.range_succ, List.filterMap_append, ih (by omega), List.take_add_one,
        List.filterMap_append, List.getElem?_eq_getElem (by omega)]
      congr 1
      simp [leafRaw, List.getElem?_eq_getElem (show k < nodes.length by omega), List.filterMap_cons]
  have := h nodes.length (Nat.le_refl _)
  rwa [List.take_length] at this

theorem flatten_leafRaw {nodes : List BNode} (ht : Tree nodes) :
    ((List.range nodes.length).filterMap (leafRaw nodes)).flatten = flat nodes := by
  rw [filterMap_range, flatten_leafRaw_aux]
  intro n hn
  obtain ⟨i, hi⟩ := List.getElem?_of_mem hn
  exact (ht.2 i n hi).2.2

theorem Spec.Each.append {α β : Type} {R : α → β → Prop} {a a' : List α} {b b' : List β}
    (h : Each R a b) (h' : Each R a' b') : Each R (a ++ a') (b ++ b') := by
  induction h with
  | nil => exact h'
  | cons h _ ih => exact .cons h ih

theorem childrenOf_leaf {nodes : List BNode} (ht : Tree nodes) {i : Nat} {n : BNode}
    (hn : nodes[i]? = some n) (hc : n.type.isContainer = false) : childrenOf nodes i = [] := by
  rw [List.eq_nil_iff_forall_not_mem]
  intro c hcm
  obtain ⟨m, h1, h2⟩ := mem_childrenOf hcm
  obtain ⟨k1, k2, _⟩ := ht.2 c m h1
  have := ht.lt h1 h2
  obtain ⟨p, e1, _, q, e3, e4⟩ := k2 (by omega)
  rw [e1] at h2; cases h2
  rw [hn] at e3; cases e3
  rw [hc] at e4; cases e4

theorem mapM_leaves {nodes : List BNode} {f : Nat}
    (ih : ∀ i b, doInlines nodes f i = some b →
      Each Holds (leaves b) ((trav nodes f i).filterMap (leafRaw nodes))) :
    ∀ {cs : List Nat} {bs : List Block}, cs.mapM (doInlines nodes f) = some bs →
      Each Holds (leavesOf bs) ((cs.flatMap (trav nodes f)).filterMap (leafRaw nodes))
  | [], bs, h => by
    simp at h; subst h
    exact .nil
  | c :: cs, bs, h => by
    rw [List.mapM_cons] at h
    cases h1 : doInlines nodes f c with
    | none => rw [h1] at h; cases h
    | some b =>
      rw [h1] at h
      cases h2 : cs.mapM (doInlines nodes f) with
      | none => rw [h2] at h; cases h
      | some bs' =>
        rw [h2] at h
        cases h
        rw [List.flatMap_cons, List.filterMap_append]
        exact (ih c b h1).append (mapM_leaves ih h2)

theorem doInlines_leaves {nodes : List BNode} (ht : Tree nodes) : ∀ (f i : Nat) (b : Block),
    doInlines nodes f i = some b → Each Holds (leaves b) ((trav nodes f i).filterMap (leafRaw nodes))
  | 0, _, _, h => by rw [doInlines] at h; cases h
  | f + 1, i, b, h => by
    rw [doInlines] at h
    cases hn : nodes[i]? with
    | none => rw [hn] at h; cases h
    | some n =>
      rw [hn] at h
      dsimp only at h
      have ih := @mapM_leaves nodes f (doInlines_leaves ht f)
      have hctr : n.type.isContainer = true → leafRaw nodes i = none := by
        intro hc; unfold leafRaw; rw [hn]; simp [hc]
      have hleaf : n.type.isContainer = false →
          (trav nodes (f + 1) i).filterMap (leafRaw nodes) = [n.raw] := by
        intro hc
        rw [trav, childrenOf_leaf ht hn hc]
        simp [leafRaw, hn, hc]
      have hex : ∀ es, expandInlineElements n.raw = some es → Each Holds [.text es] [n.raw] :=
        fun es he => .cons (expandInline_src he) .nil
      cases hty : n.type with
      | document => rw [hty] at h; cases h
      | list =>
        rw [hty] at h
        dsimp only at h
        split at h
        · cases h
        · rw [Option.map_eq_some_iff] at h
          obtain ⟨bs, h1, rfl⟩ := h
          rw [trav, List.filterMap_cons_none (hctr (by rw [hty]; rfl))]
          exact ih h1
      | item =>
        rw [hty] at h
        dsimp only at h
        split at h
        · cases h
        · rw [Option.map_eq_some_iff] at h
          obtain ⟨bs, h1, rfl⟩ := h
          rw [trav, List.filterMap_cons_none (hctr (by rw [hty]; rfl))]
          exact ih h1
      | quote =>
        rw [hty] at h
        dsimp only at h
        split at h
        · cases h
        · rw [Option.map_eq_some_iff] at h
          obtain ⟨bs, h1, rfl⟩ := h
          rw [trav, List.filterMap_cons_none (hctr (by rw [hty]; rfl))]
          exact ih h1
      | heading =>
        rw [hty] at h
        dsimp only at h
        rw [Option.map_eq_some_iff] at h
        obtain ⟨es, h1, rfl⟩ := h
        rw [hleaf (by rw [hty]; rfl)]
        exact hex es h1
      | para =>
        rw [hty] at h
        dsimp only at h
        rw [Option.map_eq_some_iff] at h
        obtain ⟨es, h1, rfl⟩ := h
        rw [hleaf (by rw [hty]; rfl)]
        exact hex es h1
      | code =>
        rw [hty] at h
        cases h
        rw [hleaf (by rw [hty]; rfl)]
        exact .cons rfl .nil

/-! ## Lists in lists -/

theorem mapM_mem {α β : Type} {f : α → Option β} : ∀ {cs : List α} {bs : List β},
    cs.mapM f = some bs → (∀ c ∈ cs, ∃ b ∈ bs, f c = some b)
  | [], _, _ => by simp
  | c :: cs, bs, h => by
    rw [List.mapM_cons] at h
    cases h1 : f c with
    | none => rw [h1] at h; cases h
    | some b =>
      rw [h1] at h
      cases h2 : cs.mapM f with
      | none => rw [h2] at h; cases h
      | some bs' =>
        rw [h2] at h
        cases h
        intro x hx
        rcases List.mem_cons.mp hx with rfl | hx
        · exact ⟨b, by simp, h1⟩
        · obtain ⟨b', k1, k2⟩ := mapM_mem h2 x hx
          exact ⟨b', List.mem_cons_of_mem _ k1, k2⟩

theorem itemsOnlyOf_mem : ∀ {bs : List Block}, itemsOnlyOf bs → ∀ b ∈ bs, itemsOnly b
  | [], _ => by simp
  | b :: bs, h => by
    rw [itemsOnlyOf] at h
    intro x hx
    rcases List.mem_cons.mp hx with rfl | hx
    · exact h.1
    · exact itemsOnlyOf_mem h.2 x hx

theorem doInlines_list {nodes : List BNode} {f i : Nat} {b : Block} (h : doInlines nodes f i = some b)
    (ht : isType nodes .list i = true) : ¬ ∃ cs, b = .item cs := by
  cases f with
  | zero => rw [doInlines] at h; cases h
  | succ f =>
    rw [doInlines] at h
    unfold isType at ht
    cases hn : nodes[i]? with
    | none => rw [hn] at h; cases h
    | some n =>
      rw [hn] at h ht
      simp only [beq_iff_eq] at ht
      dsimp only at h
      rw [ht] at h
      dsimp only at h
      split at h
      · cases h
      · rw [Option.map_eq_some_iff] at h
        obtain ⟨bs, _, rfl⟩ := h
        rintro ⟨cs, hcs⟩; cases hcs

/-- In a document whose lists have only items there is no list under a list. -/
theorem no_list {nodes : List BNode} (ht : Tree nodes) : ∀ (f i : Nat) (b : Block), doInlines nodes f i = some b →
    itemsOnly b → ∀ p ∈ trav nodes f i, isType nodes .list p = true → ∀ c ∈ childrenOf nodes p,
    isType nodes .list c = false
  | 0, _, _, h, _ => by rw [doInlines] at h; cases h
  | f + 1, i, b, h, hb => by
    rw [doInlines] at h
    cases hn : nodes[i]? with
    | none => rw [hn] at h; cases h
    | some n =>
      rw [hn] at h
      dsimp only at h
      have below : ∀ bs, (childrenOf nodes i).mapM (doInlines nodes f) = some bs → itemsOnlyOf bs →
          ∀ p ∈ (childrenOf nodes i).flatMap (trav nodes f), isType nodes .list p = true →
          ∀ c ∈ childrenOf nodes p, isType nodes .list c = false := by
        intro bs hm hbs p hp
        rw [List.mem_flatMap] at hp
        obtain ⟨d, hd, hp⟩ := hp
        obtain ⟨b', k1, k2⟩ := mapM_mem hm d hd
        exact no_list ht f d b' k2 (itemsOnlyOf_mem hbs b' k1) p hp
      have self : ∀ p, n.type ≠ .list → p = i → isType nodes .list p = true → False := by
        intro p hne e ht
        subst e
        unfold isType at ht
        rw [hn] at ht
        simp only [beq_iff_eq] at ht
        exact hne ht
      have leaf : ∀ p, n.type.isContainer = false →
          p = i ∨ p ∈ (childrenOf nodes i).flatMap (trav nodes f) →
          isType nodes .list p = true → False := by
        intro p hc hp
        rw [childrenOf_leaf ht hn hc] at hp
        rcases hp with hp | hp
        · exact self p (by intro e; rw [e] at hc; cases hc) hp
        · cases hp
      intro p hp hty
      rw [trav, List.mem_cons] at hp
      cases htype : n.type with
      | document => rw [htype] at h; cases h
      | list =>
        rw [htype] at h
        dsimp only at h
        split at h
        · cases h
        · rw [Option.map_eq_some_iff] at h
          obtain ⟨bs, h1, rfl⟩ := h
          rw [itemsOnly] at hb
          rcases hp with rfl | hp
          · intro c hc
            obtain ⟨b', k1, k2⟩ := mapM_mem h1 c hc
            cases hl : isType nodes .list c with
            | false => rfl
            | true => exact absurd (hb.1 b' k1) (doInlines_list k2 hl)
          · exact below bs h1 hb.2 p hp hty
      | item =>
        rw [htype] at h
        dsimp only at h
        split at h
        · cases h
        · rw [Option.map_eq_some_iff] at h
          obtain ⟨bs, h1, rfl⟩ := h
          rw [itemsOnly] at hb
          rcases hp with hp | hp
          · exact (self p (by rw [htype]; decide) hp hty).elim
          · exact below bs h1 hb p hp hty
      | quote =>
        rw [htype] at h
        dsimp only at h
        split at h
        · cases h
        · rw [Option.map_eq_some_iff] at h
          obtain ⟨bs, h1, rfl⟩ := h
          rw [itemsOnly] at hb
          rcases hp with hp | hp
          · exact (self p (by rw [htype]; decide) hp hty).elim
          · exact below bs h1 hb p hp hty
      | heading => exact (leaf p (by rw [htype]; rfl) hp hty).elim
      | para => exact (leaf p (by rw [htype]; rfl) hp hty).elim
      | code => exact (leaf p (by rw [htype]; rfl) hp hty).elim

theorem pre_of_items {nodes : List BNode} (ht : Tree nodes) (ho : Bad nodes ∨ Pre nodes)
    {doc : List Block} (hd : (childrenOf nodes 0).mapM (doInlines nodes nodes.length) = some doc)
    (hi : itemsOnlyOf doc) : Pre nodes := by
  rcases ho with ⟨i, n, p, h1, h2, h3, h4⟩ | ho
  · exfalso
    have hc := childrenOf_mem h1 h3
    have hp0 : p ≠ 0 := by
      intro e
      subst e
      obtain ⟨n0, e0⟩ : ∃ n0, nodes[0]? = some n0 := ⟨nodes[0]'ht.1, by simp [ht.1]⟩
      have := ((ht.2 0 n0 e0).1 rfl).2
      unfold isType at h4
      rw [e0] at h4
      simp [this] at h4
    have hpl : p < nodes.length := by
      have := ht.lt h1 h3
      have := (List.getElem?_eq_some_iff.mp h1).1
      omega
    have hm : p ∈ trav nodes (nodes.length + 1) 0 :=
      (trav_perm ht).symm.subset (List.mem_range.mpr hpl)
    rw [trav, List.mem_cons, List.mem_flatMap] at hm
    rcases hm with hm | ⟨d, hd1, hd2⟩
    · exact hp0 hm
    · obtain ⟨b, k1, k2⟩ := mapM_mem hd d hd1
      have := no_list ht _ d b k2 (itemsOnlyOf_mem hi b k1) p hd2 h4 i hc
      unfold isType at this
      rw [h1] at this
      simp [h2] at this
  · exact ho

theorem splitLoop_lines : ∀ (src cur : List Byte), 10 ∉ cur →
    LinesOf (cur.reverse ++ src) (splitLoop cur src)
  | [], cur, h => by
    rw [splitLoop, List.append_nil]
    split
    · rename_i e; subst e; exact .nil
    · rename_i e
      exact .last (by simpa using e) (by simpa using h)
  | c :: r, cur, h => by
    rw [splitLoop]
    split
    · rename_i e
      subst e
      rw [List.reverse_cons]
      exact .line (by simpa using h) (splitLoop_lines r [] (by simp))
    · rename_i e
      have := splitLoop_lines r (c :: cur) (by simp [h]; exact fun e' => e e'.symm)
      rw [List.reverse_cons, List.append_assoc] at this
      exact this

theorem splitLines_lines (src : List Byte) : LinesOf src (splitLines src) :=
  splitLoop_lines src [] (by simp)

theorem parse_kept {src : List Byte} {doc : List Block} (h : parse src = some doc) :
    ∃ nodes, Tree nodes ∧ (Bad nodes ∨ Pre nodes) ∧ Keeps (splitLines src) (flat nodes) ∧
      (childrenOf nodes 0).mapM (doInlines nodes nodes.length) = some doc ∧
      Each Holds (leavesOf doc) ((trav nodes (nodes.length + 1) 0).filterMap (leafRaw nodes)) := by
  unfold parse at h
  split at h
  · cases h
  · rename_i nodes hb
    obtain ⟨ht, hk, ho⟩ := parseBlocks_ok hb
    refine ⟨nodes, ht, ho, hk, h, ?_⟩
    have hr : leafRaw nodes 0 = none := by
      obtain ⟨n0, e0⟩ : ∃ n0, nodes[0]? = some n0 := ⟨nodes[0]'ht.1, by simp [ht.1]⟩
      unfold leafRaw
      rw [e0]
      simp [((ht.2 0 n0 e0).1 rfl).2, BType.isContainer]
    rw [trav, List.filterMap_cons_none hr]
    exact mapM_leaves (doInlines_leaves ht _) h

end Verif.Markdown
