import Verif.BTree.LemmasOps
import Verif.BTree.Client
/-!
# Lemmas: histories
-/
namespace Verif.BTree
open Spec
variable {K V : Type}

theorem advance_at {T : Traits K V} {root : Node K V} (n : Nat) {it : Iter K V} {i : Nat}
    (a : At T root it i) :
    (advance n (some it) = some none ∧ (flat root).length ≤ i + n) ∨
    ∃ it', advance n (some it) = some (some it') ∧ At T root it' (i + n) := by
  induction n generalizing it i with
  | zero => exact .inr ⟨it, rfl, a⟩
  | succ n ih =>
    rw [advance]
    rcases a.next with ⟨e1, e2⟩ | ⟨it', e1, e2⟩
    · rw [e1]
      refine .inl ⟨?_, by omega⟩
      cases n <;> rfl
    · rw [e1]
      dsimp only
      rcases ih e2 with ⟨q1, q2⟩ | ⟨it'', q1, q2⟩
      · exact .inl ⟨q1, by omega⟩
      · refine .inr ⟨it'', q1, ?_⟩
        rw [show i + (n + 1) = i + 1 + n by omega]; exact q2

theorem itemAt_at {T : Traits K V} {root : Node K V} {it : Iter K V} {i : Nat}
    (a : At T root it i) (n : Nat) : itemAt n (some (some it)) = some (flat root)[i + n]? := by
  unfold itemAt
  rcases advance_at n a with ⟨e1, e2⟩ | ⟨it', e1, e2⟩
  · simp only [e1]
    rw [List.getElem?_eq_none (by omega)]
  · simp only [e1]
    obtain ⟨g1, g2⟩ := e2.get
    rw [g1, List.getElem?_eq_getElem g2]; rfl

theorem itemBack_at {T : Traits K V} {root : Node K V} {it : Iter K V} {i : Nat}
    (a : At T root it i) (n : Nat) (h : n ≤ i) :
    itemBack n (some (some it)) = (flat root)[i - n]? := by
  have : ∃ it', retreat n it = some it' ∧ At T root it' (i - n) := by
    induction n generalizing it i with
    | zero => exact ⟨it, rfl, a⟩
    | succ n ih =>
      rw [retreat]
      rcases a.prev with ⟨e1, e2⟩ | ⟨it', e1, e2, e3⟩
      · omega
      · rw [e1]
        obtain ⟨it'', q1, q2⟩ := ih e2 (by omega)
        refine ⟨it'', q1, ?_⟩
        rw [show i - (n + 1) = i - 1 - n by omega]; exact q2
  obtain ⟨it', e1, e2⟩ := this
  unfold itemBack
  simp only [e1]
  exact e2.get.1

theorem itemAt_end (n : Nat) : itemAt n (some none : Option (Option (Iter K V))) = some none := by
  cases n <;> rfl

theorem Rep.shows {T : Traits K V} (o : StrictWeak T.less) {t : Tree K V} {l : List V}
    (r : Rep T t l) : Shows T t l := by
  refine ⟨?_, ?_, ?_, ?_⟩
  · rcases r.tree with ⟨rfl, rfl⟩ | ⟨root, h, rfl, g, rfl⟩
    · simp
    · obtain ⟨v, vs, e, -⟩ := g.first
      simp [e]
  · intro n
    rcases begin_spec r with ⟨e1, rfl, -⟩ | ⟨root, it, rfl, rfl, e1, e2⟩
    · rw [e1, itemAt_end]; simp
    · rw [e1, itemAt_at e2]; simp
  · unfold front
    rcases begin_spec r with ⟨e1, rfl, -⟩ | ⟨root, it, rfl, rfl, e1, e2⟩
    · rw [e1]; rfl
    · rw [e1]
      dsimp only
      rw [e2.get.1, List.head?_eq_getElem?]
  · intro x
    obtain ⟨i, h1, h2, h3, h4, h5⟩ := findFirstGE_spec o r x
    refine ⟨i, ⟨h1, h2, h3⟩, ?_, ?_, ?_, ?_⟩
    · intro n
      rcases h4 with ⟨e1, e2⟩ | ⟨root, it, rfl, rfl, e1, e2⟩
      · rw [e1, itemAt_end, List.getElem?_eq_none (by omega)]
      · rw [e1, itemAt_at e2]
    · intro hi
      rcases h5 with ⟨e1, e2⟩ | ⟨root, it, rfl, rfl, e1, e2, e3⟩
      · exact e1
      · omega
    · intro n hi
      rcases h5 with ⟨e1, e2⟩ | ⟨root, it, rfl, rfl, e1, e2, e3⟩
      · omega
      · rw [e1, itemAt_at e2]
    · intro n hn
      rcases h5 with ⟨e1, e2⟩ | ⟨root, it, rfl, rfl, e1, e2, e3⟩
      · omega
      · rw [e1, itemBack_at e2 n (by omega)]

theorem removeAt_spec [DecidableEq K] {T : Traits K V} (o : StrictWeak T.less) {root : Node K V}
    {it : Iter K V} {i : Nat} (hs : Sorted T.less T.idx (flat root)) (a : At T root it i) :
    ∃ t', removeAt T (some root) (some (some it)) = some (t', (flat root)[i]?) ∧
      Rep T t' ((flat root).eraseIdx i) := by
  obtain ⟨v, t', e1, e2, e3⟩ := remove_spec o hs a
  refine ⟨t', ?_, e3⟩
  simp [removeAt, e1, e2]

theorem exec_spec [DecidableEq K] {T : Traits K V} (o : StrictWeak T.less) (h2 : 2 ≤ T.cap)
    {t : Tree K V} {l : List V} (r : Rep T t l) (op : Op K V) :
    ∃ t' out l', exec T t op = some (t', out) ∧ Step T.less T.idx l op l' out ∧ Rep T t' l' ∧
      (∀ items, t = some (.leaf items) → StepQueue T.less T.idx l op l' out) ∧
      (t = none → StepQueue T.less T.idx l op l' out) := by
  -- operations other than insertion
  have other : ∀ {op : Op K V} {t' out l'}, (∀ v, op ≠ .insert v) →
      exec T t op = some (t', out) → Step T.less T.idx l op l' out → Rep T t' l' →
      ∃ t' out l', exec T t op = some (t', out) ∧ Step T.less T.idx l op l' out ∧ Rep T t' l' ∧
      (∀ items, t = some (.leaf items) → StepQueue T.less T.idx l op l' out) ∧
      (t = none → StepQueue T.less T.idx l op l' out) := fun {op t' out l'} h1 h2 h3 h4 =>
    ⟨t', out, l', h2, h3, h4, fun _ _ => .other h3 h1, fun _ => .other h3 h1⟩
  cases op with
  | insert v =>
    obtain ⟨t', a, b, e1, rfl, e3, e4, e5⟩ := insert_spec o h2 r v
    refine ⟨t', none, a ++ v :: b, by simp [exec, e1], .insert a b v e3.sorted, e3, ?_, ?_⟩
    · intro items hi
      exact .insert a b v e3.sorted (e5 items hi)
    · rintro rfl
      rcases r.tree with ⟨-, hl⟩ | ⟨_, _, h, -⟩
      · obtain ⟨rfl, rfl⟩ := List.append_eq_nil_iff.1 hl
        exact .insert [] [] v e3.sorted (by simp)
      · cases h
  | popFront =>
    rcases begin_spec r with ⟨e1, rfl, rfl⟩ | ⟨root, it, rfl, rfl, e1, e2⟩
    · exact other (by simp) rfl (.popFront []) r
    · obtain ⟨v, t', d1, d2, d3⟩ := remove_spec o r.sorted e2
      refine other (t' := t') (out := (flat root).head?) (by simp) ?_ (.popFront _) ?_
      · simp [exec, popFront, e1, d1, List.head?_eq_getElem?, d2]
      · have : (flat root).tail = (flat root).eraseIdx 0 := by simp
        rw [this]; exact d3
  | removeNth n =>
    rcases begin_spec r with ⟨e1, rfl, rfl⟩ | ⟨root, it, rfl, rfl, e1, e2⟩
    · refine other (t' := none) (out := none) (l' := []) (by simp) ?_ ?_ r
      · simp only [exec, e1]
        cases n <;> rfl
      · exact .removeNth [] n
    · rcases advance_at n e2 with ⟨d1, d2⟩ | ⟨it', d1, d2⟩
      · rw [Nat.zero_add] at d2
        refine other (t' := some root) (out := (flat root)[n]?) (by simp) ?_ (.removeNth _ n) ?_
        · simp [exec, e1, d1, removeAt, d2]
        · rw [List.eraseIdx_of_length_le d2]; exact r
      · rw [Nat.zero_add] at d2
        obtain ⟨t', q1, q2⟩ := removeAt_spec o r.sorted d2
        refine other (t' := t') (out := (flat root)[n]?) (by simp) ?_ (.removeNth _ n) q2
        simp only [exec, e1, d1, q1]
  | removeGE x =>
    obtain ⟨i, h1, h2, h3, h4, -⟩ := findFirstGE_spec o r x
    rcases h4 with ⟨e1, e2⟩ | ⟨root, it, rfl, rfl, e1, e2⟩
    · refine other (t' := t) (out := l[i]?) (by simp) ?_ (.removeGE l x i ⟨h1, h2, h3⟩) ?_
      · simp [exec, e1, removeAt, e2]
      · rw [List.eraseIdx_of_length_le (by omega)]; exact r
    · obtain ⟨t', q1, q2⟩ := removeAt_spec o r.sorted e2
      refine other (t' := t') (out := (flat root)[i]?) (by simp) ?_ (.removeGE _ x i ⟨h1, h2, h3⟩) q2
      simp only [exec, e1, q1]
  | removeLess x =>
    obtain ⟨i, h1, h2, h3, -, h4⟩ := findFirstGE_spec o r x
    rcases h4 with ⟨e1, e2⟩ | ⟨root, it, rfl, rfl, e1, e2, e3⟩
    · subst e2
      refine other (t' := t) (out := none) (by simp) ?_ (.removeLess_none l x ⟨h1, h2, h3⟩) r
      simp [exec, e1, removeAt]
    · obtain ⟨t', q1, q2⟩ := removeAt_spec o r.sorted e2
      obtain ⟨j, rfl⟩ := Nat.exists_eq_add_one_of_ne_zero (show i ≠ 0 by omega)
      rw [Nat.add_sub_cancel] at q1 q2
      refine other (t' := t') (out := (flat root)[j]?) (by simp) ?_ (.removeLess _ x j ⟨h1, h2, h3⟩) q2
      simp only [exec, e1, q1]
  | clear =>
    exact other (by simp) rfl (.clear l) ⟨by simp [Sorted], .inl ⟨rfl, rfl⟩⟩

theorem run_spec [DecidableEq K] {T : Traits K V} (o : StrictWeak T.less) (h2 : 2 ≤ T.cap)
    (ops : List (Op K V)) {t : Tree K V} {l : List V} (r : Rep T t l) :
    ∃ t' outs l', run T t ops = some (t', outs) ∧ Steps T.less T.idx l ops l' outs ∧ Rep T t' l' := by
  induction ops generalizing t l with
  | nil => exact ⟨t, [], l, rfl, .nil l, r⟩
  | cons op ops ih =>
    obtain ⟨t1, out, l1, e1, e2, e3, -⟩ := exec_spec o h2 r op
    obtain ⟨t2, outs, l2, d1, d2, d3⟩ := ih e3
    refine ⟨t2, out :: outs, l2, ?_, .cons e2 d2, d3⟩
    simp [run, e1, d1]

theorem Rep.nil {T : Traits K V} : Rep T none [] := ⟨by simp [Sorted], .inl ⟨rfl, rfl⟩⟩

/-- A tree that is one leaf, or empty. -/
def Single (t : Tree K V) : Prop := t = none ∨ ∃ items, t = some (.leaf items)

theorem zip_leaf_inv {n : Node K V} {c : Ctx K V} {items : List V} (h : zip n c = .leaf items) :
    c = [] := by
  induction c generalizing n with
  | nil => rfl
  | cons f fs ih =>
    have := ih h
    subst this
    cases h

theorem insert_single [DecidableEq K] {T : Traits K V} {t : Tree K V} {v : V} {t' : Tree K V}
    (s : Single t) (hcap : ∀ items, t = some (.leaf items) → items.length < T.cap) (h2 : 2 ≤ T.cap)
    (h : insert T t v = some t') : Single t' := by
  have key : ∀ it, prepareInsert T t (T.idx v) = some it → it.ctx = [] := by
    intro it hit
    rcases s with rfl | ⟨items, rfl⟩
    · unfold prepareInsert at hit
      dsimp only at hit
      rw [descend] at hit
      dsimp only at hit
      split at hit
      · cases hit
      · rw [if_neg (by simp; omega)] at hit
        unfold mkIter at hit
        split at hit
        · cases hit; rfl
        · cases hit
    · have := hcap items rfl
      unfold prepareInsert at hit
      dsimp only at hit
      rw [descend] at hit
      dsimp only at hit
      split at hit
      · cases hit
      · rw [if_neg (by omega)] at hit
        unfold mkIter at hit
        split at hit
        · cases hit; rfl
        · cases hit
  unfold insert at h
  split at h
  · cases h
  · next it hit =>
    have : it.ctx = [] := key it hit
    split at h
    · cases h
    · split at h
      · cases h
      · next c hc =>
        cases h
        rw [this] at hc
        have : c = [] := by
          unfold updateLinkIndex at hc
          split at hc
          · cases hc; rfl
          · split at hc <;> cases hc <;> rfl
        subst this
        exact .inr ⟨_, rfl⟩

theorem remove_single [DecidableEq K] {T : Traits K V} {it : Iter K V} {v : V} {t' : Tree K V}
    (hc : it.ctx = []) (h : remove T it = some (v, t')) : Single t' := by
  unfold remove at h
  split at h
  · cases h
  · split at h
    · cases h
    · next items c hd =>
      have : c = [] := by
        unfold deleteItem at hd
        dsimp only at hd
        rw [hc] at hd
        split at hd
        · split at hd
          · cases hd; rfl
          · split at hd <;> cases hd <;> rfl
        · cases hd
      subst this
      split at h
      · cases h
      · next c' hu =>
        have : c' = [] := by
          unfold updateLinkIndex at hu
          split at hu
          · cases hu; rfl
          · split at hu <;> cases hu <;> rfl
        subst this
        split at h
        · cases h
        · next t ht =>
          cases h
          rw [tryCompact.eq_def] at ht
          dsimp only at ht
          split at ht
          · cases ht; exact .inl rfl
          · cases ht; exact .inr ⟨_, rfl⟩

theorem removeAt_single [DecidableEq K] {T : Traits K V} {t : Tree K V} (s : Single t)
    {it : Option (Option (Iter K V))} {r : Tree K V × Option V}
    (hit : ∀ it', it = some (some it') → it'.ctx = [])
    (h : removeAt T t it = some r) : Single r.1 := by
  unfold removeAt at h
  split at h
  · cases h
  · cases h; exact s
  · next it' =>
    obtain ⟨a, ha, e⟩ := Option.map_eq_some_iff.1 h
    cases e
    exact remove_single (hit it' rfl) ha

theorem At.single {T : Traits K V} {items : List V} {it : Iter K V} {i : Nat}
    (a : At T (.leaf items) it i) : it.ctx = [] := zip_leaf_inv a.place.zip

theorem exec_single [DecidableEq K] {T : Traits K V} (o : StrictWeak T.less) (h2 : 2 ≤ T.cap)
    {t : Tree K V} {l : List V} (r : Rep T t l) (s : Single t) {op : Op K V} {t' out}
    (hcap : (∃ v, op = .insert v) → l.length < T.cap)
    (h : exec T t op = some (t', out)) : Single t' := by
  have root : ∀ {root : Node K V} {it : Iter K V} {i : Nat}, t = some root → At T root it i →
      it.ctx = [] := by
    intro root it i e a
    subst e
    rcases s with h | ⟨items, h⟩
    · cases h
    · cases h; exact a.single
  cases op with
  | insert v =>
    simp only [exec, Option.map_eq_some_iff] at h
    obtain ⟨a, ha, e⟩ := h
    cases e
    refine insert_single s ?_ h2 ha
    intro items e
    subst e
    rcases r.tree with ⟨e, -⟩ | ⟨root, hh, e, -, e2⟩
    · cases e
    · cases e
      have := hcap ⟨v, rfl⟩
      rw [← e2, flat_leaf] at this
      exact this
  | popFront =>
    unfold exec at h
    dsimp only at h
    split at h
    · cases h; exact .inl rfl
    · next root' =>
      obtain ⟨a, ha, e⟩ := Option.map_eq_some_iff.1 h
      cases e
      unfold popFront at ha
      rcases begin_spec r with ⟨-, -, e⟩ | ⟨root', it, e0, -, e1, e2⟩
      · cases e
      · rw [e1] at ha
        exact remove_single (root e0 e2) ha
  | removeNth n =>
    unfold exec at h
    dsimp only at h
    rcases begin_spec r with ⟨e1, -, rfl⟩ | ⟨root', it, e0, -, e1, e2⟩
    · rw [e1] at h
      refine removeAt_single s (r := (t', out)) ?_ h
      intro it' e
      cases n <;> cases e
    · rw [e1] at h
      refine removeAt_single s (r := (t', out)) ?_ h
      intro it' e
      rcases advance_at n e2 with ⟨d1, d2⟩ | ⟨it'', d1, d2⟩
      · rw [d1] at e; cases e
      · rw [d1] at e; cases e
        exact root e0 d2
  | removeGE x =>
    obtain ⟨i, -, -, -, h4, -⟩ := findFirstGE_spec o r x
    unfold exec at h
    dsimp only at h
    refine removeAt_single s (r := (t', out)) ?_ h
    intro it' e
    rcases h4 with ⟨e1, e2⟩ | ⟨root', it, e0, -, e1, e2⟩
    · rw [e1] at e; cases e
    · rw [e1] at e; cases e
      exact root e0 e2
  | removeLess x =>
    obtain ⟨i, -, -, -, -, h4⟩ := findFirstGE_spec o r x
    unfold exec at h
    dsimp only at h
    refine removeAt_single s (r := (t', out)) ?_ h
    intro it' e
    rcases h4 with ⟨e1, e2⟩ | ⟨root', it, e0, -, e1, e2, -⟩
    · rw [e1] at e; cases e
    · rw [e1] at e; cases e
      exact root e0 e2
  | clear => cases h; exact .inl rfl

theorem Step.length {less : K → K → Bool} {idx : V → K} {l : List V} {op : Op K V} {l' out}
    (s : Step less idx l op l' out) : l'.length ≤ l.length + inserts [op] := by
  cases s <;> simp [inserts] <;>
    first
      | exact Nat.le_refl _
      | omega
      | exact List.length_eraseIdx_le _ _

theorem run_queue [DecidableEq K] {T : Traits K V} (o : StrictWeak T.less) (h2 : 2 ≤ T.cap)
    (ops : List (Op K V)) {t : Tree K V} {l : List V} (r : Rep T t l) (s : Single t)
    (hc : l.length + inserts ops ≤ T.cap) :
    ∃ t' outs l', run T t ops = some (t', outs) ∧ StepsQueue T.less T.idx l ops l' outs ∧
      Rep T t' l' := by
  induction ops generalizing t l with
  | nil => exact ⟨t, [], l, rfl, .nil l, r⟩
  | cons op ops ih =>
    have hi : inserts (op :: ops) = inserts [op] + inserts ops := by
      cases op <;> simp [inserts]; omega
    obtain ⟨t1, out, l1, e1, e2, e3, e4, e5⟩ := exec_spec o h2 r op
    have hl := Step.length e2
    have s1 : Single t1 := by
      refine exec_single o h2 r s ?_ e1
      rintro ⟨v, rfl⟩
      simp [inserts] at hc
      omega
    obtain ⟨t2, outs, l2, d1, d2, d3⟩ := ih e3 s1 (by omega)
    refine ⟨t2, out :: outs, l2, by simp [run, e1, d1], .cons ?_ d2, d3⟩
    rcases s with s | ⟨items, s⟩
    · exact e5 s
    · exact e4 items s

end Verif.BTree
