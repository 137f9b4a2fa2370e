import Verif.HMap.Model
import Verif.HMap.Spec
import Mathlib.Data.List.Perm.Subperm
import Mathlib.Data.Nat.ModEq
/-! # Facts about the cells of the hash map -/
namespace Verif.HMap

variable {K V : Type}

theorem cell_some {cs : List (Cell K V)} (h : 0 < cs.length) (i : Nat) : ∃ c, cell cs i = some c := by
  unfold cell
  exact ⟨_, List.getElem?_eq_getElem (Nat.mod_lt _ h)⟩

theorem cell_mod (cs : List (Cell K V)) (i : Nat) : cell cs (i % cs.length) = cell cs i := by
  simp [cell]

theorem cell_congr {cs : List (Cell K V)} {i j : Nat} (h : i % cs.length = j % cs.length) :
    cell cs i = cell cs j := by simp [cell, h]

@[simp] theorem setCell_length (cs : List (Cell K V)) (i : Nat) (c : Cell K V) :
    (setCell cs i c).length = cs.length := by simp [setCell]

theorem cell_setCell {cs : List (Cell K V)} (h : 0 < cs.length) (i j : Nat) (c : Cell K V) :
    cell (setCell cs i c) j = if j % cs.length = i % cs.length then some c else cell cs j := by
  unfold cell setCell
  rw [List.length_set, List.getElem?_set]
  have := Nat.mod_lt i h
  by_cases e : i % cs.length = j % cs.length
  · rw [if_pos e, if_pos e.symm]; simp [this]
  · rw [if_neg e, if_neg (fun e' => e e'.symm)]

/-- The items in the cells. -/
def items (cs : List (Cell K V)) : List (K × V) := cs.filterMap (·.item)

theorem filterMap_set {α β : Type} (f : α → Option β) (l : List α) (i : Nat) (a b : α)
    (h : l[i]? = some a) :
    ((l.set i b).filterMap f ++ (f a).toList).Perm (l.filterMap f ++ (f b).toList) := by
  induction l generalizing i with
  | nil => simp at h
  | cons x l ih =>
    cases i with
    | zero =>
      simp only [List.getElem?_cons_zero, Option.some.injEq] at h
      subst h
      simp only [List.set_cons_zero, List.filterMap_cons]
      cases f b <;> cases f x <;> simp
      all_goals first
        | exact List.perm_append_singleton _ _
        | exact (List.perm_append_singleton _ _).symm
        | exact ((List.perm_append_singleton _ _).cons _).trans
            ((List.Perm.swap _ _ _).trans ((List.perm_append_singleton _ _).symm.cons _))
    | succ i =>
      simp only [List.getElem?_cons_succ] at h
      simp only [List.set_cons_succ, List.filterMap_cons]
      have := ih i h
      cases f x <;> simp <;> exact this

theorem items_setCell {cs : List (Cell K V)} {i : Nat} {c : Cell K V} (d : Cell K V)
    (h : cell cs i = some c) :
    (items (setCell cs i d) ++ c.item.toList).Perm (items cs ++ d.item.toList) :=
  filterMap_set _ _ _ _ _ h

theorem mem_items {cs : List (Cell K V)} {it : K × V} :
    it ∈ items cs ↔ ∃ i c, cell cs i = some c ∧ c.item = some it := by
  unfold items
  rw [List.mem_filterMap]
  constructor
  · rintro ⟨c, hc, hi⟩
    obtain ⟨i, hi', rfl⟩ := List.mem_iff_getElem.1 hc
    exact ⟨i, _, by simp [cell, Nat.mod_eq_of_lt hi'], hi⟩
  · rintro ⟨i, c, hc, hi⟩
    exact ⟨c, List.mem_of_getElem? hc, hi⟩

/-- Items of different cells are different when the keys are. -/
theorem items_inj {cs : List (Cell K V)} (hn : ((items cs).map (·.1)).Nodup) {i j : Nat}
    {c d : Cell K V} {x y : K × V} (hi : cell cs i = some c) (hj : cell cs j = some d)
    (hx : c.item = some x) (hy : d.item = some y) (he : x.1 = y.1) :
    i % cs.length = j % cs.length := by
  unfold cell at hi hj
  revert hn hi hj
  generalize i % cs.length = i
  generalize j % cs.length = j
  intro hn hi hj
  induction cs generalizing i j with
  | nil => simp at hi
  | cons z cs ih =>
    have hmem : ∀ (i : Nat) (c : Cell K V) x, cs[i]? = some c → c.item = some x → x ∈ items cs :=
      fun i c x h1 h2 => List.mem_filterMap.2 ⟨c, List.mem_of_getElem? h1, h2⟩
    have hn' : ((items cs).map (·.1)).Nodup := by
      simp only [items, List.filterMap_cons] at hn ⊢
      split at hn
      · exact hn
      · simp only [List.map_cons, List.nodup_cons] at hn
        exact hn.2
    have hhd : ∀ w, z.item = some w → ∀ u ∈ items cs, w.1 ≠ u.1 := by
      intro w hw u hu he
      simp only [items, List.filterMap_cons, hw, List.map_cons, List.nodup_cons] at hn
      exact hn.1 (List.mem_map.2 ⟨u, hu, he.symm⟩)
    cases i with
    | zero =>
      simp only [List.getElem?_cons_zero, Option.some.injEq] at hi
      subst hi
      cases j with
      | zero => rfl
      | succ j => exact absurd he (hhd x hx y (hmem j d y hj hy))
    | succ i =>
      cases j with
      | zero =>
        simp only [List.getElem?_cons_zero, Option.some.injEq] at hj
        subst hj
        exact absurd he.symm (hhd y hy x (hmem i c x hi hx))
      | succ j => exact congrArg (· + 1) (ih i j hn' hi hj)

/-- `m` consecutive used cells hold `m` items. -/
theorem window_le {cs : List (Cell K V)} (hn : ((items cs).map (·.1)).Nodup) (s m : Nat)
    (hm : m ≤ cs.length)
    (hw : ∀ j < m, ∃ c x, cell cs (s + j) = some c ∧ c.item = some x) : m ≤ (items cs).length := by
  have hex : ∃ l : List (K × V), l.length = m ∧ l.Nodup ∧ ∀ x ∈ l, ∃ j < m, ∃ c, cell cs (s + j) = some c ∧
      c.item = some x := by
    induction m with
    | zero => exact ⟨[], rfl, List.nodup_nil, by simp⟩
    | succ m ih =>
      obtain ⟨l, hl, hd, hx⟩ := ih (by omega) (fun j hj => hw j (by omega))
      obtain ⟨c, x, hc, hi⟩ := hw m (by omega)
      refine ⟨x :: l, by simp [hl], List.nodup_cons.2 ⟨fun hmem => ?_, hd⟩, ?_⟩
      · obtain ⟨j, hj, d, hd', hi'⟩ := hx x hmem
        have := items_inj hn hc hd' hi hi' rfl
        have e : (s + m) % cs.length = (s + j + (m - j)) % cs.length := by congr 1; omega
        rw [e, ← Nat.add_zero (s + j), Nat.add_assoc (s + j), Nat.zero_add] at this
        have h2 : (m - j) % cs.length = 0 % cs.length :=
          Nat.ModEq.add_left_cancel' (s + j) (this : (s + j + (m - j)) ≡ (s + j + 0) [MOD cs.length])
        rw [Nat.mod_eq_of_lt (by omega), Nat.zero_mod] at h2
        omega
      · intro y hy
        rcases List.mem_cons.1 hy with rfl | hy
        · exact ⟨m, by omega, c, hc, hi⟩
        · obtain ⟨j, hj, r⟩ := hx y hy
          exact ⟨j, by omega, r⟩
  obtain ⟨l, hl, hd, hx⟩ := hex
  have : l ⊆ items cs := fun x h => by
    obtain ⟨j, _, c, hc, hi⟩ := hx x h
    exact mem_items.2 ⟨_, c, hc, hi⟩
  have := (List.subperm_of_subset hd this).length_le
  omega

end Verif.HMap
