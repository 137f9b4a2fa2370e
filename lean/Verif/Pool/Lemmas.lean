import Verif.Pool.Model
import Verif.Pool.Spec
import Verif.Bits.Props
/-!
# Lemmas about pools
-/
namespace Verif.Pool
open Verif Spec

variable {α : Type _}

/-- The free list starting at `f` runs through exactly the slots given, in that order. -/
def Links (cells : List (Cell α)) : Nat → List Nat → Prop
  | f, [] => f = noFree
  | f, i :: r => f = i ∧ ∃ n, cells[i]? = some (.free n) ∧ Links cells n r

/-- Consistency: `chain` is the free list. -/
structure Inv (p : Pool α) (chain : List Nat) : Prop where
  links : Links p.cells p.firstFree chain
  nodup : chain.Nodup
  all : ∀ i n : Nat, p.cells[i]? = some (.free n) → i ∈ chain
  noraw : ∀ i : Nat, p.cells[i]? ≠ some (Cell.raw : Cell α)
  size : p.freeListSize = chain.length
  sorted : p.sorted = true → chain.Pairwise (· < ·)
  alloc : p.cells.length ≤ p.allocated

theorem Links.mem {cells : List (Cell α)} {f : Nat} {chain : List Nat} (h : Links cells f chain) :
    ∀ i ∈ chain, ∃ n, cells[i]? = some (.free n) := by
  induction chain generalizing f with
  | nil => intro i hi; cases hi
  | cons j r ih =>
    obtain ⟨_, n, h1, h2⟩ := h
    intro i hi
    rcases List.mem_cons.mp hi with rfl | hi
    · exact ⟨n, h1⟩
    · exact ih h2 i hi

theorem Links.congr {c1 c2 : List (Cell α)} {f : Nat} {chain : List Nat} (h : Links c1 f chain)
    (hc : ∀ i ∈ chain, c1[i]? = c2[i]?) : Links c2 f chain := by
  induction chain generalizing f with
  | nil => exact h
  | cons j r ih =>
    obtain ⟨h0, n, h1, h2⟩ := h
    refine ⟨h0, n, ?_, ih h2 (fun i hi => hc i (List.mem_cons_of_mem _ hi))⟩
    rw [← hc j List.mem_cons_self]; exact h1

theorem lt_of_getElem? {β : Type _} {l : List β} {i : Nat} {x : β} (h : l[i]? = some x) :
    i < l.length := (List.getElem?_eq_some_iff.mp h).1

theorem Links.lt {cells : List (Cell α)} {f : Nat} {chain : List Nat} (h : Links cells f chain) :
    ∀ i ∈ chain, i < cells.length := by
  intro i hi
  obtain ⟨n, hn⟩ := h.mem i hi
  exact lt_of_getElem? hn

theorem getElem?_set_self {β : Type _} {l : List β} {i : Nat} {x : β} (h : i < l.length) :
    (l.set i x)[i]? = some x := by
  rw [List.getElem?_set, if_pos rfl, if_pos h]

theorem getElem?_set_other {β : Type _} {l : List β} {i j : Nat} {x : β} (h : j ≠ i) :
    (l.set i x)[j]? = l[j]? := by
  rw [List.getElem?_set, if_neg (Ne.symm h)]

/-- Nodup and bounded: a chain is no longer than the block. -/
theorem chain_length_le (chain : List Nat) (n : Nat) (hn : chain.Nodup) (hl : ∀ i ∈ chain, i < n) :
    chain.length ≤ n := by
  have hsub : chain ⊆ List.range n := fun i hi => List.mem_range.mpr (hl i hi)
  have := hn.length_le_of_subset hsub
  simpa using this

theorem Inv.firstFree_ne {p : Pool α} {i : Nat} {r : List Nat} (h : Inv p (i :: r))
    (hs : p.cells.length < noFree) : p.firstFree ≠ noFree ∧ p.firstFree = i ∧ i < p.cells.length := by
  have h1 : p.firstFree = i := h.links.1
  have h2 := h.links.lt i List.mem_cons_self
  exact ⟨by omega, h1, h2⟩

theorem get_eq_some {i : Nat} {p : Pool α} {x : α} :
    get i p = some x ↔ p.cells[i]? = some (.live x) := by
  unfold get
  split <;> simp_all

theorem get_eq_none {p : Pool α} {chain : List Nat} (h : Inv p chain) (i : Nat) :
    get i p = none ↔ p.cells.length ≤ i ∨ i ∈ chain := by
  constructor
  · intro hg
    cases hc : p.cells[i]? with
    | none => exact Or.inl (List.getElem?_eq_none_iff.mp hc)
    | some c =>
      cases c with
      | raw => exact absurd hc (h.noraw i)
      | free n => exact Or.inr (h.all i n hc)
      | live x => rw [get_eq_some.mpr hc] at hg; cases hg
  · intro hi
    rcases hi with hi | hi
    · unfold get; rw [List.getElem?_eq_none hi]
    · obtain ⟨n, hn⟩ := h.links.mem i hi
      unfold get; rw [hn]

theorem readLink_eq {isz i n : Nat} {cells : List (Cell α)} (hc : cells[i]? = some (.free n))
    (hb : isz * cells.length < 2 ^ 32) : readLink isz cells i = some n := by
  unfold readLink
  have h1 := lt_of_getElem? hc
  have h2 : i * isz ≤ cells.length * isz := Nat.mul_le_mul_right _ (by omega)
  rw [Nat.mul_comm cells.length] at h2
  rw [if_pos (by omega), hc]

theorem writeLink_eq {isz i n : Nat} {cells : List (Cell α)} {c : Cell α} (hc : cells[i]? = some c)
    (hl : ∀ x, c ≠ .live x) (hb : isz * cells.length < 2 ^ 32) :
    writeLink isz cells i n = some (cells.set i (.free n)) := by
  unfold writeLink
  have h1 := lt_of_getElem? hc
  have h2 : i * isz ≤ cells.length * isz := Nat.mul_le_mul_right _ (by omega)
  rw [Nat.mul_comm cells.length] at h2
  rw [if_pos (by omega), hc]
  cases c with
  | live x => exact absurd rfl (hl x)
  | raw => rfl
  | free m => rfl

/-! ## Allocation -/

theorem roundUp_le (n k : Nat) (h1 : n ≤ 2 ^ k) (hk : 3 ≤ k) (hk2 : k ≤ 31) (hn : 1 ≤ n) :
    n ≤ Bits.roundUpPowerOf2_32 (max n 8) ∧ Bits.roundUpPowerOf2_32 (max n 8) ≤ 2 ^ k ∧
      Bits.roundUpPowerOf2_32 (max n 8) ≠ 0 := by
  have h8 : 2 ^ 3 ≤ 2 ^ k := Nat.pow_le_pow_right (by decide) hk
  have h31 : 2 ^ k ≤ 2 ^ 31 := Nat.pow_le_pow_right (by decide) hk2
  obtain ⟨_, h2, h3⟩ := Bits.C29_roundUp32_least (max n 8) (by omega) (by omega)
  have := h3 k (by omega)
  refine ⟨by omega, this, by omega⟩

theorem newItem_ok (isz k : Nat) (x : α) (p : Pool α) (chain : List Nat) (h : Inv p chain)
    (hk : 3 ≤ k) (hb : isz * 2 ^ k < 2 ^ 32) (hz : 4 ≤ isz) (hs : p.cells.length + 1 ≤ 2 ^ k) :
    ∃ i p' chain', newItem isz x p = some (i, p') ∧ Inv p' chain' ∧ get i p = none ∧
      (∀ j, get j p' = if j = i then some x else get j p) ∧
      p'.cells.length ≤ p.cells.length + 1 := by
  have hk2 : k < 30 := by
    rcases Nat.lt_or_ge k 30 with h | h
    · exact h
    · have h1 : 2 ^ 30 ≤ 2 ^ k := Nat.pow_le_pow_right (by decide) h
      have : 4 * 2 ^ 30 ≤ isz * 2 ^ k := Nat.mul_le_mul hz h1
      omega
  have hk3 : 2 ^ k < 2 ^ 30 := Nat.pow_lt_pow_right (by decide) hk2
  have hnf : p.cells.length < noFree := by unfold noFree; omega
  have hbl : isz * p.cells.length < 2 ^ 32 :=
    Nat.lt_of_le_of_lt (Nat.mul_le_mul_left _ (by omega)) hb
  cases chain with
  | cons i r =>
    obtain ⟨h1, h2, h3⟩ := h.firstFree_ne hnf
    obtain ⟨_, n, h4, h5⟩ := h.links
    have hnd := List.nodup_cons.mp h.nodup
    have hsz := h.size
    rw [List.length_cons] at hsz
    have hdec : decide (p.freeListSize - 1 = 0) = decide (n = noFree) ∧ 0 < p.freeListSize := by
      refine ⟨?_, by omega⟩
      congr 1
      cases r with
      | nil => have : n = noFree := h5; simp [this, hsz]
      | cons j r' =>
        have hj : n = j := h5.1
        have hjl := h5.lt j List.mem_cons_self
        rw [List.length_cons] at hsz
        exact propext ⟨fun e => by omega, fun e => by omega⟩
    refine ⟨i, ⟨p.cells.set i (.live x), p.allocated, n, p.sorted, p.freeListSize - 1⟩, r, ?_, ?_, ?_, ?_, ?_⟩
    · unfold newItem baseAlloc
      rw [if_pos h1, h2, readLink_eq h4 hbl]
      dsimp only
      rw [if_pos hdec]
      dsimp only
      rw [h4]
    · constructor
      · exact h5.congr fun j hj => (getElem?_set_other (by rintro rfl; exact hnd.1 hj)).symm
      · exact hnd.2
      · intro j m hj
        by_cases hji : j = i
        · subst hji
          dsimp only at hj
          rw [getElem?_set_self h3] at hj; cases hj
        · dsimp only at hj
          rw [getElem?_set_other hji] at hj
          rcases List.mem_cons.mp (h.all j m hj) with e | e
          · exact absurd e hji
          · exact e
      · intro j
        dsimp only
        by_cases hji : j = i
        · subst hji; rw [getElem?_set_self h3]; simp
        · rw [getElem?_set_other hji]; exact h.noraw j
      · dsimp only; omega
      · intro hs; exact (List.pairwise_cons.mp (h.sorted hs)).2
      · dsimp only; rw [List.length_set]; exact h.alloc
    · exact (get_eq_none h i).mpr (Or.inr List.mem_cons_self)
    · intro j
      unfold get
      dsimp only
      by_cases hji : j = i
      · subst hji; rw [getElem?_set_self h3, if_pos rfl]
      · rw [getElem?_set_other hji, if_neg hji]
    · dsimp only; rw [List.length_set]; omega
  | nil =>
    have h1 : p.firstFree = noFree := h.links
    obtain ⟨a, ha, hal⟩ : ∃ a, (if p.cells.length ≥ p.allocated then
        baseReserve isz (p.cells.length + 1) p else some p) = some { p with allocated := a } ∧
        p.cells.length + 1 ≤ a := by
      by_cases hc : p.cells.length ≥ p.allocated
      · rw [if_pos hc]
        obtain ⟨r1, r2, r3⟩ := roundUp_le (p.cells.length + 1) k hs hk (by omega) (by omega)
        refine ⟨Bits.roundUpPowerOf2_32 (max (p.cells.length + 1) 8), ?_, r1⟩
        unfold baseReserve
        rw [u32_of_lt (n := p.cells.length + 1) (by omega)]
        dsimp only
        rw [if_pos ⟨r3, Nat.lt_of_le_of_lt (Nat.mul_le_mul_left _ r2) hb⟩]
      · rw [if_neg hc]
        exact ⟨p.allocated, rfl, by omega⟩
    have hget : (p.cells ++ [Cell.raw])[p.cells.length]? = some (.raw : Cell α) := by
      rw [List.getElem?_append_right (Nat.le_refl _), Nat.sub_self]; rfl
    have hset : (p.cells ++ [Cell.raw]).set p.cells.length (Cell.live x) = p.cells ++ [Cell.live x] := by
      rw [List.set_append_right _ _ (Nat.le_refl _), Nat.sub_self]; rfl
    have hidx : ∀ j, (p.cells ++ [Cell.live x])[j]? =
        if j = p.cells.length then some (Cell.live x) else p.cells[j]? := by
      intro j
      by_cases hj : j < p.cells.length
      · rw [List.getElem?_append_left hj, if_neg (by omega)]
      · by_cases he : j = p.cells.length
        · subst he
          rw [List.getElem?_append_right (Nat.le_refl _), Nat.sub_self, if_pos rfl]; rfl
        · rw [if_neg he, List.getElem?_eq_none (l := p.cells) (by omega), List.getElem?_eq_none]
          rw [List.length_append, List.length_singleton]; omega
    refine ⟨p.cells.length, ⟨p.cells ++ [.live x], a, p.firstFree, p.sorted, p.freeListSize⟩, [], ?_, ?_,
      ?_, ?_, ?_⟩
    · unfold newItem baseAlloc
      rw [if_neg (by simp [h1]), ha]
      dsimp only
      rw [hget]
      dsimp only
      rw [hset]
    · constructor
      · exact h1
      · exact List.nodup_nil
      · intro j m hj
        dsimp only at hj
        rw [hidx] at hj
        split at hj
        · cases hj
        · exact h.all j m hj
      · intro j
        dsimp only
        rw [hidx]
        split
        · simp
        · exact h.noraw j
      · exact h.size
      · intro _; exact List.Pairwise.nil
      · dsimp only; rw [List.length_append, List.length_singleton]; exact hal
    · unfold get; rw [List.getElem?_eq_none (Nat.le_refl _)]
    · intro j
      unfold get
      dsimp only
      rw [hidx]
      by_cases he : j = p.cells.length
      · rw [if_pos he, if_pos he]
      · rw [if_neg he, if_neg he]
    · dsimp only; rw [List.length_append, List.length_singleton]; exact Nat.le_refl _

/-! ## Freeing -/

theorem delItem_ok (isz i : Nat) (p : Pool α) (chain : List Nat) (h : Inv p chain)
    (hz : 4 ≤ isz) (hb : isz * p.cells.length < 2 ^ 32) (hi : get i p ≠ none) :
    ∃ p' chain', delItem isz i p = some p' ∧ Inv p' chain' ∧
      (∀ j, get j p' = if j = i then none else get j p) ∧ p'.cells.length = p.cells.length := by
  obtain ⟨x, hx⟩ : ∃ x, p.cells[i]? = some (.live x) := by
    cases hg : get i p with
    | none => exact absurd hg hi
    | some x => exact ⟨x, get_eq_some.mp hg⟩
  have hil := lt_of_getElem? hx
  have hic : i ∉ chain := by
    intro hm
    obtain ⟨n, hn⟩ := h.links.mem i hm
    rw [hx] at hn; cases hn
  have hlen : p.cells.length < 2 ^ 30 := by
    have : 4 * p.cells.length ≤ isz * p.cells.length := Nat.mul_le_mul_right _ hz
    omega
  have hcl := chain_length_le chain p.cells.length h.nodup h.links.lt
  have hsz := h.size
  have hset : (p.cells.set i Cell.raw).set i (Cell.free p.firstFree) =
      p.cells.set i (Cell.free p.firstFree) := by rw [List.set_set]
  refine ⟨⟨p.cells.set i (.free p.firstFree), p.allocated, i, false, p.freeListSize + 1⟩, i :: chain,
    ?_, ?_, ?_, ?_⟩
  · unfold delItem
    rw [hx]
    dsimp only
    rw [writeLink_eq (c := .raw) (getElem?_set_self hil) (by simp) (by rw [List.length_set]; exact hb),
      hset]
    dsimp only
    rw [if_pos (by omega)]
  · constructor
    · refine ⟨rfl, p.firstFree, getElem?_set_self hil, ?_⟩
      exact h.links.congr fun j hj => (getElem?_set_other (by rintro rfl; exact hic hj)).symm
    · exact List.nodup_cons.mpr ⟨hic, h.nodup⟩
    · intro j m hj
      dsimp only at hj
      by_cases hji : j = i
      · rw [hji]; exact List.mem_cons_self
      · rw [getElem?_set_other hji] at hj
        exact List.mem_cons_of_mem _ (h.all j m hj)
    · intro j
      dsimp only
      by_cases hji : j = i
      · subst hji; rw [getElem?_set_self hil]; simp
      · rw [getElem?_set_other hji]; exact h.noraw j
    · dsimp only; rw [List.length_cons]; omega
    · intro hs; cases hs
    · dsimp only; rw [List.length_set]; exact h.alloc
  · intro j
    unfold get
    dsimp only
    by_cases hji : j = i
    · subst hji; rw [getElem?_set_self hil, if_pos rfl]
    · rw [getElem?_set_other hji, if_neg hji]
  · dsimp only; rw [List.length_set]

/-! ## Sorting the free list -/

theorem insertNat_perm (x : Nat) (xs : List Nat) : (insertNat x xs).Perm (x :: xs) := by
  induction xs with
  | nil => exact List.Perm.refl _
  | cons y ys ih =>
    unfold insertNat
    split
    · exact List.Perm.refl _
    · exact (ih.cons y).trans (List.Perm.swap x y ys)

theorem sortNats_perm (xs : List Nat) : (sortNats xs).Perm xs := by
  induction xs with
  | nil => exact List.Perm.refl _
  | cons x xs ih => exact (insertNat_perm x _).trans (ih.cons x)

theorem insertNat_sorted (x : Nat) (xs : List Nat) (h : xs.Pairwise (· ≤ ·)) :
    (insertNat x xs).Pairwise (· ≤ ·) := by
  induction xs with
  | nil => exact List.pairwise_singleton _ _
  | cons y ys ih =>
    have h' := List.pairwise_cons.mp h
    unfold insertNat
    split
    · next hxy =>
      refine List.pairwise_cons.mpr ⟨?_, h⟩
      intro z hz
      rcases List.mem_cons.mp hz with rfl | hz
      · exact hxy
      · exact Nat.le_trans hxy (h'.1 z hz)
    · next hxy =>
      refine List.pairwise_cons.mpr ⟨?_, ih h'.2⟩
      intro z hz
      rcases List.mem_cons.mp ((insertNat_perm x ys).mem_iff.mp hz) with rfl | hz
      · omega
      · exact h'.1 z hz

theorem sortNats_sorted (xs : List Nat) : (sortNats xs).Pairwise (· ≤ ·) := by
  induction xs with
  | nil => exact List.Pairwise.nil
  | cons x xs ih => exact insertNat_sorted x _ ih

theorem strict_of_nodup (xs : List Nat) (h : xs.Pairwise (· ≤ ·)) (hn : xs.Nodup) :
    xs.Pairwise (· < ·) :=
  (h.and hn).imp (fun ⟨a, b⟩ => Nat.lt_of_le_of_ne a b)

theorem collect_ok (isz : Nat) (cells : List (Cell α)) (chain : List Nat) (f room : Nat)
    (h : Links cells f chain) (hroom : room = chain.length) (hb : isz * cells.length < 2 ^ 32)
    (hs : cells.length < noFree) : collect isz cells room f = some chain := by
  induction chain generalizing f room with
  | nil =>
    have hf : f = noFree := h
    unfold collect
    rw [if_pos hf]
  | cons i r ih =>
    obtain ⟨h0, n, h1, h2⟩ := h
    have hil := lt_of_getElem? h1
    rw [List.length_cons] at hroom
    subst hroom
    unfold collect
    rw [if_neg (by omega)]
    dsimp only
    rw [h0, readLink_eq h1 hb]
    dsimp only
    rw [ih n _ h2 rfl]
    rfl

/-- Everything except links survives relinking. -/
theorem relink_ok (isz : Nat) (idx : List Nat) (cells : List (Cell α)) (hne : idx ≠ [])
    (hnd : idx.Nodup) (hfree : ∀ i ∈ idx, ∃ n, cells[i]? = some (.free n))
    (hb : isz * cells.length < 2 ^ 32) :
    ∃ cells', relink isz idx cells = some cells' ∧ cells'.length = cells.length ∧
      (∀ j, j ∉ idx → cells'[j]? = cells[j]?) ∧ (∀ f r, idx = f :: r → Links cells' f idx) := by
  induction idx generalizing cells with
  | nil => exact absurd rfl hne
  | cons i r ih =>
    obtain ⟨n0, h0⟩ := hfree i List.mem_cons_self
    have hil := lt_of_getElem? h0
    have hnd' := List.nodup_cons.mp hnd
    cases r with
    | nil =>
      refine ⟨cells.set i (.free noFree), ?_, List.length_set, ?_, ?_⟩
      · unfold relink
        exact writeLink_eq h0 (by simp) hb
      · intro j hj
        exact getElem?_set_other (fun e => hj (by rw [e]; exact List.mem_cons_self))
      · intro f r hfr
        injection hfr with e1 e2
        subst e1
        exact ⟨rfl, noFree, getElem?_set_self hil, rfl⟩
    | cons j r' =>
      have hw := writeLink_eq (n := j) h0 (by simp) hb
      obtain ⟨c', e1, e2, e3, e4⟩ := ih (cells.set i (.free j)) (by simp) hnd'.2 (by
        intro m hm
        have hmi : m ≠ i := by rintro rfl; exact hnd'.1 hm
        obtain ⟨n, hn⟩ := hfree m (List.mem_cons_of_mem _ hm)
        exact ⟨n, by rw [getElem?_set_other hmi]; exact hn⟩) (by rw [List.length_set]; exact hb)
      refine ⟨c', ?_, by rw [e2, List.length_set], ?_, ?_⟩
      · unfold relink
        rw [hw]
        exact e1
      · intro m hm
        have hm' : m ≠ i ∧ m ∉ j :: r' := ⟨fun e => hm (by rw [e]; exact List.mem_cons_self),
          fun e => hm (List.mem_cons_of_mem _ e)⟩
        rw [e3 m hm'.2, getElem?_set_other hm'.1]
      · intro f r hfr
        injection hfr with f1 f2
        subst f1
        refine ⟨rfl, j, ?_, e4 j r' rfl⟩
        rw [e3 i hnd'.1, getElem?_set_self hil]

theorem sortFreeList_ok (isz : Nat) (p : Pool α) (chain : List Nat) (h : Inv p chain)
    (hb : isz * p.cells.length < 2 ^ 32) (hs : p.cells.length < noFree) :
    ∃ p' chain', sortFreeList isz p = some p' ∧ Inv p' chain' ∧ chain'.Pairwise (· < ·) ∧
      (∀ j, get j p' = get j p) ∧ p'.cells.length = p.cells.length := by
  unfold sortFreeList
  by_cases h1 : p.sorted = true
  · rw [if_pos h1]
    exact ⟨p, chain, rfl, h, h.sorted h1, fun _ => rfl, rfl⟩
  · rw [if_neg h1]
    cases chain with
    | nil =>
      have hf : p.firstFree = noFree := h.links
      rw [if_pos hf]
      exact ⟨p, [], rfl, h, List.Pairwise.nil, fun _ => rfl, rfl⟩
    | cons c r =>
      obtain ⟨f1, _, _⟩ := h.firstFree_ne hs
      rw [if_neg f1, collect_ok isz p.cells (c :: r) _ _ h.links h.size hb hs]
      dsimp only
      rw [if_pos h.size.symm]
      have hperm := sortNats_perm (c :: r)
      have hnd := hperm.nodup_iff.mpr h.nodup
      have hstrict := strict_of_nodup _ (sortNats_sorted (c :: r)) hnd
      have hlen := hperm.length_eq
      cases hsn : sortNats (c :: r) with
      | nil => rw [hsn] at hlen; cases hlen
      | cons f q =>
        rw [hsn] at hperm hnd hstrict
        obtain ⟨c', e1, e2, e3, e4⟩ := relink_ok isz (f :: q) p.cells (by simp) hnd
          (fun i hi => h.links.mem i (hperm.mem_iff.mp hi)) hb
        have hlk := e4 f q rfl
        dsimp only
        rw [e1]
        refine ⟨⟨c', p.allocated, f, true, p.freeListSize⟩, f :: q, rfl, ?_, hstrict, ?_, e2⟩
        · constructor
          · exact hlk
          · exact hnd
          · intro j m hj
            by_cases hjc : j ∈ f :: q
            · exact hjc
            · dsimp only at hj
              rw [e3 j hjc] at hj
              exact hperm.mem_iff.mpr (h.all j m hj)
          · intro j
            dsimp only
            by_cases hjc : j ∈ f :: q
            · obtain ⟨n, hn⟩ := hlk.mem j hjc
              rw [hn]; simp
            · rw [e3 j hjc]; exact h.noraw j
          · rw [hperm.length_eq]; exact h.size
          · intro _; exact hstrict
          · dsimp only; rw [e2]; exact h.alloc
        · intro j
          unfold get
          dsimp only
          by_cases hjc : j ∈ f :: q
          · obtain ⟨n, hn⟩ := hlk.mem j hjc
            obtain ⟨m, hm⟩ := h.links.mem j (hperm.mem_iff.mp hjc)
            rw [hn, hm]
          · rw [e3 j hjc]

/-! ## Iterating -/

/-- The live items from slot `i` on, in order. -/
def liveFrom (cells : List (Cell α)) (i : Nat) : List (Nat × α) :=
  (List.range' i (cells.length - i)).filterMap fun j : Nat =>
    match cells[j]? with
    | some (.live x) => some (j, x)
    | _ => none

theorem liveFrom_step {cells : List (Cell α)} {i : Nat} (h : i < cells.length) :
    liveFrom cells i = (match cells[i]? with
      | some (.live x) => (i, x) :: liveFrom cells (i + 1)
      | _ => liveFrom cells (i + 1)) := by
  unfold liveFrom
  have : cells.length - i = (cells.length - (i + 1)) + 1 := by omega
  rw [this, List.range'_succ, List.filterMap_cons]
  cases hc : cells[i]? with
  | none => rfl
  | some c => cases c <;> rfl

theorem liveFrom_end {cells : List (Cell α)} {i : Nat} (h : cells.length ≤ i) :
    liveFrom cells i = [] := by
  unfold liveFrom
  have : cells.length - i = 0 := by omega
  rw [this]; rfl

theorem liveFrom_listing (p : Pool α) : Listing (fun i => get i p) (liveFrom p.cells 0) := by
  constructor
  · unfold liveFrom
    apply List.Pairwise.filterMap (R := (· < ·)) _ _ List.pairwise_lt_range'
    intro a a' haa b hb b' hb'
    have h1 : b.1 = a := by
      revert hb; cases p.cells[a]? with
      | none => simp
      | some c => cases c <;> simp; rintro rfl; rfl
    have h2 : b'.1 = a' := by
      revert hb'; cases p.cells[a']? with
      | none => simp
      | some c => cases c <;> simp; rintro rfl; rfl
    rw [h1, h2]; exact haa
  · intro i x
    unfold liveFrom
    rw [List.mem_filterMap]
    constructor
    · rintro ⟨j, _, hj⟩
      dsimp only
      rw [get_eq_some]
      revert hj
      cases hc : p.cells[j]? with
      | none => simp
      | some c =>
        cases c with
        | raw => simp
        | free n => simp
        | live y =>
          simp only [Option.some.injEq, Prod.mk.injEq]
          rintro ⟨rfl, rfl⟩
          exact hc
    · intro hg
      have hc := get_eq_some.mp hg
      refine ⟨i, ?_, by rw [hc]⟩
      have := lt_of_getElem? hc
      rw [List.mem_range'_1]; omega

/-- What the iterator knows at slot `i`: `chain` is the rest of the sorted free list. -/
structure At (cells : List (Cell α)) (nextFree i : Nat) (chain : List Nat) : Prop where
  links : Links cells nextFree chain
  sorted : chain.Pairwise (· < ·)
  ge : ∀ j ∈ chain, i ≤ j
  all : ∀ j n : Nat, i ≤ j → cells[j]? = some (.free n) → j ∈ chain
  noraw : ∀ j : Nat, cells[j]? ≠ some (Cell.raw : Cell α)

theorem At.next_of_free {cells : List (Cell α)} {nf i n : Nat} {chain : List Nat}
    (h : At cells nf i chain) (hc : cells[i]? = some (.free n)) :
    nf = i ∧ ∃ r, At cells n (i + 1) r := by
  have hm := h.all i n (Nat.le_refl _) hc
  cases chain with
  | nil => cases hm
  | cons j r =>
    obtain ⟨h0, m, h1, h2⟩ := h.links
    have hp := List.pairwise_cons.mp h.sorted
    have hji : j = i := by
      have := h.ge j List.mem_cons_self
      rcases List.mem_cons.mp hm with e | e
      · exact e.symm
      · have := hp.1 i e; omega
    subst hji
    have hmn : m = n := by
      rw [hc] at h1
      injection h1 with h1
      injection h1 with h1
      exact h1.symm
    subst hmn
    refine ⟨h0, r, h2, hp.2, fun k hk => hp.1 k hk, ?_, h.noraw⟩
    intro k q hk hq
    rcases List.mem_cons.mp (h.all k q (by omega) hq) with e | e
    · omega
    · exact e

theorem At.lt_of_live {cells : List (Cell α)} {nf i : Nat} {x : α} {chain : List Nat}
    (h : At cells nf i chain) (hs : cells.length < noFree) (hc : cells[i]? = some (.live x)) :
    i < nf ∧ At cells nf (i + 1) chain := by
  have hil := lt_of_getElem? hc
  have hne : i ∉ chain := by
    intro hm
    obtain ⟨n, hn⟩ := h.links.mem i hm
    rw [hc] at hn; cases hn
  refine ⟨?_, h.links, h.sorted, ?_, ?_, h.noraw⟩
  · cases chain with
    | nil => have : nf = noFree := h.links; omega
    | cons j r =>
      have h0 : nf = j := h.links.1
      have h1 := h.ge j List.mem_cons_self
      have h2 : i ≠ j := fun e => hne (by rw [e]; exact List.mem_cons_self)
      omega
  · intro j hj
    have h1 := h.ge j hj
    have h2 : i ≠ j := fun e => hne (by rw [e]; exact hj)
    omega
  · intro j n hj hn
    exact h.all j n (by omega) hn

theorem skipFree_ok (cells : List (Cell α)) (fuel nf i : Nat) (chain : List Nat)
    (h : At cells nf i chain) (hs : cells.length < noFree) (hf : cells.length < fuel + i) (hi : i ≤ cells.length) :
    ∃ nf' i' chain', skipFree cells fuel nf i = some (nf', i') ∧ At cells nf' i' chain' ∧ i ≤ i' ∧
      i' ≤ cells.length ∧ liveFrom cells i = liveFrom cells i' ∧
      (i' < cells.length → ∃ x, cells[i']? = some (.live x)) := by
  induction fuel generalizing nf i chain with
  | zero => omega
  | succ fuel ih =>
    unfold skipFree
    by_cases hc : i < cells.length
    · rw [if_pos hc]
      have hg := List.getElem?_eq_getElem hc
      cases hcell : cells[i] with
      | raw => rw [hcell] at hg; exact absurd hg (h.noraw i)
      | live x =>
        rw [hcell] at hg
        obtain ⟨h1, _⟩ := h.lt_of_live hs hg
        rw [if_pos (by omega), if_pos h1]
        exact ⟨nf, i, chain, rfl, h, Nat.le_refl _, hi, rfl, fun _ => ⟨x, hg⟩⟩
      | free n =>
        rw [hcell] at hg
        obtain ⟨h1, r, h2⟩ := h.next_of_free hg
        rw [if_pos (by omega), if_neg (by omega), hg]
        dsimp only
        obtain ⟨nf', i', c', e1, e2, e3, e4, e5, e6⟩ := ih n (i + 1) r h2 (by omega) (by omega)
        refine ⟨nf', i', c', e1, e2, by omega, e4, ?_, e6⟩
        rw [liveFrom_step hc, hg]; exact e5
    · rw [if_neg hc]
      exact ⟨nf, i, chain, rfl, h, Nat.le_refl _, hi, rfl, fun hlt => absurd hlt hc⟩

theorem visit_ok (cells : List (Cell α)) (fuel nf i : Nat) (chain : List Nat)
    (h : At cells nf i chain) (hs : cells.length < noFree) (hf : cells.length < fuel + i) (hi : i ≤ cells.length) :
    visit cells fuel nf i = some (liveFrom cells i) := by
  induction fuel generalizing nf i chain with
  | zero => omega
  | succ fuel ih =>
    obtain ⟨nf', i', c', e1, e2, e3, e4, e5, e6⟩ :=
      skipFree_ok cells (cells.length + 1) nf i chain h hs (by omega) hi
    unfold visit
    rw [e1]
    dsimp only
    by_cases hc : i' < cells.length
    · obtain ⟨x, hx⟩ := e6 hc
      rw [if_pos hc, hx]
      dsimp only
      obtain ⟨_, h2⟩ := e2.lt_of_live hs hx
      rw [ih nf' (i' + 1) c' h2 (by omega) (by omega), e5, liveFrom_step hc, hx]
      rfl
    · rw [if_neg hc, e5, liveFrom_end (by omega)]

theorem Inv.at_start {p : Pool α} {chain : List Nat} (h : Inv p chain)
    (hs : chain.Pairwise (· < ·)) : At p.cells p.firstFree 0 chain :=
  ⟨h.links, hs, fun _ _ => Nat.zero_le _, fun j n _ hn => h.all j n hn, h.noraw⟩

theorem iterate_ok (isz : Nat) (p : Pool α) (chain : List Nat) (h : Inv p chain)
    (hb : isz * p.cells.length < 2 ^ 32) (hs : p.cells.length < noFree) :
    ∃ p' chain' l, iterate isz p = some (l, p') ∧ Inv p' chain' ∧ (∀ j, get j p' = get j p) ∧
      p'.cells.length = p.cells.length ∧ Listing (fun i => get i p) l := by
  obtain ⟨p', c', e1, e2, e3, e4, e5⟩ := sortFreeList_ok isz p chain h hb hs
  refine ⟨p', c', liveFrom p'.cells 0, ?_, e2, e4, e5, ?_⟩
  · unfold iterate
    rw [e1]
    dsimp only
    rw [visit_ok p'.cells (p'.cells.length + 1) p'.firstFree 0 c' (e2.at_start e3) (by omega)
      (by omega) (by omega)]
    rfl
  · have := liveFrom_listing p'
    have hfun : (fun i => get i p') = (fun i => get i p) := funext e4
    rw [hfun] at this
    exact this

/-! ## Clearing -/

theorem destructUpTo_ok (cells : List (Cell α)) (n i : Nat)
    (h : ∀ j, i ≤ j → j < i + n → ∃ x, cells[j]? = some (.live x)) :
    ∃ xs, destructUpTo cells i n = some xs ∧
      (liveFrom cells i).map (·.2) = xs ++ (liveFrom cells (i + n)).map (·.2) := by
  induction n generalizing i with
  | zero => exact ⟨[], rfl, rfl⟩
  | succ n ih =>
    obtain ⟨x, hx⟩ := h i (Nat.le_refl _) (by omega)
    obtain ⟨xs, e1, e2⟩ := ih (i + 1) (fun j h1 h2 => h j (by omega) (by omega))
    refine ⟨x :: xs, ?_, ?_⟩
    · unfold destructUpTo
      rw [hx]
      dsimp only
      rw [e1]; rfl
    · rw [liveFrom_step (lt_of_getElem? hx), hx]
      dsimp only
      rw [List.map_cons, e2, show i + 1 + n = i + (n + 1) by omega]
      rfl

theorem clearLoop_ok (cells : List (Cell α)) (fuel i nf : Nat) (chain : List Nat)
    (h : At cells nf i chain) (hs : cells.length < noFree) (hf : cells.length < fuel + i) (hi : i ≤ cells.length) :
    clearLoop cells fuel i nf = some ((liveFrom cells i).map (·.2)) := by
  induction fuel generalizing nf i chain with
  | zero => omega
  | succ fuel ih =>
    unfold clearLoop
    dsimp only
    -- where the run of items ends
    obtain ⟨skip, hskip, hle, hge, hlive, hend⟩ : ∃ skip,
        (if nf = noFree then cells.length else nf) = skip ∧ skip ≤ cells.length ∧ i ≤ skip ∧
        (∀ j, i ≤ j → j < skip → ∃ x, cells[j]? = some (.live x)) ∧
        (skip < cells.length → ∃ n r, cells[skip]? = some (.free n) ∧ At cells n (skip + 1) r) := by
      have hcell : ∀ j, i ≤ j → j < cells.length → j ∉ chain → ∃ x, cells[j]? = some (.live x) := by
        intro j h1 h2 h3
        have hg := List.getElem?_eq_getElem h2
        cases hc : cells[j] with
        | raw => rw [hc] at hg; exact absurd hg (h.noraw j)
        | live x => rw [hc] at hg; exact ⟨x, hg⟩
        | free n => rw [hc] at hg; exact absurd (h.all j n h1 hg) h3
      cases chain with
      | nil =>
        have : nf = noFree := h.links
        rw [if_pos this]
        refine ⟨cells.length, rfl, Nat.le_refl _, hi, fun j h1 h2 => hcell j h1 h2 (by simp), ?_⟩
        intro hlt; omega
      | cons k r =>
        obtain ⟨h0, n, h1, h2⟩ := h.links
        have hkl := lt_of_getElem? h1
        have hp := List.pairwise_cons.mp h.sorted
        rw [if_neg (by omega)]
        refine ⟨nf, rfl, by omega, ?_, ?_, ?_⟩
        · rw [h0]; exact h.ge k List.mem_cons_self
        · intro j g1 g2
          refine hcell j g1 (by omega) ?_
          intro hm
          rcases List.mem_cons.mp hm with e | e
          · omega
          · have := hp.1 j e; omega
        · intro _
          refine ⟨n, r, by rw [h0]; exact h1, h2, hp.2, ?_, ?_, h.noraw⟩
          · intro j hj; have := hp.1 j hj; omega
          · intro j m hj hm
            rcases List.mem_cons.mp (h.all j m (by have := h.ge k List.mem_cons_self; omega) hm) with e | e
            · omega
            · exact e
    rw [hskip]
    obtain ⟨xs, e1, e2⟩ := destructUpTo_ok cells (skip - i) i (fun j h1 h2 => hlive j h1 (by omega))
    rw [e1]
    dsimp only
    rw [show i + (skip - i) = skip by omega] at e2
    rw [Nat.max_eq_right hge]
    by_cases hc : skip = cells.length
    · rw [if_pos hc, e2, hc, liveFrom_end (Nat.le_refl _)]
      simp
    · rw [if_neg hc]
      obtain ⟨n, r, g1, g2⟩ := hend (by omega)
      rw [g1]
      dsimp only
      rw [ih (skip + 1) n r g2 (by omega) (by omega), e2, liveFrom_step (lt_of_getElem? g1), g1]
      rfl

theorem Inv.empty : Inv (Pool.empty : Pool α) [] :=
  ⟨rfl, List.nodup_nil, by simp [Pool.empty], by simp [Pool.empty], rfl, fun _ => List.Pairwise.nil,
    Nat.le_refl _⟩

theorem clear_ok (isz : Nat) (p : Pool α) (chain : List Nat) (h : Inv p chain)
    (hb : isz * p.cells.length < 2 ^ 32) (hs : p.cells.length < noFree) :
    ∃ l, clear isz p = some (l.map (·.2), Pool.empty) ∧ Listing (fun i => get i p) l := by
  obtain ⟨p', c', e1, e2, e3, e4, e5⟩ := sortFreeList_ok isz p chain h hb hs
  refine ⟨liveFrom p'.cells 0, ?_, ?_⟩
  · unfold clear
    rw [e1]
    dsimp only
    rw [clearLoop_ok p'.cells (p'.cells.length + 1) 0 p'.firstFree c' (e2.at_start e3) (by omega)
      (by omega) (by omega)]
    rfl
  · have := liveFrom_listing p'
    have hfun : (fun i => get i p') = (fun i => get i p) := funext e4
    rw [hfun] at this
    exact this

end Verif.Pool
