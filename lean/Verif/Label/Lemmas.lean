import Verif.Label.Model
namespace Verif.Label
open Verif

theorem getEncLen_pos (v : Nat) : 1 ≤ getEncLen v := by
  rw [getEncLen]; split <;> omega

theorem getEncLen_bound (v : Nat) : v < 128 ^ getEncLen v := by
  induction v using Nat.strongRecOn with
  | _ v ih =>
    rw [getEncLen]
    split
    · rename_i h
      have hd : v >>> 7 = v / 128 := by rw [Nat.shiftRight_eq_div_pow]
      have := ih (v >>> 7) (by omega)
      rw [Nat.pow_succ]
      omega
    · rename_i h
      rw [Nat.shiftRight_eq_div_pow] at h
      omega

theorem getEncLen_minimal (v : Nat) (h : 1 < getEncLen v) : 128 ^ (getEncLen v - 1) ≤ v := by
  induction v using Nat.strongRecOn with
  | _ v ih =>
    rw [getEncLen] at h ⊢
    split at h
    · rename_i h'
      have hd : v >>> 7 = v / 128 := by rw [Nat.shiftRight_eq_div_pow]
      simp only [h', ↓reduceDIte, Nat.add_sub_cancel]
      by_cases h1 : 1 < getEncLen (v >>> 7)
      · have := ih (v >>> 7) (by omega) h1
        have e : getEncLen (v >>> 7) = (getEncLen (v >>> 7) - 1) + 1 := by omega
        rw [e, Nat.pow_succ]
        omega
      · have := getEncLen_pos (v >>> 7)
        have e : getEncLen (v >>> 7) = 1 := by omega
        rw [e]; omega
    · omega

theorem encodeLoop_length (v g : Nat) : (encodeLoop v g).length = g + 1 := by
  induction g with
  | zero => rfl
  | succ g ih => simp [encodeLoop, ih]

theorem or_128 (a : Nat) (h : a < 128) : a ||| 128 = a + 128 := by
  have := shl_or 1 a 7 h
  rw [Nat.or_comm] at this
  have e : (1 <<< 7 : Nat) = 128 := rfl
  rw [e] at this
  omega

theorem decode_encodeLoop (v g : Nat) (rest : List Byte) (hv : v < 2 ^ 32) :
    decodeLoop (v / 128 ^ (g + 1) * 128) (encodeLoop v g ++ rest) = some (v, rest) := by
  induction g with
  | zero =>
    have h1 : (v >>> 0 &&& 127 ||| 0 <<< 7) = v % 128 := by
      rw [and_127]; simp
    simp only [encodeLoop, List.cons_append, List.nil_append, decodeLoop]
    rw [h1, toNat_ofNat_byte (by omega), and_127, Nat.shiftRight_eq_div_pow]
    have e : v / 128 ^ (0 + 1) * 128 + v % 128 % 128 = v := by
      simp only [Nat.zero_add, Nat.pow_one]; omega
    rw [if_pos (by omega), e, u32_of_lt hv]
  | succ g ih =>
    have h1 : (v >>> ((g + 1) * 7) &&& 127 ||| 1 <<< 7) = v / 128 ^ (g + 1) % 128 + 128 := by
      rw [and_127]
      have : (1 <<< 7 : Nat) = 128 := rfl
      rw [this, or_128 _ (Nat.mod_lt _ (by decide)), Nat.shiftRight_eq_div_pow, Nat.mul_comm,
        Nat.pow_mul]
    simp only [encodeLoop, List.cons_append, decodeLoop]
    have hlt : v / 128 ^ (g + 1) % 128 < 128 := Nat.mod_lt _ (by decide)
    rw [h1, toNat_ofNat_byte (by omega), and_127, Nat.shiftRight_eq_div_pow]
    have hsh : (v / 128 ^ (g + 1) % 128 + 128) / 2 ^ 7 ≠ 0 := by omega
    have e : v / 128 ^ (g + 1 + 1) * 128 + (v / 128 ^ (g + 1) % 128 + 128) % 128
        = v / 128 ^ (g + 1) := by
      rw [Nat.pow_succ 128 (g + 1), ← Nat.div_div_eq_div_mul]
      omega
    have hle : v / 128 ^ (g + 1) ≤ v := Nat.div_le_self _ _
    have hle2 : v / 128 ^ (g + 1) * 128 ≤ v := by
      rw [Nat.pow_succ, ← Nat.div_div_eq_div_mul]
      have : v / 128 ^ g ≤ v := Nat.div_le_self _ _
      omega
    rw [if_neg hsh, e, u32_of_lt (n := v / 128 ^ (g + 1)) (by omega), Nat.shiftLeft_eq,
      u32_of_lt (n := v / 128 ^ (g + 1) * 2 ^ 7) (by omega)]
    exact ih

theorem decode_encode (v : Nat) (rest : List Byte) (hv : v < 2 ^ 32) :
    decodeValue (encodeValue v ++ rest) = some (v, rest) := by
  have h := decode_encodeLoop v (getEncLen v - 1) rest hv
  have hp := getEncLen_pos v
  have e : getEncLen v - 1 + 1 = getEncLen v := by omega
  rw [e, Nat.div_eq_of_lt (getEncLen_bound v), Nat.zero_mul] at h
  exact h

/-! ## Invariant of the label map -/

/-- Every stored id points at an encoded entry inside the pool. -/
def EntryAt (pool : List Byte) (id : Nat) (s : List Byte) : Prop :=
  ∃ pre post, pool = pre ++ (encodeValue s.length ++ s) ++ post ∧ pre.length = id ∧
    s.length < 2 ^ 32 ∧ 0 < id

theorem encodeValue_length (v : Nat) : (encodeValue v).length = getEncLen v := by
  have := getEncLen_pos v
  rw [encodeValue, encodeLoop_length]; omega

theorem view_of_entry {m : LabelMap} {id : Nat} {s : List Byte} (h : EntryAt m.pool id s) :
    m.view id = some s := by
  obtain ⟨pre, post, hp, hl, hs, _⟩ := h
  have hpos := getEncLen_pos s.length
  have hlen := encodeValue_length s.length
  unfold LabelMap.view
  rw [if_pos (by rw [hp]; simp; omega)]
  have hd : m.pool.drop id = encodeValue s.length ++ (s ++ post) := by
    rw [hp, ← hl]; simp
  rw [hd, decode_encode _ _ hs]
  simp

theorem EntryAt.append {pool : List Byte} {id : Nat} {s ext : List Byte} (h : EntryAt pool id s) :
    EntryAt (pool ++ ext) id s := by
  obtain ⟨pre, post, hp, hl, hs, h0⟩ := h
  exact ⟨pre, post ++ ext, by rw [hp]; simp, hl, hs, h0⟩

/-- The map's invariant. -/
structure Inv (m : LabelMap) : Prop where
  pool_pos : 0 < m.pool.length
  pool_le : m.pool.length ≤ reservedBytes
  entries : ∀ id ∈ m.ids, ∃ s, EntryAt m.pool id s

theorem Inv.empty : Inv LabelMap.empty :=
  ⟨by simp [LabelMap.empty], by simp [LabelMap.empty, reservedBytes], by simp [LabelMap.empty]⟩

theorem find_matches {m : LabelMap} {s : List Byte} {id : Nat}
    (h : m.ids.find? (m.matches s) = some id) : id ∈ m.ids ∧ m.view id = some s := by
  refine ⟨List.mem_of_find?_eq_some h, ?_⟩
  have := List.find?_some h
  simpa [LabelMap.matches] using this

/-- One step: the new state satisfies the invariant, the pool only grows, the label is a stored id
that denotes `s`. -/
theorem insert_step {m m' : LabelMap} {s : List Byte} {l : Nat} (hi : Inv m)
    (h : m.insertOrFind s = some (l, m')) :
    Inv m' ∧ EntryAt m'.pool l s ∧ l ∈ m'.ids ∧ (∃ ext, m'.pool = m.pool ++ ext) ∧
      (∀ id ∈ m.ids, id ∈ m'.ids) ∧ (∀ id ∈ m'.ids, id ∈ m.ids ∨ id = l) := by
  unfold LabelMap.insertOrFind at h
  split at h
  · rename_i id hf
    simp only [Option.some.injEq, Prod.mk.injEq] at h
    obtain ⟨rfl, rfl⟩ := h
    obtain ⟨hm, hv⟩ := find_matches hf
    obtain ⟨s', hs'⟩ := hi.entries _ hm
    have := view_of_entry (m := m) hs'
    rw [hv] at this
    cases this
    exact ⟨hi, hs', hm, ⟨[], by simp⟩, fun _ h => h, fun _ h => Or.inl h⟩
  · dsimp only at h
    split at h
    · rename_i hle
      simp only [Option.some.injEq, Prod.mk.injEq] at h
      obtain ⟨rfl, rfl⟩ := h
      have hlen := encodeValue_length s.length
      have hr : reservedBytes < 2 ^ 32 := by decide
      have he : EntryAt (m.pool ++ (encodeValue s.length ++ s)) m.pool.length s :=
        ⟨m.pool, [], by simp, rfl, by omega, hi.pool_pos⟩
      refine ⟨⟨?_, ?_, ?_⟩, he, by simp, ⟨_, rfl⟩, ?_, ?_⟩
      · have := hi.pool_pos; simp; omega
      · simp only [List.length_append, hlen]; omega
      · intro id hid
        simp only [List.mem_cons] at hid
        rcases hid with rfl | hid
        · exact ⟨s, he⟩
        · obtain ⟨s', hs'⟩ := hi.entries id hid
          exact ⟨s', hs'.append⟩
      · intro id hid; simp [hid]
      · intro id hid
        simp only [List.mem_cons] at hid
        exact hid.symm
    · exact absurd h (by simp)

end Verif.Label
