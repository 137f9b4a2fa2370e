import Verif.Label.Lemmas
/-!
# C06, C07 — varint round trip and faithful interning
-/
namespace Verif.Label
open Verif

/-- The big-endian base-128 value of a group list: independent specification of what a varint
denotes (most significant group first, continuation bit on all but the last byte). -/
def specValue : List Byte → Nat
  | [] => 0
  | c :: rest => (c.toNat % 128) * 128 ^ rest.length + specValue rest

/-- C06: decoding the encoding of any 32-bit value followed by anything returns the value and
exactly the following bytes. -/
theorem C06_varint_roundtrip (v : Nat) (rest : List Byte) (hv : v < 2 ^ 32) :
    decodeValue (encodeValue v ++ rest) = some (v, rest) := decode_encode v rest hv

example : decodeValue (encodeValue 4294967295 ++ [7]) = some (4294967295, [7]) :=
  C06_varint_roundtrip _ _ (by decide)
example : encodeValue 300 = [0x82, 0x2c] := by
  simp [encodeValue, getEncLen, encodeLoop]

/-- C06: the encoder writes exactly as many bytes as `getEncLen` announced, at least one and, for a
32-bit value, at most five; it is the shortest possible number of 7-bit groups. -/
theorem C06_varint_length (v : Nat) (hv : v < 2 ^ 32) :
    (encodeValue v).length = getEncLen v ∧ 1 ≤ getEncLen v ∧ getEncLen v ≤ 5 ∧
      v < 128 ^ getEncLen v ∧ (∀ n, 1 ≤ n → v < 128 ^ n → getEncLen v ≤ n) := by
  refine ⟨encodeValue_length v, getEncLen_pos v, ?_, getEncLen_bound v, ?_⟩
  · apply Classical.byContradiction
    intro h
    have h1 := getEncLen_minimal v (by omega)
    have h2 : 128 ^ 5 ≤ 128 ^ (getEncLen v - 1) := Nat.pow_le_pow_right (by decide) (by omega)
    omega
  · intro n hn hlt
    apply Classical.byContradiction
    intro h
    have h1 := getEncLen_minimal v (by omega)
    have h2 : 128 ^ n ≤ 128 ^ (getEncLen v - 1) := Nat.pow_le_pow_right (by decide) (by omega)
    omega

example : getEncLen 128 = 2 := by simp [getEncLen]

/-- C06: the code is prefix free, hence injective even when followed by other data. -/
theorem C06_varint_prefix_free (v w : Nat) (r s : List Byte) (hv : v < 2 ^ 32) (hw : w < 2 ^ 32)
    (h : encodeValue v ++ r = encodeValue w ++ s) : v = w ∧ r = s := by
  have h1 := C06_varint_roundtrip v r hv
  rw [h, C06_varint_roundtrip w s hw] at h1
  simp only [Option.some.injEq, Prod.mk.injEq] at h1
  exact ⟨h1.1.symm, h1.2.symm⟩

example : encodeValue 127 ++ [1] ≠ encodeValue 128 ++ [] := fun h =>
  absurd (C06_varint_prefix_free 127 128 [1] [] (by decide) (by decide) h).1 (by decide)

/-- C06: the bytes written denote the value in the independent base-128 reading, all but the last
have the continuation bit and the last one has not. -/
theorem C06_varint_denotes (v : Nat) :
    specValue (encodeValue v) = v ∧
      (∀ c ∈ (encodeValue v).dropLast, 128 ≤ c.toNat) ∧
      (∀ c ∈ (encodeValue v).getLast?, c.toNat < 128) := by
  have key : ∀ g, specValue (encodeLoop v g) = v % 128 ^ (g + 1) ∧
      (∀ c ∈ (encodeLoop v g).dropLast, 128 ≤ c.toNat) ∧
      (∀ c ∈ (encodeLoop v g).getLast?, c.toNat < 128) := by
    intro g
    induction g with
    | zero =>
      have h1 : (v >>> 0 &&& 127 ||| 0 <<< 7) = v % 128 := by rw [and_127]; simp
      refine ⟨?_, ?_, ?_⟩
      · simp only [encodeLoop, specValue]
        rw [h1, toNat_ofNat_byte (by omega)]
        simp
      · simp [encodeLoop]
      · intro c hc
        simp only [encodeLoop, h1, List.getLast?_singleton, Option.mem_def,
          Option.some.injEq] at hc
        subst hc
        rw [toNat_ofNat_byte (by omega)]
        omega
    | succ g ih =>
      have h1 : (v >>> ((g + 1) * 7) &&& 127 ||| 1 <<< 7) = v / 128 ^ (g + 1) % 128 + 128 := by
        rw [and_127]
        have : (1 <<< 7 : Nat) = 128 := rfl
        rw [this, or_128 _ (Nat.mod_lt _ (by decide)), Nat.shiftRight_eq_div_pow, Nat.mul_comm,
          Nat.pow_mul]
      have hlt : v / 128 ^ (g + 1) % 128 < 128 := Nat.mod_lt _ (by decide)
      have hlen := encodeLoop_length v g
      have hne : encodeLoop v g ≠ [] := by intro h; rw [h] at hlen; simp at hlen
      refine ⟨?_, ?_, ?_⟩
      · simp only [encodeLoop, specValue]
        rw [h1, toNat_ofNat_byte (by omega), ih.1, encodeLoop_length, Nat.pow_succ 128 (g + 1),
          Nat.mod_mul, Nat.add_mod_right, Nat.mod_mod, Nat.mul_comm, Nat.add_comm]
      · intro c hc
        simp only [encodeLoop, h1] at hc
        rw [List.dropLast_cons_of_ne_nil hne, List.mem_cons] at hc
        rcases hc with rfl | hc
        · rw [toNat_ofNat_byte (by omega)]; omega
        · exact ih.2.1 c hc
      · intro c hc
        simp only [encodeLoop] at hc
        rw [List.getLast?_cons_of_ne_nil hne] at hc
        exact ih.2.2 c hc
  have h := key (getEncLen v - 1)
  have hp := getEncLen_pos v
  have e : getEncLen v - 1 + 1 = getEncLen v := by omega
  rw [e, Nat.mod_eq_of_lt (getEncLen_bound v)] at h
  exact h

example : specValue (encodeValue 1000000) = 1000000 := (C06_varint_denotes 1000000).1

/-! ## C07 -/

/-- A client's history: strings interned in order. `none` when the pool's address range runs out. -/
def run (m : LabelMap) : List (List Byte) → Option (List Nat × LabelMap)
  | [] => some ([], m)
  | s :: rest =>
    match m.insertOrFind s with
    | none => none
    | some (l, m') =>
      match run m' rest with
      | none => none
      | some (ls, m'') => some (l :: ls, m'')

theorem run_spec : ∀ (ss : List (List Byte)) (m m' : LabelMap) (ls : List Nat), Inv m →
    run m ss = some (ls, m') →
    Inv m' ∧ (∃ ext, m'.pool = m.pool ++ ext) ∧ (∀ id ∈ m.ids, id ∈ m'.ids) ∧
      (∀ id ∈ m'.ids, id ∈ m.ids ∨ id ∈ ls) ∧
      ls.length = ss.length ∧
      (∀ (i : Nat) s l, ss[i]? = some s → ls[i]? = some l → EntryAt m'.pool l s ∧ l ∈ m'.ids) := by
  intro ss
  induction ss with
  | nil =>
    intro m m' ls hi h
    simp only [run, Option.some.injEq, Prod.mk.injEq] at h
    obtain ⟨rfl, rfl⟩ := h
    exact ⟨hi, ⟨[], by simp⟩, fun _ h => h, fun _ h => Or.inl h, rfl, by simp⟩
  | cons s rest ih =>
    intro m m' ls hi h
    simp only [run] at h
    split at h
    · exact absurd h (by simp)
    · rename_i l m1 h1
      split at h
      · exact absurd h (by simp)
      · rename_i ls2 m2 h2
        simp only [Option.some.injEq, Prod.mk.injEq] at h
        obtain ⟨rfl, rfl⟩ := h
        obtain ⟨hi1, he, hl, ⟨e1, hp1⟩, hmono, hnew⟩ := insert_step hi h1
        obtain ⟨hi2, ⟨e2, hp2⟩, hmono2, hnew2, hlen, hall⟩ := ih m1 m2 ls2 hi1 h2
        refine ⟨hi2, ⟨e1 ++ e2, by rw [hp2, hp1]; simp⟩, fun id h => hmono2 id (hmono id h), ?_,
          by simp [hlen], ?_⟩
        · intro id hid
          rcases hnew2 id hid with h | h
          · rcases hnew id h with h | h
            · exact Or.inl h
            · exact Or.inr (by simp [h])
          · exact Or.inr (by simp [h])
        · intro i s' l' hs hl'
          cases i with
          | zero =>
            simp only [List.getElem?_cons_zero, Option.some.injEq] at hs hl'
            subst hs; subst hl'
            exact ⟨hp2 ▸ he.append, hmono2 _ hl⟩
          | succ i =>
            simp only [List.getElem?_cons_succ] at hs hl'
            exact hall i s' l' hs hl'

/-- C07: after any history of interning, every label handed out at any time during the history
denotes, in the final state, exactly the string it was handed out for, and is not the null label. -/
theorem C07_labels_stay_valid (ss : List (List Byte)) (ls : List Nat) (m : LabelMap)
    (h : run LabelMap.empty ss = some (ls, m)) :
    ls.length = ss.length ∧
    ∀ (i : Nat) (s : List Byte) (l : Nat), ss[i]? = some s → ls[i]? = some l →
      m.view l = some s ∧ l ≠ 0 := by
  obtain ⟨_, _, _, _, hlen, hall⟩ := run_spec ss _ m ls Inv.empty h
  refine ⟨hlen, fun i s l hs hl => ?_⟩
  obtain ⟨he, _⟩ := hall i s l hs hl
  obtain ⟨_, _, _, _, _, h0⟩ := id he
  exact ⟨view_of_entry he, by omega⟩

/-- C07: two strings interned in the same history get equal labels exactly when they are equal. -/
theorem C07_labels_equal_iff (ss : List (List Byte)) (ls : List Nat) (m : LabelMap)
    (h : run LabelMap.empty ss = some (ls, m)) (i j : Nat) (s t : List Byte) (k l : Nat)
    (hs : ss[i]? = some s) (ht : ss[j]? = some t) (hk : ls[i]? = some k) (hl : ls[j]? = some l) :
    k = l ↔ s = t := by
  constructor
  · intro e
    subst e
    have h1 := (C07_labels_stay_valid ss ls m h).2 i s k hs hk
    have h2 := (C07_labels_stay_valid ss ls m h).2 j t k ht hl
    have := h1.1.symm.trans h2.1
    simpa using this
  · intro e
    subst e
    -- both positions: wlog i ≤ j
    have wl : ∀ (ss : List (List Byte)) (m0 m : LabelMap) (ls : List Nat), Inv m0 →
        run m0 ss = some (ls, m) → ∀ (i j k l : Nat), i ≤ j → ss[i]? = some s → ss[j]? = some s →
        ls[i]? = some k → ls[j]? = some l → k = l := by
      -- a string whose id is already stored keeps that id
      have stored : ∀ (ss : List (List Byte)) (m0 m : LabelMap) (ls : List Nat) (k : Nat), Inv m0 →
          m0.ids.find? (m0.matches s) = some k → run m0 ss = some (ls, m) →
          ∀ (j l : Nat), ss[j]? = some s → ls[j]? = some l → k = l := by
        intro ss
        induction ss with
        | nil => intro m0 m ls k _ _ _ j l hj; simp at hj
        | cons u rest ih =>
          intro m0 m ls k hi hf hr j l hj hl
          simp only [run] at hr
          split at hr
          · exact absurd hr (by simp)
          · rename_i l1 m1 h1
            split at hr
            · exact absurd hr (by simp)
            · rename_i ls2 m2 h2
              simp only [Option.some.injEq, Prod.mk.injEq] at hr
              obtain ⟨rfl, rfl⟩ := hr
              have hstep := insert_step hi h1
              cases j with
              | zero =>
                simp only [List.getElem?_cons_zero, Option.some.injEq] at hj hl
                subst hj; subst hl
                unfold LabelMap.insertOrFind at h1
                rw [hf] at h1
                simp only [Option.some.injEq, Prod.mk.injEq] at h1
                exact h1.1
              | succ j =>
                simp only [List.getElem?_cons_succ] at hj hl
                refine ih m1 m2 ls2 k hstep.1 ?_ h2 j l hj hl
                -- find? in m1 still yields k
                have hm := find_matches hf
                unfold LabelMap.insertOrFind at h1
                split at h1
                · simp only [Option.some.injEq, Prod.mk.injEq] at h1
                  rw [← h1.2]; exact hf
                · rename_i hnone
                  dsimp only at h1
                  split at h1
                  · rename_i hle
                    simp only [Option.some.injEq, Prod.mk.injEq] at h1
                    obtain ⟨rfl, rfl⟩ := h1
                    have hmm : ∀ (t : List Byte), ∀ id ∈ m0.ids,
                        LabelMap.matches ⟨m0.pool ++ (encodeValue u.length ++ u),
                          m0.pool.length :: m0.ids⟩ t id = m0.matches t id := by
                      intro t id hid
                      obtain ⟨s', hs'⟩ := hi.entries id hid
                      have a := view_of_entry (m := m0) hs'
                      have b := view_of_entry (m := ⟨m0.pool ++ (encodeValue u.length ++ u),
                          m0.pool.length :: m0.ids⟩) (id := id) (s := s') hs'.append
                      simp only [LabelMap.matches, a, b]
                    have hnew : LabelMap.matches ⟨m0.pool ++ (encodeValue u.length ++ u),
                          m0.pool.length :: m0.ids⟩ s m0.pool.length = false := by
                      have b := view_of_entry (m := ⟨m0.pool ++ (encodeValue u.length ++ u),
                          m0.pool.length :: m0.ids⟩) (id := m0.pool.length) (s := u) hstep.2.1
                      have hne : u ≠ s := by
                        intro e
                        subst e
                        rw [hf] at hnone
                        simp at hnone
                      simp only [LabelMap.matches, b]
                      simp [hne]
                    simp only [List.find?_cons, hnew]
                    rw [← hf]
                    have aux : ∀ (l : List Nat), (∀ id ∈ l, id ∈ m0.ids) →
                        l.find? (LabelMap.matches ⟨m0.pool ++ (encodeValue u.length ++ u),
                          m0.pool.length :: m0.ids⟩ s) = l.find? (m0.matches s) := by
                      intro l
                      induction l with
                      | nil => intro _; rfl
                      | cons x xs ihx =>
                        intro hx
                        simp only [List.find?_cons]
                        rw [hmm s x (hx x (by simp)), ihx (fun id h => hx id (by simp [h]))]
                    exact aux m0.ids (fun _ h => h)
                  · exact absurd h1 (by simp)
      intro ss
      induction ss with
      | nil => intro m0 m ls _ _ i j k l _ hi; simp at hi
      | cons u rest ih =>
        intro m0 m ls hi hr i j k l hij hsi hsj hki hlj
        have hr' := hr
        simp only [run] at hr
        split at hr
        · exact absurd hr (by simp)
        · rename_i l1 m1 h1
          split at hr
          · exact absurd hr (by simp)
          · rename_i ls2 m2 h2
            simp only [Option.some.injEq, Prod.mk.injEq] at hr
            obtain ⟨rfl, rfl⟩ := hr
            have hstep := insert_step hi h1
            cases i with
            | succ i =>
              cases j with
              | zero => omega
              | succ j =>
                simp only [List.getElem?_cons_succ] at hsi hsj hki hlj
                exact ih m1 m2 ls2 hstep.1 h2 i j k l (by omega) hsi hsj hki hlj
            | zero =>
              simp only [List.getElem?_cons_zero, Option.some.injEq] at hsi hki
              subst hsi; subst hki
              cases j with
              | zero =>
                simp only [List.getElem?_cons_zero, Option.some.injEq] at hlj
                exact hlj
              | succ j =>
                simp only [List.getElem?_cons_succ] at hsj hlj
                refine stored rest m1 m2 ls2 l1 hstep.1 ?_ h2 j l hsj hlj
                unfold LabelMap.insertOrFind at h1
                split at h1
                · rename_i hf
                  simp only [Option.some.injEq, Prod.mk.injEq] at h1
                  rw [← h1.1, ← h1.2]; exact hf
                · dsimp only at h1
                  split at h1
                  · simp only [Option.some.injEq, Prod.mk.injEq] at h1
                    obtain ⟨rfl, rfl⟩ := h1
                    have b := view_of_entry (m := ⟨m0.pool ++ (encodeValue u.length ++ u),
                          m0.pool.length :: m0.ids⟩) (id := m0.pool.length) (s := u) hstep.2.1
                    simp [List.find?_cons, LabelMap.matches, b]
                  · exact absurd h1 (by simp)
    rcases Nat.le_total i j with hij | hij
    · exact wl ss _ m ls Inv.empty h i j k l hij hs ht hk hl
    · exact (wl ss _ m ls Inv.empty h j i l k hij ht hs hl hk).symm

/-- C07: lookup without insertion succeeds exactly for the strings interned so far, and returns the
label interning would return. -/
theorem C07_find_exact (ss : List (List Byte)) (ls : List Nat) (m : LabelMap)
    (h : run LabelMap.empty ss = some (ls, m)) (s : List Byte) :
    (s ∈ ss → m.find s ≠ 0 ∧ m.view (m.find s) = some s ∧
        m.insertOrFind s = some (m.find s, m)) ∧
    (s ∉ ss → m.find s = 0) := by
  obtain ⟨hi, _, _, hnew, hlen, hall⟩ := run_spec ss _ m ls Inv.empty h
  constructor
  · intro hs
    obtain ⟨i, hi1, rfl⟩ := List.getElem_of_mem hs
    have hl : ls[i]? = some (ls[i]'(by omega)) := List.getElem?_eq_getElem (by omega)
    obtain ⟨he, hmem⟩ := hall i _ _ (List.getElem?_eq_getElem hi1) hl
    cases hf : m.ids.find? (m.matches ss[i]) with
    | none =>
      rw [List.find?_eq_none] at hf
      have := hf _ hmem
      simp [LabelMap.matches, view_of_entry he] at this
    | some id =>
      obtain ⟨hid, hv⟩ := find_matches hf
      obtain ⟨s', hs'⟩ := hi.entries id hid
      obtain ⟨_, _, _, _, _, h0⟩ := hs'
      refine ⟨?_, ?_, ?_⟩
      · simp only [LabelMap.find, hf]; omega
      · simp only [LabelMap.find, hf]; exact hv
      · simp only [LabelMap.find, LabelMap.insertOrFind, hf]
  · intro hs
    cases hf : m.ids.find? (m.matches s) with
    | none => simp [LabelMap.find, hf]
    | some id =>
      exfalso
      obtain ⟨hid, hv⟩ := find_matches hf
      rcases hnew id hid with h' | h'
      · simp [LabelMap.empty] at h'
      · obtain ⟨i, hi1, hi2⟩ := List.getElem_of_mem h'
        have hss : ss[i]? = some (ss[i]'(by omega)) := List.getElem?_eq_getElem (by omega)
        obtain ⟨he, _⟩ := hall i _ id hss (by rw [List.getElem?_eq_getElem hi1, hi2])
        have := view_of_entry he
        rw [hv] at this
        simp only [Option.some.injEq] at this
        exact hs (this ▸ List.getElem_mem _)

/-- A concrete history satisfying the hypotheses of the C07 theorems: interning `a`, the empty
string, `a` again and `b`. -/
example : ∃ m, run LabelMap.empty [[97], [], [97], [98]] = some ([1, 3, 1, 4], m) := by
  have e1 : encodeValue 1 = [1] := by simp [encodeValue, getEncLen, encodeLoop]
  have e0 : encodeValue 0 = [0] := by simp [encodeValue, getEncLen, encodeLoop]
  have l1 : getEncLen 1 = 1 := by simp [getEncLen]
  have l0 : getEncLen 0 = 1 := by simp [getEncLen]
  simp [run, LabelMap.insertOrFind, LabelMap.empty, LabelMap.matches, LabelMap.view,
    decodeValue, decodeLoop, e1, e0, l1, l0, reservedBytes, u32]

end Verif.Label
