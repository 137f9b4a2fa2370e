import Verif.Spooky.Spec
/-!
# Lemmas about the hasher
-/
namespace Verif.Spooky
open Verif

theorem readLE_some {m : List Byte} {k n : Nat} (h : k + n ≤ m.length) :
    readLE m k n = some (UInt64.ofNat (le ((m.drop k).take n))) := by simp [readLE, h]

theorem readLE_append {b : List Byte} {k n : Nat} (h : k + n ≤ b.length) (r : List Byte) :
    readLE (b ++ r) k n = readLE b k n := by
  rw [readLE_some h, readLE_some (by simp; omega), List.drop_append_of_le_length (by omega),
    List.take_append_of_le_length (by simp; omega)]

theorem readBlock_some {m : List Byte} (h : 96 ≤ m.length) : ∃ w, readBlock m = some w := by
  unfold readBlock
  iterate 12 rw [readLE_some (by omega)]; simp only [Option.bind_eq_bind, Option.bind_some]
  exact ⟨_, rfl⟩

theorem readBlock_append {b : List Byte} (h : 96 ≤ b.length) (r : List Byte) :
    readBlock (b ++ r) = readBlock b := by
  unfold readBlock
  iterate 12 rw [readLE_append (by omega)]

theorem readBlock_take {m : List Byte} (h : 96 ≤ m.length) : readBlock (m.take 96) = readBlock m := by
  have := readBlock_append (b := m.take 96) (by simp; omega) (m.drop 96)
  rw [List.take_append_drop] at this
  exact this.symm

theorem mixN_add (a b : Nat) (h : W12) (m : List Byte) :
    mixN (a + b) h m = (mixN a h m).bind fun x => mixN b x.1 x.2 := by
  induction a generalizing h m with
  | zero => simp [mixN]
  | succ a ih =>
    rw [show a + 1 + b = (a + b) + 1 by omega]
    simp only [mixN]
    split
    · rfl
    · exact ih ..

theorem mixN_some (n : Nat) (h : W12) (b : List Byte) (hb : b.length = 96 * n) :
    ∃ h', ∀ r, mixN n h (b ++ r) = some (h', r) := by
  induction n generalizing h b with
  | zero =>
    have : b = [] := List.length_eq_zero_iff.mp (by omega)
    subst this
    exact ⟨h, fun r => rfl⟩
  | succ n ih =>
    obtain ⟨w, hw⟩ := readBlock_some (m := b) (by omega)
    obtain ⟨h', hh⟩ := ih (mix w h) (b.drop 96) (by simp; omega)
    refine ⟨h', fun r => ?_⟩
    simp only [mixN]
    rw [readBlock_append (by omega), hw]
    dsimp only
    rw [List.drop_append_of_le_length (by omega)]
    exact hh r

theorem mixN_ext {n : Nat} {h h' : W12} {b : List Byte} (hb : b.length = 96 * n)
    (e : mixN n h b = some (h', [])) (r : List Byte) : mixN n h (b ++ r) = some (h', r) := by
  obtain ⟨h2, H⟩ := mixN_some n h b hb
  have := H []
  rw [List.append_nil, e] at this
  simp at this
  rw [this]; exact H r

theorem copyInto_some {d m : List Byte} {p : Nat} (h : p + m.length ≤ d.length) :
    copyInto d p m = some (d.take p ++ m ++ d.drop (p + m.length)) := by simp [copyInto, h]

theorem copyInto_length {d m d' : List Byte} {p : Nat} (h : copyInto d p m = some d') :
    d'.length = d.length := by
  unfold copyInto at h
  split at h
  · simp at h; subst h; simp; omega
  · exact absurd h (by simp)

/-- What a hasher holds after the bytes `t`. -/
def Inv (s1 s2 : UInt64) (t : List Byte) (s : State) : Prop :=
  s.data.length = 192 ∧ s.length = t.length ∧
  ((t.length < 192 ∧ s.remainder = t.length ∧ s.data.take t.length = t ∧ s.state.w0 = s1 ∧
      s.state.w1 = s2) ∨
   (192 ≤ t.length ∧ ∃ k b r, t = b ++ r ∧ b.length = 96 * k ∧ s.remainder = r.length ∧
      r.length < 192 ∧ s.data.take r.length = r ∧
      mixN k (initVars s1 s2) b = some (s.state, [])))

theorem Inv_init (junk : State) (hj : junk.data.length = 192) (s1 s2 : UInt64) :
    Inv s1 s2 [] (init junk s1 s2) := by
  refine ⟨hj, rfl, .inl ⟨by simp, rfl, rfl, rfl, rfl⟩⟩

/-- In both cases: the variables to go on with, the bytes mixed in and those stashed. -/
theorem Inv.split {s1 s2 : UInt64} {t : List Byte} {s : State} (i : Inv s1 s2 t s) :
    ∃ k b r, t = b ++ r ∧ b.length = 96 * k ∧ s.remainder = r.length ∧ r.length < 192 ∧
      s.data.take r.length = r ∧ mixN k (initVars s1 s2) b = some (startVars s, []) := by
  obtain ⟨h1, h2, ⟨h3, h4, h5, h6, h7⟩ | ⟨h3, k, b, r, h4, h5, h6, h7, h8, h9⟩⟩ := i
  · refine ⟨0, [], t, rfl, rfl, h4, h3, h5, ?_⟩
    rw [startVars, if_pos (by omega), h6, h7]
    rfl
  · refine ⟨k, b, r, h4, h5, h6, h7, h8, ?_⟩
    rw [startVars, if_neg (by omega)]
    exact h9

theorem mixN_snoc {k j : Nat} {h h1 h2 : W12} {b c : List Byte} (hb : b.length = 96 * k)
    (e1 : mixN k h b = some (h1, [])) (e2 : mixN j h1 c = some (h2, [])) :
    mixN (k + j) h (b ++ c) = some (h2, []) := by
  rw [mixN_add, mixN_ext hb e1]
  exact e2

theorem Inv_update {s1 s2 : UInt64} {t : List Byte} {s : State} (i : Inv s1 s2 t s) (m : List Byte) :
    ∃ s', update s m = some s' ∧ Inv s1 s2 (t ++ m) s' := by
  have hd := i.1
  have hl := i.2.1
  by_cases hs : m.length + s.remainder < 192
  · rw [update, if_pos hs, copyInto_some (by omega)]
    refine ⟨_, rfl, ?_⟩
    refine ⟨by simp; omega, by simp; omega, ?_⟩
    have hmod : (m.length + s.remainder) % 256 = m.length + s.remainder := Nat.mod_eq_of_lt (by omega)
    obtain ⟨_, _, ⟨h3, h4, h5, h6, h7⟩ | ⟨h3, k, b, r, h4, h5, h6, h7, h8, h9⟩⟩ := i
    · left
      refine ⟨by simp; omega, by simp only [hmod]; simp; omega, ?_, h6, h7⟩
      dsimp only
      rw [h4, h5, List.take_append_of_le_length (by simp), List.take_of_length_le (by simp)]
    · right
      refine ⟨by simp; omega, k, b, r ++ m, by simp [h4], h5, by simp only [hmod]; simp; omega,
        by simp; omega, ?_, h9⟩
      dsimp only
      rw [h6, h8, List.take_append_of_le_length (by simp), List.take_of_length_le (by simp)]
  · rw [update, if_neg hs]
    obtain ⟨k, b, r, h4, h5, h6, h7, h8, h9⟩ := i.split
    have htl : t.length = b.length + r.length := by rw [h4]; simp
    -- the stash
    have hst : ∃ k' b' h' d', useStash s (startVars s) m = some (h', d', m.drop (b'.length - t.length)) ∧
        b'.length = 96 * k' ∧ d'.length = 192 ∧ t ++ m = b' ++ m.drop (b'.length - t.length) ∧
        t.length ≤ b'.length ∧
        mixN k' (initVars s1 s2) b' = some (h', []) := by
      unfold useStash
      by_cases h0 : s.remainder = 0
      · have hr : r = [] := List.length_eq_zero_iff.mp (by omega)
        subst hr
        rw [if_neg (by simpa using h0)]
        simp only [List.append_nil] at h4
        subst h4
        exact ⟨k, t, startVars s, s.data, by simp, h5, hd, by simp, Nat.le_refl _, h9⟩
      · rw [if_pos h0]
        have hp : (192 - s.remainder) % 256 = 192 - r.length := by
          rw [h6]; exact Nat.mod_eq_of_lt (by omega)
        have htk : (m.take (192 - r.length)).length = 192 - r.length := by simp; omega
        dsimp only
        rw [hp, if_pos (by omega), copyInto_some (by omega)]
        dsimp only
        have hdata : s.data.take s.remainder ++ m.take (192 - r.length) ++
            s.data.drop (s.remainder + (m.take (192 - r.length)).length) =
            r ++ m.take (192 - r.length) := by
          rw [h6, h8, List.drop_of_length_le (by omega), List.append_nil]
        rw [hdata]
        have hdl : (r ++ m.take (192 - r.length)).length = 192 := by
          rw [List.length_append, htk]; omega
        obtain ⟨h2, e2⟩ := mixN_some 2 (startVars s) (r ++ m.take (192 - r.length)) hdl
        have e2' := e2 []
        rw [List.append_nil] at e2'
        obtain ⟨w, hw⟩ := readBlock_some (m := r ++ m.take (192 - r.length)) (by omega)
        obtain ⟨w', hw'⟩ := readBlock_some (m := (r ++ m.take (192 - r.length)).drop 96)
          (by rw [List.length_drop]; omega)
        have hmm : mix w' (mix w (startVars s)) = h2 := by
          simp only [mixN, hw, hw'] at e2'
          simpa using (congrArg (fun x => x.map Prod.fst) e2')
        rw [hw, hw']
        dsimp only
        rw [hmm]
        have hbl : (b ++ (r ++ m.take (192 - r.length))).length - t.length = 192 - r.length := by
          rw [List.length_append, hdl]; omega
        refine ⟨k + 2, b ++ (r ++ m.take (192 - r.length)), h2, r ++ m.take (192 - r.length), ?_, ?_,
          hdl, ?_, ?_, mixN_snoc h5 h9 e2'⟩
        · rw [hbl]
        · rw [List.length_append, hdl]; omega
        · rw [hbl, h4]; simp
        · rw [List.length_append, hdl]; omega
    obtain ⟨k', b', h', d', e, hb', hd', hcat, hle, hmix⟩ := hst
    rw [e]
    dsimp only
    generalize hm' : m.drop (b'.length - t.length) = m' at *
    have hsplit : m' = m'.take (96 * (m'.length / 96)) ++ m'.drop (96 * (m'.length / 96)) :=
      (List.take_append_drop ..).symm
    have hbl : (m'.take (96 * (m'.length / 96))).length = 96 * (m'.length / 96) := by
      rw [List.length_take]; omega
    obtain ⟨h'', eh⟩ := mixN_some (m'.length / 96) h' _ hbl
    have e3 := eh (m'.drop (96 * (m'.length / 96)))
    rw [← hsplit] at e3
    rw [e3]
    dsimp only
    have hrl : (m'.drop (96 * (m'.length / 96))).length < 96 := by rw [List.length_drop]; omega
    rw [Nat.mod_eq_of_lt (b := 256) (by omega), List.take_of_length_le (Nat.le_refl _),
      copyInto_some (by omega)]
    refine ⟨_, rfl, ?_⟩
    refine ⟨by simp; omega, by simp; omega, ?_⟩
    right
    refine ⟨by simp; omega, k' + m'.length / 96, b' ++ m'.take (96 * (m'.length / 96)),
      m'.drop (96 * (m'.length / 96)), ?_, ?_, rfl, by omega, ?_, ?_⟩
    · rw [hcat, List.append_assoc, ← hsplit]
    · rw [List.length_append, hbl]; omega
    · simp
    · have := eh []
      rw [List.append_nil] at this
      exact mixN_snoc hb' hmix this

theorem shortLoop_some (n : Nat) (h : W4) (m : List Byte) (hm : 32 * n ≤ m.length) :
    ∃ h', shortLoop n h m = some (h', m.drop (32 * n)) := by
  induction n generalizing h m with
  | zero => exact ⟨h, rfl⟩
  | succ n ih =>
    obtain ⟨a, b, c, d⟩ := h
    unfold shortLoop
    rw [readLE_some (k := 0) (by omega), readLE_some (k := 8) (by omega),
      readLE_some (k := 16) (by omega), readLE_some (k := 24) (by omega)]
    simp only [Option.bind_eq_bind, Option.bind_some]
    generalize shortMix _ = q
    obtain ⟨a', b', c', d'⟩ := q
    dsimp only
    obtain ⟨h', e⟩ := ih (a' + UInt64.ofNat (le ((m.drop 16).take 8)),
      b' + UInt64.ofNat (le ((m.drop 24).take 8)), c', d') (m.drop 32) (by simp; omega)
    refine ⟨h', ?_⟩
    rw [e, List.drop_drop]
    congr 3
    omega

theorem shortBody_some (m : List Byte) (h : W4) :
    ∃ h' r, shortBody m h = some (h', r, m.length % 16) ∧ r.length = m.length % 16 := by
  unfold shortBody
  by_cases hl : m.length > 15
  · rw [if_pos hl]
    obtain ⟨⟨a, b, c, d⟩, e⟩ := shortLoop_some (m.length / 32) h m (by omega)
    rw [e]
    dsimp only
    have hr : (m.drop (32 * (m.length / 32))).length = m.length % 32 := by simp; omega
    by_cases h16 : m.length % 32 ≥ 16
    · rw [if_pos h16, readLE_some (by omega), readLE_some (by omega)]
      refine ⟨_, _, congrArg some (Prod.ext rfl (Prod.ext rfl ?_)), ?_⟩
      · show m.length % 32 - 16 = m.length % 16
        omega
      · rw [List.length_drop]; omega
    · rw [if_neg h16]
      refine ⟨_, _, congrArg some (Prod.ext rfl (Prod.ext rfl ?_)), ?_⟩
      · show m.length % 32 = m.length % 16
        omega
      · omega
  · rw [if_neg hl]
    refine ⟨h, m, congrArg some (Prod.ext rfl (Prod.ext rfl ?_)), ?_⟩
    · show m.length % 32 = m.length % 16
      omega
    · omega

theorem shl_byte (n k : Nat) (hk : k < 64) : UInt64.ofNat n <<< UInt64.ofNat k = UInt64.ofNat (n * 2 ^ k) := by
  apply UInt64.toNat_inj.mp
  rw [UInt64.toNat_shiftLeft, UInt64.toNat_ofNat', UInt64.toNat_ofNat', UInt64.toNat_ofNat',
    Nat.shiftLeft_eq]
  rw [Nat.mod_eq_of_lt (a := k) (by omega), Nat.mod_eq_of_lt (a := k) (by omega), Nat.mod_mul_mod]

theorem shortTail_eq (r : List Byte) (hr : r.length < 16) :
    shortTail r.length r =
      some (if r.length = 0 then (scConst, scConst) else (padded (r.take 8), padded (r.drop 8))) := by
  have e8 := fun n => shl_byte n 8 (by decide)
  have e16 := fun n => shl_byte n 16 (by decide)
  have e32 := fun n => shl_byte n 32 (by decide)
  have e40 := fun n => shl_byte n 40 (by decide)
  have e48 := fun n => shl_byte n 48 (by decide)
  simp only [UInt64.reduceOfNat] at e8 e16 e32 e40 e48
  have hz : UInt64.ofNat 0 = 0 := rfl
  rcases r with _ | ⟨b0, _ | ⟨b1, _ | ⟨b2, _ | ⟨b3, _ | ⟨b4, _ | ⟨b5, _ | ⟨b6, _ | ⟨b7, _ | ⟨b8, _ | ⟨b9, _ |
    ⟨b10, _ | ⟨b11, _ | ⟨b12, _ | ⟨b13, _ | ⟨b14, _ | ⟨b15, r⟩⟩⟩⟩⟩⟩⟩⟩⟩⟩⟩⟩⟩⟩⟩⟩
  case' cons.cons.cons.cons.cons.cons.cons.cons.cons.cons.cons.cons.cons.cons.cons.cons => exact absurd hr (by simp)
  all_goals
    simp only [shortTail, readLE, padded, le, List.replicate, List.length_cons, List.length_nil,
      Nat.reduceAdd, Nat.reduceLeDiff, if_true, Option.bind_eq_bind, Option.bind_some, List.take_succ_cons,
      List.take_zero, List.drop_succ_cons, List.drop_zero, List.take_nil, List.drop_nil,
      List.cons_append, List.nil_append, Nat.reduceSub, pure, e8, e16, e32, e40, e48, ← UInt64.ofNat_add]
  all_goals
    have z : UInt8.toNat 0 = 0 := rfl
    rw [if_neg (by decide)]
    simp only [z, Nat.mul_zero, Nat.add_zero, hz]
  all_goals
    refine congrArg some (congr (congrArg Prod.mk (congrArg UInt64.ofNat ?_)) ?_)
    · omega
    · first
      | with_reducible rfl
      | apply congrArg UInt64.ofNat; omega

theorem short_some (m : List Byte) (s1 s2 : UInt64) : ∃ r, short m s1 s2 = some r := by
  unfold short
  obtain ⟨⟨a, b, c, d⟩, r, e, hr⟩ := shortBody_some m (s1, s2, scConst, scConst)
  rw [e]
  dsimp only
  rw [← hr, shortTail_eq r (by omega)]
  exact ⟨_, rfl⟩

theorem lastBlock_length (r : List Byte) (h : r.length < 96) : (lastBlock r).length = 96 := by
  simp [lastBlock]; omega

/-- What the one-shot hash does with blocks and a rest that may hold another block. -/
theorem hash128_split {s1 s2 : UInt64} {t b r : List Byte} {k : Nat} {h : W12} (hl : 192 ≤ t.length)
    (ht : t = b ++ r) (hb : b.length = 96 * k) (hm : mixN k (initVars s1 s2) b = some (h, []))
    (hr : r.length < 96) :
    ∃ w, readBlock (lastBlock r) = some w ∧ hash128 t s1 s2 = some ((fin w h).w0, (fin w h).w1) := by
  obtain ⟨w, hw⟩ := readBlock_some (m := lastBlock r) (by rw [lastBlock_length r hr]; omega)
  refine ⟨w, hw, ?_⟩
  have hk : t.length / 96 = k := by
    have : t.length = 96 * k + r.length := by rw [ht, List.length_append, hb]
    omega
  rw [hash128, if_neg (by omega), hk, ht, mixN_ext hb hm]
  dsimp only
  rw [hw]

theorem Inv_final {s1 s2 : UInt64} {t : List Byte} {s : State} (i : Inv s1 s2 t s) :
    ∃ r s', final s = some (r, s') ∧ hash128 t s1 s2 = some r ∧ Inv s1 s2 t s' := by
  obtain ⟨h1, h2, ⟨h3, h4, h5, h6, h7⟩ | ⟨h3, k, b, r, h4, h5, h6, h7, h8, h9⟩⟩ := i
  · obtain ⟨r, hr⟩ := short_some t s1 s2
    refine ⟨r, s, ?_, ?_, h1, h2, .inl ⟨h3, h4, h5, h6, h7⟩⟩
    · rw [final, if_pos (by omega), if_pos (by omega), h2, h5, h6, h7, hr]
    · rw [hash128, if_pos h3, hr]
  · rw [final, if_neg (by omega)]
    by_cases hb : s.remainder ≥ 96
    · have hsp : r = r.take 96 ++ r.drop 96 := (List.take_append_drop ..).symm
      have hrl : (r.drop 96).length = s.remainder - 96 := by rw [List.length_drop]; omega
      have hr96 : (r.take 96).length = 96 := by rw [List.length_take]; omega
      obtain ⟨w, hw⟩ := readBlock_some (m := r.take 96) (by omega)
      have hwd : readBlock s.data = some w := by
        rw [← hw, ← h8, List.take_take, Nat.min_eq_left (by omega), readBlock_take (by omega)]
      have hm : mixN (k + 1) (initVars s1 s2) (b ++ r.take 96) = some (mix w s.state, []) := by
        apply mixN_snoc h5 h9
        simp only [mixN, hw]
        rw [List.drop_of_length_le (by omega)]
      obtain ⟨w', hw', hh⟩ := hash128_split (k := k + 1) (b := b ++ r.take 96) (r := r.drop 96) h3
        (by rw [h4, List.append_assoc, ← hsp]) (by rw [List.length_append]; omega) hm (by omega)
      have hlast : (s.data.drop 96).take (s.remainder - 96) = r.drop 96 := by
        rw [← hrl, List.length_drop]
        exact Eq.trans List.drop_take.symm (congrArg (List.drop 96) h8)
      rw [firstBlock, if_pos hb, hwd]
      dsimp only
      rw [hlast, copyInto_some (by rw [lastBlock_length _ (by omega)]; omega)]
      dsimp only
      have hrd : readBlock ((s.data.take 96 ++ lastBlock (r.drop 96) ++
          s.data.drop (96 + (lastBlock (r.drop 96)).length)).drop 96) = some w' := by
        rw [← hw', List.append_assoc, List.drop_append_of_le_length (by simp; omega),
          List.drop_of_length_le (by simp; omega), List.nil_append,
          readBlock_append (by rw [lastBlock_length _ (by omega)]; omega)]
      rw [hrd]
      refine ⟨_, _, rfl, hh, ?_⟩
      have hll := lastBlock_length (r.drop 96) (by omega)
      refine ⟨by simp; omega, h2, .inr ⟨h3, k, b, r, h4, h5, h6, h7, ?_, h9⟩⟩
      dsimp only
      conv => rhs; rw [hsp]
      rw [show s.data.take 96 = r.take 96 by rw [← h8, List.take_take, Nat.min_eq_left (by omega)],
        List.append_assoc, List.take_append, List.take_of_length_le (by omega)]
      congr 1
      rw [hr96, lastBlock, List.append_assoc, List.append_assoc, ← List.length_drop,
        List.take_left]
    · obtain ⟨w', hw', hh⟩ := hash128_split h3 h4 h5 h9 (by omega)
      have hll := lastBlock_length r (by omega)
      rw [firstBlock, if_neg hb]
      dsimp only
      have h8' : s.data.take s.remainder = r := by rw [h6]; exact h8
      rw [List.drop_zero, h8', copyInto_some (by omega)]
      dsimp only
      have hrd : readBlock ((s.data.take 0 ++ lastBlock r ++
          s.data.drop (0 + (lastBlock r).length)).drop 0) = some w' := by
        rw [← hw', List.take_zero, List.nil_append, List.drop_zero, readBlock_append (by omega)]
      rw [hrd]
      refine ⟨_, _, rfl, hh, ?_⟩
      refine ⟨by simp; omega, h2, .inr ⟨h3, k, b, r, h4, h5, h6, h7, ?_, h9⟩⟩
      dsimp only
      rw [List.take_zero, List.nil_append, lastBlock, List.append_assoc, List.append_assoc,
        List.take_left]

theorem run_eq {s1 s2 : UInt64} (ops : List Op) (t : List Byte) (s : State) (i : Inv s1 s2 t s) :
    run s ops = expected (fun x => hash128 x s1 s2) t ops ∧ (run s ops).isSome := by
  induction ops generalizing t s with
  | nil => exact ⟨rfl, rfl⟩
  | cons op ops ih =>
    cases op with
    | append m =>
      obtain ⟨s', e, i'⟩ := Inv_update i m
      simp only [run, expected, e]
      exact ih _ _ i'
    | get =>
      obtain ⟨r, s', e, eh, i'⟩ := Inv_final i
      obtain ⟨e2, e3⟩ := ih _ _ i'
      obtain ⟨rs, e4⟩ := Option.isSome_iff_exists.mp e3
      simp only [run, expected, e, eh, e4]
      rw [← e2, e4]
      exact ⟨rfl, rfl⟩

end Verif.Spooky
