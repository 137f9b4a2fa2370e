import Verif.Audio.LemmasB

/-!
# Theorems on mixing
-/

namespace Verif.Audio

/-! ## Adding -/

/-- Samples are added and limited to their range. -/
theorem C81_saturating (a b : S16) : (saturatingAdd a b).toInt = clamp (a.toInt + b.toInt) := saturatingAdd_toInt a b

/-- The version for Windows gives the same. -/
theorem C81_platforms (a b : S16) : saturatingAddWin a b = saturatingAdd a b := by
  have e : saturatingAddWin a b = adds16 a b := by
    unfold saturatingAddWin
    dsimp only
    rw [BitVec.extractLsb'_append_eq_right]
    have low : ∀ x : S16, (x.signExtend 32).extractLsb' 0 16 = x := by
      intro x
      apply BitVec.eq_of_getLsbD_eq
      intro i hi
      rw [BitVec.getLsbD_extractLsb', BitVec.getLsbD_signExtend]
      simp [hi]
      omega
    rw [low, low]
  rw [e]
  apply BitVec.eq_of_toInt_eq
  rw [saturatingAdd_toInt]
  unfold adds16 clamp
  have := s16_range a
  have := s16_range b
  split
  · rw [show (0x7FFF : BitVec 16).toInt = 32767 by decide]; omega
  · split
    · rw [show (0x8000 : BitVec 16).toInt = -32768 by decide]; omega
    · rw [BitVec.toInt_add, Int.bmod_eq_of_le (by omega) (by omega)]
      omega

example : (saturatingAdd 30000 10000).toInt = 32767 ∧ (saturatingAdd (-30000) (-10000)).toInt = -32768 ∧
    (saturatingAdd 30000 (-10000)).toInt = 20000 := by decide

/-! ## Formats and regions -/

/-- `encode` gives the size of a multichannel sample, without overflow; formats are equal exactly if all their parts are. -/
theorem C81_format (n : BitVec 8) : (∃ f, Format.encode n 0 = some f ∧ f.numChannels = n ∧ f.stride.toNat = 2 * n.toNat) ∧
    (∃ f, Format.encode n 1 = some f ∧ f.numChannels = n ∧ f.stride.toNat = 4 * n.toNat) ∧
    (∀ t, 2 ≤ t.toNat → Format.encode n t = none) ∧ (∀ f g : Format, f.eq g = true ↔ f = g) := by
  have hn := n.isLt
  have st : ∀ c : Nat, c ≤ 4 → (BitVec.ofNat 16 c * n.zeroExtend 16).toNat = c * n.toNat := by
    intro c hc
    rw [BitVec.toNat_mul, BitVec.toNat_ofNat, show n.zeroExtend 16 = n.setWidth 16 from rfl, BitVec.toNat_setWidth,
      Nat.mod_eq_of_lt (show c < 2 ^ 16 by omega), Nat.mod_eq_of_lt (show n.toNat < 2 ^ 16 by omega)]
    apply Nat.mod_eq_of_lt
    calc c * n.toNat ≤ 4 * n.toNat := Nat.mul_le_mul_right _ hc
      _ < 2 ^ 16 := by omega
  refine ⟨⟨_, rfl, rfl, st 2 (by decide)⟩, ⟨_, rfl, rfl, st 4 (by decide)⟩, ?_, ?_⟩
  · intro t ht
    unfold Format.encode
    rw [List.getElem?_eq_none (by unfold sampleTypeToStride; simpa using ht)]
  · intro f g
    unfold Format.eq Format.bits
    rw [decide_eq_true_iff]
    constructor
    · intro h
      obtain ⟨a, b, c⟩ := f
      obtain ⟨a', b', c'⟩ := g
      dsimp only at h
      have k1 : c = c' := by
        apply BitVec.eq_of_getLsbD_eq
        intro i hi
        have := congrArg (fun x => BitVec.getLsbD x (16 + i)) h
        simp only [BitVec.getLsbD_append] at this
        rw [if_neg (by omega), if_neg (by omega)] at this
        simpa using this
      have k2 : b = b' := by
        apply BitVec.eq_of_getLsbD_eq
        intro i hi
        have := congrArg (fun x => BitVec.getLsbD x (8 + i)) h
        simp only [BitVec.getLsbD_append] at this
        have l1 : 8 + i < 8 + 8 := by omega
        have l2 : ¬ 8 + i < 8 := by omega
        simp only [l1, l2, if_true, if_false, Nat.add_sub_cancel_left] at this
        exact this
      have k3 : a = a' := by
        apply BitVec.eq_of_getLsbD_eq
        intro i hi
        have := congrArg (fun x => BitVec.getLsbD x i) h
        simp only [BitVec.getLsbD_append] at this
        have l1 : i < 8 + 8 := by omega
        simp only [l1, hi, if_true] at this
        exact this
      rw [k1, k2, k3]
    · rintro rfl; rfl

example : Format.encode 2 0 = some .stereoS16 := by decide

theorem Sound.bytes {b : Buffer} (h : Sound b) : b.getSizeBytes.toNat = b.numSamples.toNat * b.format.stride.toNat := by
  unfold Buffer.getSizeBytes
  rw [BitVec.toNat_mul, show b.format.stride.zeroExtend 32 = b.format.stride.setWidth 32 from rfl, BitVec.toNat_setWidth,
    Nat.mod_eq_of_lt (show b.format.stride.toNat < 2 ^ 32 by have := b.format.stride.isLt; omega)]
  exact Nat.mod_eq_of_lt h.size

theorem Sound.cells {b : Buffer} (h : Sound b) : b.cells = b.count := by
  unfold Buffer.cells Buffer.count
  rw [h.bytes, h.stride, show b.numSamples.toNat * (2 * b.format.numChannels.toNat) =
    2 * (b.numSamples.toNat * b.format.numChannels.toNat) by ring]
  omega

/-- A region begins at the multichannel sample that is asked for and has the length that is asked for (or reaches to the
end), lies in the buffer, and is refused exactly if it does not. -/
theorem C81_subregion {b : Buffer} (h : Sound b) (hc : 0 < b.format.numChannels.toNat) (offset length : BitVec 32) :
    (∀ r, b.getSubregion offset length = some r → Sound r ∧ r.format = b.format ∧ r.sampleRate = b.sampleRate ∧
      r.samples = b.samples + offset.toNat * b.format.numChannels.toNat ∧
      r.numSamples.toNat = (if length.toInt < 0 then b.numSamples.toNat - offset.toNat else length.toNat) ∧
      offset.toNat + r.numSamples.toNat ≤ b.numSamples.toNat) ∧
    (b.getSubregion offset length = none ↔ b.numSamples.toNat < offset.toNat ∨
      (0 ≤ length.toInt ∧ b.numSamples.toNat < offset.toNat + length.toNat)) := by
  have hs := h.size
  have hst := h.stride
  have hbig : b.numSamples.toNat < 2 ^ 31 := by
    have : b.numSamples.toNat * 2 ≤ b.numSamples.toNat * b.format.stride.toNat := Nat.mul_le_mul_left _ (by omega)
    omega
  have hl := length.isLt
  have e1 : ∀ o : BitVec 32, o.toNat ≤ b.numSamples.toNat →
      (o * b.format.stride.zeroExtend 32).toNat / 2 = o.toNat * b.format.numChannels.toNat := by
    intro o ho
    rw [BitVec.toNat_mul, show b.format.stride.zeroExtend 32 = b.format.stride.setWidth 32 from rfl, BitVec.toNat_setWidth,
      Nat.mod_eq_of_lt (show b.format.stride.toNat < 2 ^ 32 by have := b.format.stride.isLt; omega)]
    have : o.toNat * b.format.stride.toNat ≤ b.numSamples.toNat * b.format.stride.toNat := Nat.mul_le_mul_right _ ho
    rw [Nat.mod_eq_of_lt (by omega), hst, show o.toNat * (2 * b.format.numChannels.toNat) =
      2 * (o.toNat * b.format.numChannels.toNat) by ring]
    omega
  have sound : ∀ (s : Nat) (n : BitVec 32), n.toNat ≤ b.numSamples.toNat →
      Sound { b with samples := s, numSamples := n } := by
    intro s n hn
    refine ⟨h.type, h.stride, ?_⟩
    dsimp only
    have : n.toNat * b.format.stride.toNat ≤ b.numSamples.toNat * b.format.stride.toNat := Nat.mul_le_mul_right _ hn
    omega
  have lneg : 0 ≤ length.toInt → length.toNat < 2 ^ 31 := by
    intro h0
    have := BitVec.toInt_eq_toNat_cond length
    split at this <;> omega
  have esum : 0 ≤ length.toInt → offset.toNat ≤ b.numSamples.toNat →
      (offset + length).toNat = offset.toNat + length.toNat := by
    intro h0 ho
    have := lneg h0
    rw [BitVec.toNat_add, Nat.mod_eq_of_lt (by omega)]
  constructor
  · intro r hr
    unfold Buffer.getSubregion at hr
    split at hr
    · rename_i ho
      dsimp only at hr
      split at hr
      · rename_i hneg
        cases hr
        have hsub : (b.numSamples - offset).toNat = b.numSamples.toNat - offset.toNat :=
          BitVec.toNat_sub_of_le (BitVec.le_def.mpr ho)
        refine ⟨sound _ _ (by omega), rfl, rfl, by dsimp only; rw [e1 _ ho], ?_, ?_⟩
        · rw [if_pos hneg]; exact hsub
        · dsimp only; omega
      · rename_i hneg
        split at hr
        · rename_i hle
          cases hr
          rw [esum (by omega) ho] at hle
          refine ⟨sound _ _ (by omega), rfl, rfl, by dsimp only; rw [e1 _ ho], ?_, ?_⟩
          · rw [if_neg hneg]
          · dsimp only; omega
        · cases hr
    · cases hr
  · unfold Buffer.getSubregion
    split
    · rename_i ho
      dsimp only
      split
      · simp only [reduceCtorEq, false_iff]; omega
      · rename_i hneg
        rw [esum (by omega) ho]
        split
        · simp only [reduceCtorEq, false_iff]; omega
        · simp only [true_iff]; omega
    · simp only [true_iff]; omega

example : Buffer.getSubregion ⟨100, 50, 44100, .stereoS16⟩ 10 20 = some ⟨120, 20, 44100, .stereoS16⟩ ∧
    Buffer.getSubregion ⟨100, 50, 44100, .stereoS16⟩ 10 (-1) = some ⟨120, 40, 44100, .stereoS16⟩ ∧
    Buffer.getSubregion ⟨100, 50, 44100, .stereoS16⟩ 40 20 = none := by decide

/-- Clearing a buffer clears exactly its cells. -/
theorem C81_zero {b : Buffer} (h : Sound b) {m : Mem} (hm : b.samples + b.count ≤ m.length) :
    ∃ m', b.zero m = some m' ∧ ∀ j, m'[j]? = if b.samples ≤ j ∧ j < b.samples + b.count then some 0 else m[j]? := by
  have e : b.getSizeBytes.toNat / 2 = b.count := by
    have := h.cells
    unfold Buffer.cells at this
    have h2 := h.bytes
    rw [h.stride, show b.numSamples.toNat * (2 * b.format.numChannels.toNat) =
      2 * (b.numSamples.toNat * b.format.numChannels.toNat) by ring] at h2
    omega
  unfold Buffer.zero
  dsimp only
  rw [e, if_pos hm]
  refine ⟨_, rfl, fun j => ?_⟩
  rw [List.append_assoc, List.getElem?_append, List.length_take, Nat.min_eq_left (by omega)]
  split
  · rw [if_neg (by omega), List.getElem?_take_of_lt (by omega)]
  · rw [List.getElem?_append, List.length_replicate]
    split
    · rw [if_pos (by omega), List.getElem?_replicate_of_lt (by omega)]
    · rw [if_neg (by omega), List.getElem?_drop]
      congr 1
      omega

/-- With 2^30 stereo samples the size is zero in 32 bits: nothing is mixed. -/
theorem C81_size_wraps : ∃ b : Buffer, b.numSamples.toNat = 2 ^ 30 ∧ b.format = .stereoS16 ∧ b.cells = 0 ∧
    ∀ m, mix m b b = some m :=
  ⟨⟨0, 1073741824, 44100, .stereoS16⟩, by decide, rfl, by decide, fun m => by
    unfold mix
    rw [if_pos (by decide), show Buffer.cells ⟨0, 1073741824, 44100, .stereoS16⟩ = 0 by decide]
    rfl⟩

/-! ## Mixing -/

theorem matching_iff {a b : Buffer} : matching a b = true ↔ a.numSamples = b.numSamples ∧ a.sampleRate = b.sampleRate ∧
    a.format = b.format ∧ a.format.sampleType = 0 := by
  unfold matching
  simp only [Bool.and_eq_true, decide_eq_true_eq, (C81_format 0).2.2.2]
  tauto

/-- `mix` adds the source to the destination, limited to the range of samples, and changes nothing else; the regions may
overlap if the source does not begin before the destination. -/
theorem C81_mix {m : Mem} {dst src : Buffer} (h : Sound dst) (hm : matching dst src = true)
    (ap : Apart m dst.samples src.samples dst.count) :
    ∃ m', mix m dst src = some m' ∧ Mixed m m' dst.samples src.samples dst.count (fun _ x => x) := by
  unfold mix
  rw [if_pos hm, h.cells, mixLoop_gen _ 0]
  obtain ⟨m', hm'⟩ := genLoop_ok (fun _ a b => some (saturatingAdd a b)) dst.count 0 m _ _ ap
    (fun i _ a b _ _ => ⟨_, rfl⟩)
  obtain ⟨h1, h2, h3⟩ := genLoop_spec _ _ _ _ _ _ _ ap.order hm'
  refine ⟨m', hm', h1, fun i hi => ?_, h3⟩
  obtain ⟨a, b, c, q1, q2, q3, q4⟩ := h2 i hi
  cases q3
  exact ⟨a, b, _, q1, q2, q4, saturatingAdd_toInt a b⟩

/-- If the destination begins inside the source, what has been mixed is mixed again. -/
theorem C81_overlap : mix [1, 10, 100] ⟨1, 2, 1, .monoS16⟩ ⟨0, 2, 1, .monoS16⟩ = some [1, 11, 111] := by decide

example : mix [1, 30000, 100, 5, 30000, -7] ⟨0, 3, 1, .monoS16⟩ ⟨3, 3, 1, .monoS16⟩ = some [6, 32767, 93, 5, 30000, -7] := by
  decide
example : Sound ⟨0, 3, 1, .monoS16⟩ ∧ Apart [1, 30000, 100, 5, 30000, -7] 0 3 3 :=
  ⟨⟨rfl, by decide, by decide⟩, ⟨by decide, by decide, by decide⟩⟩

/-- `mixLeveled` adds the part of the source that the level says, rounded down; it never wraps around, at no level. -/
theorem C81_leveled {m m' : Mem} {dst src : Buffer} {level : BitVec 32} (h : Sound dst)
    (ap : Apart m dst.samples src.samples dst.count) (e : mixLeveled m dst src level = some m') :
    Mixed m m' dst.samples src.samples dst.count (fun _ => part level.toInt) := by
  unfold mixLeveled at e
  split at e
  · rw [h.cells, leveled_gen _ _ 0] at e
    obtain ⟨h1, h2, h3⟩ := genLoop_spec _ _ _ _ _ _ _ ap.order e
    refine ⟨h1, fun i hi => ?_, h3⟩
    obtain ⟨a, b, c, q1, q2, q3, q4⟩ := h2 i hi
    refine ⟨a, b, c, q1, q2, q4, ?_⟩
    cases hs : scale b.toInt level.toInt with
    | none => rw [hs] at q3; cases q3
    | some y =>
      rw [hs] at q3
      cases q3
      rw [saturatingAdd_toInt, scale_some hs]
  · cases e

/-- It is defined for all samples exactly at levels from -65535 to 65536 (full volume); for louder ones it overflows at
some sample. -/
theorem C81_leveled_range (level : Int) : (∀ x : S16, ∃ y, scale x.toInt level = some y) ↔ -65535 ≤ level ∧ level ≤ 65536 := by
  constructor
  · intro h
    have get : ∀ x : S16, -2147483648 ≤ x.toInt * level ∧ x.toInt * level ≤ 2147483647 := by
      intro x
      obtain ⟨y, hy⟩ := h x
      unfold scale s32 at hy
      split at hy
      · cases hy
      · rename_i z hz
        split at hz
        · rename_i hc; exact hc
        · cases hz
    have := get (-32768)
    rw [show ((-32768 : S16)).toInt = -32768 by decide] at this
    omega
  · rintro ⟨h1, h2⟩ x
    have := s16_range x
    exact scale_ok (mul_range this.1 this.2 h1 h2)

theorem C81_leveled_defined {m : Mem} {dst src : Buffer} {level : BitVec 32} (h : Sound dst) (hm : matching dst src = true)
    (ap : Apart m dst.samples src.samples dst.count) (h1 : -65535 ≤ level.toInt) (h2 : level.toInt ≤ 65536) :
    ∃ m', mixLeveled m dst src level = some m' := by
  unfold mixLeveled
  rw [if_pos hm, h.cells, leveled_gen _ _ 0]
  refine genLoop_ok _ _ _ _ _ _ ap (fun i _ a b _ _ => ?_)
  obtain ⟨y, hy⟩ := (C81_leveled_range _).mpr ⟨h1, h2⟩ b
  rw [hy]
  exact ⟨_, rfl⟩

-- half the volume; -7 / 2 is rounded down
example : mixLeveled [1, 30000, 100, 5, 30000, -7] ⟨0, 3, 1, .monoS16⟩ ⟨3, 3, 1, .monoS16⟩ 32768 =
    some [3, 32767, 96, 5, 30000, -7] := by decide

/-- What `mixDynLevel` does at any level: the level runs modulo 2^32, the scaled sample modulo 2^16. -/
theorem C81_dyn_any {m m' : Mem} {dst src : Buffer} {level step : BitVec 32} (h : Sound dst)
    (ap : Apart m dst.samples src.samples dst.count) (e : mixDynLevel m dst src level step = some m') :
    Mixed m m' dst.samples src.samples dst.count (fun i x =>
      (part ((level + BitVec.ofNat 32 (i / 2) * step).toNat / 16384 : Nat) x).bmod 65536) := by
  unfold mixDynLevel at e
  split at e
  · rename_i hm
    simp only [Bool.and_eq_true, (C81_format 0).2.2.2] at hm
    have hf := hm.2
    have e4 : 2 * (dst.getSizeBytes.toNat / 4) = dst.count := by
      rw [h.bytes]
      unfold Buffer.count
      rw [hf]
      show 2 * (dst.numSamples.toNat * 4 / 4) = dst.numSamples.toNat * 2
      omega
    have g := dyn_gen step (dst.getSizeBytes.toNat / 4) 0 level m dst.samples src.samples
    rw [show levelAt level step 0 = level by unfold levelAt; simp, e4] at g
    rw [g] at e
    obtain ⟨h1, h2, h3⟩ := genLoop_spec _ _ _ _ _ _ _ ap.order e
    refine ⟨h1, fun i hi => ?_, h3⟩
    obtain ⟨a, b, c, q1, q2, q3, q4⟩ := h2 i hi
    refine ⟨a, b, c, q1, q2, q4, ?_⟩
    cases q3
    rw [saturatingAdd_toInt, dynScale_toInt, Nat.mul_zero, Nat.zero_add]
    rfl
  · cases e

/-- `mixDynLevel` scales each stereo sample with its level, which runs straight from `level30` in steps, if the levels
stay between 0 and 2^30 (full volume). -/
theorem C81_dyn {m m' : Mem} {dst src : Buffer} {level step : BitVec 32} (h : Sound dst)
    (ap : Apart m dst.samples src.samples dst.count) (e : mixDynLevel m dst src level step = some m')
    (hl : ∀ k < dst.numSamples.toNat, 0 ≤ (level.toNat : Int) + k * step.toInt ∧ (level.toNat : Int) + k * step.toInt ≤ 2 ^ 30) :
    Mixed m m' dst.samples src.samples dst.count (fun i =>
      part (((level.toNat : Int) + (i / 2 : Nat) * step.toInt) / 16384)) := by
  have hfmt : dst.format = .stereoS16 := by
    unfold mixDynLevel at e
    split at e
    · rename_i hm
      simp only [Bool.and_eq_true, (C81_format 0).2.2.2] at hm
      exact hm.2
    · cases e
  obtain ⟨h1, h2, h3⟩ := C81_dyn_any h ap e
  refine ⟨h1, fun i hi => ?_, h3⟩
  obtain ⟨a, b, c, q1, q2, q3, q4⟩ := h2 i hi
  refine ⟨a, b, c, q1, q2, q3, ?_⟩
  rw [q4]
  congr 2
  have hk : i / 2 < dst.numSamples.toNat := by
    unfold Buffer.count at hi
    rw [hfmt] at hi
    have : i < dst.numSamples.toNat * 2 := hi
    omega
  obtain ⟨r1, r2⟩ := hl (i / 2) hk
  have elev : ((level + BitVec.ofNat 32 (i / 2) * step).toNat : Int) = (level.toNat : Int) + (i / 2 : Nat) * step.toInt := by
    have hmod : ((level + BitVec.ofNat 32 (i / 2) * step).toNat : Int) =
        ((level.toNat : Int) + (i / 2 : Nat) * step.toInt) % 4294967296 := by
      rw [BitVec.toNat_add, BitVec.toNat_mul, BitVec.toNat_ofNat, show 2 ^ 32 = 4294967296 from rfl]
      have es : (step.toInt) % 4294967296 = (step.toNat : Int) % 4294967296 := by
        have := BitVec.toInt_eq_toNat_cond step
        split at this <;> omega
      have em : (((i / 2 : Nat) : Int) * step.toInt) % 4294967296 = (((i / 2 : Nat) : Int) * step.toNat) % 4294967296 := by
        rw [Int.mul_emod, es, ← Int.mul_emod]
      rw [Int.natCast_emod, Int.natCast_add, Int.natCast_emod, Int.natCast_mul, Int.natCast_emod]
      rw [Int.add_emod (level.toNat : Int) (((i / 2 : Nat) : Int) * step.toInt), em]
      show ((level.toNat : Int) + ((i / 2 : Nat) : Int) % 4294967296 * step.toNat % 4294967296) % 4294967296 = _
      rw [Int.mul_emod (((i / 2 : Nat) : Int) % 4294967296), Int.emod_emod_of_dvd _ (Int.dvd_refl _), ← Int.mul_emod]
      rw [Int.add_emod, Int.emod_emod_of_dvd _ (Int.dvd_refl _)]
    rw [hmod]
    omega
  have hb := s16_range b
  have e2 : (((level + BitVec.ofNat 32 (i / 2) * step).toNat / 16384 : Nat) : Int) =
      ((level.toNat : Int) + (i / 2 : Nat) * step.toInt) / 16384 := by
    rw [← elev]; rfl
  rw [e2]
  have hl0 : 0 ≤ ((level.toNat : Int) + (i / 2 : Nat) * step.toInt) / 16384 := by omega
  have hl1 : ((level.toNat : Int) + (i / 2 : Nat) * step.toInt) / 16384 ≤ 65536 := by omega
  generalize ((level.toNat : Int) + (i / 2 : Nat) * step.toInt) / 16384 = l at hl0 hl1
  have := mul_range hb.1 hb.2 (by omega) hl1
  unfold part
  exact Int.bmod_eq_of_le (by omega) (by omega)

theorem C81_dyn_defined {m : Mem} {dst src : Buffer} (level step : BitVec 32) (h : Sound dst) (hm : matching dst src = true)
    (hf : dst.format = .stereoS16) (ap : Apart m dst.samples src.samples dst.count) :
    ∃ m', mixDynLevel m dst src level step = some m' := by
  obtain ⟨m1, m2, m3, m4⟩ := matching_iff.mp hm
  unfold mixDynLevel
  rw [if_pos (by simp only [Bool.and_eq_true, decide_eq_true_eq, (C81_format 0).2.2.2]; exact ⟨⟨⟨m1, m2⟩, m3⟩, hf⟩)]
  have e4 : 2 * (dst.getSizeBytes.toNat / 4) = dst.count := by
    rw [h.bytes]
    unfold Buffer.count
    rw [hf]
    show 2 * (dst.numSamples.toNat * 4 / 4) = dst.numSamples.toNat * 2
    omega
  have g := dyn_gen step (dst.getSizeBytes.toNat / 4) 0 level m dst.samples src.samples
  rw [show levelAt level step 0 = level by unfold levelAt; simp, e4] at g
  rw [g]
  exact genLoop_ok _ _ _ _ _ _ ap (fun i _ a b _ _ => ⟨_, rfl⟩)

-- two stereo samples, from full volume to half
example : mixDynLevel [0, 0, 0, 0, 100, -100, 101, -101] ⟨0, 2, 1, .stereoS16⟩ ⟨4, 2, 1, .stereoS16⟩ 1073741824 (-536870912) =
    some [100, -100, 50, -51, 100, -100, 101, -101] := by decide

/-- At twice the volume a loud sample is not limited but turns into noise: 32767 becomes -2. -/
theorem C81_dyn_wraps : mixDynLevel [0, 0, 32767, 20000] ⟨0, 1, 1, .stereoS16⟩ ⟨2, 1, 1, .stereoS16⟩ 2147483648 0 =
    some [-2, -25536, 32767, 20000] := by decide

/-- Mixing in blocks gives the same as mixing at once. -/
theorem C81_blocks (n1 n2 : Nat) (m : Mem) (d s : Nat) (l : Int) (level step : BitVec 32) :
    mixLoop (n1 + n2) m d s = (mixLoop n1 m d s).bind (fun m => mixLoop n2 m (d + n1) (s + n1)) ∧
    mixLeveledLoop l (n1 + n2) m d s = (mixLeveledLoop l n1 m d s).bind (fun m => mixLeveledLoop l n2 m (d + n1) (s + n1)) ∧
    mixDynLoop step (n1 + n2) level m d s = (mixDynLoop step n1 level m d s).bind (fun m =>
      mixDynLoop step n2 (level + BitVec.ofNat 32 n1 * step) m (d + 2 * n1) (s + 2 * n1)) := by
  refine ⟨?_, ?_, ?_⟩
  · rw [mixLoop_gen _ 0, genLoop_append, ← mixLoop_gen]
    simp only [mixLoop_gen _ (0 + n1)]
  · rw [leveled_gen _ _ 0, genLoop_append, ← leveled_gen]
    simp only [leveled_gen _ _ (0 + n1)]
  · have g0 := dyn_gen step (n1 + n2) 0 level m d s
    have g1 := dyn_gen step n1 0 level m d s
    have e0 : levelAt level step 0 = level := by unfold levelAt; simp
    rw [e0] at g0 g1
    rw [g0, g1, show 2 * (n1 + n2) = 2 * n1 + 2 * n2 by omega, genLoop_append]
    congr 1
    funext m'
    have := dyn_gen step n2 n1 level m' (d + 2 * n1) (s + 2 * n1)
    rw [show 2 * 0 + 2 * n1 = 2 * n1 by omega, ← this]
    rfl

/-- Mixing the first `k` multichannel samples of two buffers and then the rest is mixing the buffers. -/
theorem C81_mix_regions {dst src d1 s1 d2 s2 : Buffer} (hd : Sound dst) (hs : Sound src)
    (hc : 0 < dst.format.numChannels.toNat) (hm : matching dst src = true) {k : BitVec 32} (hk : 0 ≤ k.toInt)
    (e1 : dst.getSubregion 0 k = some d1) (e2 : src.getSubregion 0 k = some s1)
    (e3 : dst.getSubregion k (-1) = some d2) (e4 : src.getSubregion k (-1) = some s2) (m : Mem) (level : BitVec 32) :
    mix m dst src = (mix m d1 s1).bind (fun m => mix m d2 s2) ∧
    mixLeveled m dst src level = (mixLeveled m d1 s1 level).bind (fun m => mixLeveled m d2 s2 level) := by
  obtain ⟨m1, m2, m3, m4⟩ := matching_iff.mp hm
  obtain ⟨p1, p2, p3, p4, p5, p6⟩ := (C81_subregion hd hc 0 k).1 d1 e1
  obtain ⟨q1, q2, q3, q4, q5, q6⟩ := (C81_subregion hd hc k (-1)).1 d2 e3
  obtain ⟨r1, r2, r3, r4, r5, r6⟩ := (C81_subregion hs (by rw [← m3]; exact hc) 0 k).1 s1 e2
  obtain ⟨t1, t2, t3, t4, t5, t6⟩ := (C81_subregion hs (by rw [← m3]; exact hc) k (-1)).1 s2 e4
  rw [if_neg (by omega)] at p5 r5
  rw [if_pos (by decide)] at q5 t5
  have z : (0 : BitVec 32).toNat = 0 := rfl
  rw [z, Nat.zero_mul, Nat.add_zero] at p4 r4
  have n1 : d1.numSamples = s1.numSamples := by
    apply BitVec.eq_of_toNat_eq; rw [p5, r5]
  have n2 : d2.numSamples = s2.numSamples := by
    apply BitVec.eq_of_toNat_eq; rw [q5, t5, m1]
  have g1 : matching d1 s1 = true := matching_iff.mpr ⟨n1, by rw [p3, r3]; exact m2, by rw [p2, r2]; exact m3, by rw [p2]; exact m4⟩
  have g2 : matching d2 s2 = true := matching_iff.mpr ⟨n2, by rw [q3, t3]; exact m2, by rw [q2, t2]; exact m3, by rw [q2]; exact m4⟩
  have c1 : d1.count = k.toNat * dst.format.numChannels.toNat := by unfold Buffer.count; rw [p5, p2]
  have c2 : dst.count = d1.count + d2.count := by
    rw [c1]
    unfold Buffer.count
    rw [q5, q2, ← Nat.add_mul]
    congr 1
    omega
  have a1 : d2.samples = dst.samples + d1.count := by rw [q4, c1]
  have a2 : s2.samples = src.samples + d1.count := by rw [t4, c1, ← m3]
  constructor
  · unfold mix
    rw [if_pos hm, if_pos g1, hd.cells, p1.cells, c2, (C81_blocks _ _ _ _ _ 0 0 0).1, p4, r4]
    simp only [if_pos g2, q1.cells, a1, a2]
  · unfold mixLeveled
    rw [if_pos hm, if_pos g1, hd.cells, p1.cells, c2, (C81_blocks _ _ _ _ _ _ 0 0).2.1, p4, r4]
    simp only [if_pos g2, q1.cells, a1, a2]

/-! ## Changing the pitch -/

/-- Between two samples nothing is louder than they are. -/
theorem C81_no_overshoot {a b f : Int} (h0 : 0 ≤ f) (h1 : f ≤ 65536) :
    min a b ≤ lerp a b f ∧ lerp a b f ≤ max a b :=
  lerp_between h0 h1 ⟨by omega, by omega⟩ ⟨by omega, by omega⟩

/-- The value between two samples is exact but for rounding down, and the samples themselves at the ends. -/
theorem C81_lerp (a b f : Int) : lerp a b 0 = a ∧ lerp a b 65536 = b ∧ lerp a b f * 65536 ≤ a * (65536 - f) + b * f ∧
    a * (65536 - f) + b * f < (lerp a b f + 1) * 65536 := by
  unfold lerp
  refine ⟨by omega, by omega, ?_, ?_⟩ <;> generalize a * (65536 - f) + b * f = z <;> omega

example : lerp 10 20 16384 = 12 ∧ lerp (-10) (-20) 16384 = -13 := by decide

/-- The source is read at positions that advance by `srcStep` of 65536 parts for each sample, starting at `sf16`; what is
between two of its samples is scaled with the volume and added. -/
theorem C81_pitched {dst src fs : List Frame} {sf step volume : BitVec 32} (hsf : sf.toNat < 65536)
    (hs : step.toNat + 65536 ≤ 2 ^ 31) (e : mixPitchedDirect dst src sf step volume = some fs) :
    fs.length = dst.length ∧ ∀ (k : Nat) d, dst[k]? = some d → (sf.toNat + k * step.toNat) / 65536 + 1 < src.length ∧
      ∃ e, fs[k]? = some e ∧
        e.left.toInt = clamp (d.left.toInt +
          part volume.toInt (valueAt (src.map (fun f => f.left.toInt)) (sf.toNat + k * step.toNat))) ∧
        e.right.toInt = clamp (d.right.toInt +
          part volume.toInt (valueAt (src.map (fun f => f.right.toInt)) (sf.toNat + k * step.toNat))) := by
  have e0 : sf.toInt = ((sf.toNat % 65536 : Nat) : Int) := by
    rw [BitVec.toInt_eq_toNat_of_lt (by omega), Nat.mod_eq_of_lt hsf]
  have e1 : (0 : Int) = ((sf.toNat / 65536 : Nat) : Int) := by omega
  unfold mixPitchedDirect at e
  rw [e0, e1] at e
  split at e
  · cases e
  · rename_i fs' i sf' hq
    split at e
    · cases e
      obtain ⟨_, _, h3, h4⟩ := pitchLoop_spec src step volume.toInt (by omega) dst sf.toNat _ _ _ hq
      exact ⟨h3, h4⟩
    · cases e

/-- It succeeds exactly if the last position lies between two samples of the source (volumes up to the full one). -/
theorem C81_pitched_defined {dst src : List Frame} {sf step volume : BitVec 32} (hd : dst ≠ []) (hsf : sf.toNat < 65536)
    (hs : step.toNat + 65536 ≤ 2 ^ 31) (h3 : -65535 ≤ volume.toInt) (h4 : volume.toInt ≤ 65536) :
    (∃ fs, mixPitchedDirect dst src sf step volume = some fs) ↔
      (sf.toNat + (dst.length - 1) * step.toNat) / 65536 + 1 < src.length := by
  have hlen : 0 < dst.length := List.length_pos_iff.mpr hd
  constructor
  · rintro ⟨fs, e⟩
    obtain ⟨_, h⟩ := C81_pitched hsf hs e
    exact (h (dst.length - 1) _ (List.getElem?_eq_getElem (by omega))).1
  · intro h
    have e0 : sf.toInt = ((sf.toNat % 65536 : Nat) : Int) := by
      rw [BitVec.toInt_eq_toNat_of_lt (by omega), Nat.mod_eq_of_lt hsf]
    have e1 : (0 : Int) = ((sf.toNat / 65536 : Nat) : Int) := by omega
    obtain ⟨⟨fs, i, sf'⟩, hq⟩ := pitchLoop_ok src step (v := volume.toInt) (by omega) h3 h4 dst sf.toNat (by
      intro k hk
      have : k * step.toNat ≤ (dst.length - 1) * step.toNat := Nat.mul_le_mul_right _ (by omega)
      have := Nat.div_le_div_right (c := 65536) (show sf.toNat + k * step.toNat ≤ sf.toNat + (dst.length - 1) * step.toNat by omega)
      omega)
    obtain ⟨q1, q2, q3, _⟩ := pitchLoop_spec src step volume.toInt (by omega) dst sf.toNat _ _ _ hq
    refine ⟨fs, ?_⟩
    unfold mixPitchedDirect
    rw [e0, e1, hq]
    dsimp only
    rw [if_pos]
    have em : dst.length * step.toNat = (dst.length - 1) * step.toNat + step.toNat := by
      obtain ⟨n, hn⟩ : ∃ n, dst.length = n + 1 := ⟨dst.length - 1, by omega⟩
      rw [hn, Nat.add_sub_cancel]; ring
    have hst : (step >>> 16).toNat = step.toNat / 65536 := by
      rw [BitVec.toNat_ushiftRight, Nat.shiftRight_eq_div_pow]
    rw [q1, q2, sub32 (by omega) (by omega), hst, em]
    generalize (dst.length - 1) * step.toNat = z at *
    omega

-- at half the speed and three quarters of the volume
example : mixPitchedDirect [⟨0, 0⟩, ⟨0, 0⟩, ⟨1000, 32767⟩] [⟨100, 200⟩, ⟨200, 100⟩, ⟨400, 400⟩] 0 32768 49152 =
    some [⟨75, 150⟩, ⟨112, 112⟩, ⟨1150, 32767⟩] := by decide

/-- Changing the pitch in blocks gives the same as at once, if the next block starts where the last one ended. -/
theorem C81_pitched_blocks {d1 d2 src fs : List Frame} {sf step volume : BitVec 32} (hd1 : d1 ≠ []) (hd2 : d2 ≠ [])
    (hsf : sf.toNat < 65536) (hs : step.toNat + 65536 ≤ 2 ^ 31) (h3 : -65535 ≤ volume.toInt) (h4 : volume.toInt ≤ 65536)
    (e : mixPitchedDirect (d1 ++ d2) src sf step volume = some fs) : ∃ f1 f2, fs = f1 ++ f2 ∧
      mixPitchedDirect d1 src sf step volume = some f1 ∧
      mixPitchedDirect d2 (src.drop ((sf.toNat + d1.length * step.toNat) / 65536))
        (BitVec.ofNat 32 ((sf.toNat + d1.length * step.toNat) % 65536)) step volume = some f2 := by
  have l1 : 0 < d1.length := List.length_pos_iff.mpr hd1
  have l2 : 0 < d2.length := List.length_pos_iff.mpr hd2
  have hlast := (C81_pitched_defined (by simp [hd1]) hsf hs h3 h4).mp ⟨fs, e⟩
  rw [List.length_append] at hlast
  have esf : (BitVec.ofNat 32 ((sf.toNat + d1.length * step.toNat) % 65536)).toNat =
      (sf.toNat + d1.length * step.toNat) % 65536 := by
    rw [BitVec.toNat_ofNat, Nat.mod_eq_of_lt (by omega)]
  have em : (d1.length + d2.length - 1) * step.toNat = d1.length * step.toNat + (d2.length - 1) * step.toNat := by
    rw [show d1.length + d2.length - 1 = d1.length + (d2.length - 1) by omega]; ring
  obtain ⟨f1, hf1⟩ := (C81_pitched_defined (src := src) (volume := volume) hd1 hsf hs h3 h4).mpr (by
    have : (d1.length - 1) * step.toNat ≤ (d1.length + d2.length - 1) * step.toNat := Nat.mul_le_mul_right _ (by omega)
    have := Nat.div_le_div_right (c := 65536)
      (show sf.toNat + (d1.length - 1) * step.toNat ≤ sf.toNat + (d1.length + d2.length - 1) * step.toNat by omega)
    omega)
  obtain ⟨f2, hf2⟩ := (C81_pitched_defined (src := src.drop ((sf.toNat + d1.length * step.toNat) / 65536))
    (sf := BitVec.ofNat 32 ((sf.toNat + d1.length * step.toNat) % 65536)) (volume := volume) hd2
    (by rw [esf]; omega) hs h3 h4).mpr (by
      rw [esf, List.length_drop]
      rw [em] at hlast
      generalize (d2.length - 1) * step.toNat = z at *
      generalize d1.length * step.toNat = y at *
      omega)
  refine ⟨f1, f2, ?_, hf1, hf2⟩
  obtain ⟨a1, a2⟩ := C81_pitched hsf hs e
  obtain ⟨b1, b2⟩ := C81_pitched hsf hs hf1
  obtain ⟨c1, c2⟩ := C81_pitched (by rw [esf]; omega) hs hf2
  have ext : ∀ x y : Frame, x.left.toInt = y.left.toInt → x.right.toInt = y.right.toInt → x = y := by
    rintro ⟨_, _⟩ ⟨_, _⟩ q1 q2
    have h1 := BitVec.eq_of_toInt_eq q1
    have h2 := BitVec.eq_of_toInt_eq q2
    dsimp only at h1 h2
    rw [h1, h2]
  apply List.ext_getElem?
  intro k
  rw [List.getElem?_append]
  rw [List.length_append] at a1
  split
  · rename_i hk
    rw [b1] at hk
    obtain ⟨_, x, x1, x2, x3⟩ := a2 k d1[k] (by rw [List.getElem?_append_left hk, List.getElem?_eq_getElem hk])
    obtain ⟨_, y, y1, y2, y3⟩ := b2 k d1[k] (List.getElem?_eq_getElem hk)
    rw [x1, y1, ext x y (by rw [x2, y2]) (by rw [x3, y3])]
  · rename_i hk
    rw [b1] at hk ⊢
    by_cases hk2 : k < d1.length + d2.length
    · have hlt : k - d1.length < d2.length := by omega
      obtain ⟨_, x, x1, x2, x3⟩ := a2 k d2[k - d1.length] (by
        rw [List.getElem?_append_right (by omega), List.getElem?_eq_getElem hlt])
      obtain ⟨_, y, y1, y2, y3⟩ := c2 (k - d1.length) d2[k - d1.length] (List.getElem?_eq_getElem hlt)
      rw [x1, y1]
      have ek : k * step.toNat = d1.length * step.toNat + (k - d1.length) * step.toNat := by
        conv => lhs; rw [show k = d1.length + (k - d1.length) by omega]
        ring
      rw [List.map_drop, valueAt_drop, esf, show (sf.toNat + d1.length * step.toNat) % 65536 + (k - d1.length) * step.toNat +
        (sf.toNat + d1.length * step.toNat) / 65536 * 65536 = sf.toNat + k * step.toNat by omega] at y2 y3
      rw [ext x y (by rw [x2, y2]) (by rw [x3, y3])]
    · rw [List.getElem?_eq_none (by omega), List.getElem?_eq_none (by omega)]

/-- A step of 2^31 (a speed of 32768) goes backwards, out of the source; a fraction of 65536 or more reads the wrong
samples; and mixing nothing from an empty source fails an assertion. -/
theorem C81_pitched_wrong :
    mixPitchedDirect [⟨0, 0⟩, ⟨0, 0⟩] (List.replicate 10 ⟨1, 1⟩) 0 2147483648 65536 = none ∧
    pitchLoop (List.replicate 10 ⟨1, 1⟩) 2147483648 65536 [⟨0, 0⟩] 0 0 = some ([⟨1, 1⟩], -32768, 0) ∧
    mixPitchedDirect [⟨0, 0⟩] [⟨0, 0⟩, ⟨100, 100⟩, ⟨100, 100⟩, ⟨100, 100⟩] 131072 0 65536 = some [⟨200, 200⟩] ∧
    mixPitchedDirect [] [] 0 0 65536 = none := by decide

end Verif.Audio
