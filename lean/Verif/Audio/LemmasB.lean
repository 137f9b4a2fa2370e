import Verif.Audio.Lemmas
import Mathlib.Tactic.Linarith
import Mathlib.Tactic.Ring

/-!
# Lemmas on changing the pitch
-/

namespace Verif.Audio

theorem mul_range {x v : Int} (h1 : -32768 ≤ x) (h2 : x ≤ 32767) (h3 : -65535 ≤ v) (h4 : v ≤ 65536) :
    -2147483648 ≤ x * v ∧ x * v ≤ 2147483647 := by
  rcases Int.le_total 0 v with h | h
  · constructor <;> nlinarith
  · constructor <;> nlinarith

theorem lerp_range {a b f lo hi : Int} (h0 : 0 ≤ f) (h1 : f ≤ 65536) (ha : lo ≤ a ∧ a ≤ hi) (hb : lo ≤ b ∧ b ≤ hi) :
    lo * 65536 ≤ a * (65536 - f) + b * f ∧ a * (65536 - f) + b * f ≤ hi * 65536 := by
  constructor <;> nlinarith

theorem between_some {a b : S16} {sf x : Int} (h : between a b sf = some x) : x = lerp a.toInt b.toInt sf := by
  unfold between s32 at h
  split at h
  · cases h
  · rename_i g hg
    split at hg
    · cases hg
      split at h
      · rename_i x' y' hx hy
        split at hx
        · split at hy
          · cases hx
            cases hy
            split at h
            · cases h
              rfl
            · cases h
          · cases hy
        · cases hx
      · cases h
    · cases hg

theorem between_ok (a b : S16) {sf : Int} (h0 : 0 ≤ sf) (h1 : sf < 65536) :
    between a b sf = some (lerp a.toInt b.toInt sf) := by
  have ha := s16_range a
  have hb := s16_range b
  have r := lerp_range h0 (by omega) ha hb
  have r1 : -2147483648 ≤ a.toInt * (65536 - sf) ∧ a.toInt * (65536 - sf) ≤ 2147483647 := by
    constructor <;> nlinarith
  have r2 : -2147483648 ≤ b.toInt * sf ∧ b.toInt * sf ≤ 2147483647 := by
    constructor <;> nlinarith
  have r3 : -2147483648 ≤ a.toInt * (65536 - sf) + b.toInt * sf ∧
      a.toInt * (65536 - sf) + b.toInt * sf ≤ 2147483647 := by omega
  have r0 : -2147483648 ≤ 65536 - sf ∧ 65536 - sf ≤ 2147483647 := by omega
  unfold between s32
  rw [if_pos r0]
  dsimp only
  rw [if_pos r1, if_pos r2]
  dsimp only
  rw [if_pos r3]
  rfl

theorem pitchChannel_some {d a b c : S16} {sf v : Int} (h : pitchChannel d a b sf v = some c) :
    c.toInt = clamp (d.toInt + part v (lerp a.toInt b.toInt sf)) := by
  unfold pitchChannel at h
  split at h
  · cases h
  · rename_i x hx
    rw [between_some hx] at h
    cases hs : scale (lerp a.toInt b.toInt sf) v with
    | none => rw [hs] at h; cases h
    | some y =>
      rw [hs] at h
      cases h
      rw [saturatingAdd_toInt, scale_some hs]

theorem lerp_between {a b f lo hi : Int} (h0 : 0 ≤ f) (h1 : f ≤ 65536) (ha : lo ≤ a ∧ a ≤ hi) (hb : lo ≤ b ∧ b ≤ hi) :
    lo ≤ lerp a b f ∧ lerp a b f ≤ hi := by
  have := lerp_range h0 h1 ha hb
  unfold lerp
  generalize a * (65536 - f) + b * f = z at *
  omega

theorem pitchChannel_ok (d a b : S16) {sf v : Int} (h0 : 0 ≤ sf) (h1 : sf < 65536) (h3 : -65535 ≤ v) (h4 : v ≤ 65536) :
    ∃ c, pitchChannel d a b sf v = some c := by
  unfold pitchChannel
  rw [between_ok a b h0 h1]
  have := lerp_between h0 (by omega) (s16_range a) (s16_range b)
  obtain ⟨y, hy⟩ := scale_ok (mul_range this.1 this.2 h3 h4)
  dsimp only
  rw [hy]
  exact ⟨_, rfl⟩

theorem frameAt_nat (src : List Frame) (i : Nat) : frameAt src i = src[i]? := by
  unfold frameAt
  rw [if_neg (by omega), Int.toNat_natCast]

theorem add32 {sf : Nat} {step : BitVec 32} (h : sf + step.toNat < 2147483648) :
    (BitVec.ofInt 32 (sf : Int) + step).toInt = ((sf + step.toNat : Nat) : Int) := by
  have e : (BitVec.ofInt 32 (sf : Int) + step).toNat = sf + step.toNat := by
    rw [BitVec.toNat_add, BitVec.toNat_ofInt]
    have : ((sf : Int) % ((2 ^ 32 : Nat) : Int)).toNat = sf % 2 ^ 32 := by
      rw [← Int.natCast_emod, Int.toNat_natCast]
    rw [this]
    omega
  rw [BitVec.toInt_eq_toNat_of_lt (by rw [e]; omega), e]

theorem sub32 {sf : Nat} {step : BitVec 32} (h1 : sf < 65536) (h : step.toNat + 65536 ≤ 2147483648) :
    (BitVec.ofInt 32 (sf : Int) - step).toInt = (sf : Int) - step.toNat := by
  rw [BitVec.toInt_sub, BitVec.toInt_ofInt]
  have e1 : ((sf : Int)).bmod (2 ^ 32) = sf := Int.bmod_eq_of_le (by omega) (by omega)
  have e2 : step.toInt = step.toNat := BitVec.toInt_eq_toNat_of_lt (by omega)
  rw [e1, e2]
  exact Int.bmod_eq_of_le (by omega) (by omega)

theorem and16 (x : Nat) (h : x < 2147483648) :
    (BitVec.ofInt 32 (x : Int) &&& 65535#32).toInt = ((x % 65536 : Nat) : Int) := by
  have e : (BitVec.ofInt 32 (x : Int) &&& 65535#32).toNat = x % 65536 := by
    rw [BitVec.toNat_and, BitVec.toNat_ofInt]
    have : ((x : Int) % ((2 ^ 32 : Nat) : Int)).toNat = x % 2 ^ 32 := by
      rw [← Int.natCast_emod, Int.toNat_natCast]
    rw [this, Nat.mod_eq_of_lt (by omega), show (65535#32).toNat = 2 ^ 16 - 1 from rfl, Nat.and_two_pow_sub_one_eq_mod]
  rw [BitVec.toInt_eq_toNat_of_lt (by rw [e]; omega), e]

theorem value_left {src : List Frame} {pos : Nat} {a b : Frame} (ha : src[pos / 65536]? = some a)
    (hb : src[pos / 65536 + 1]? = some b) : valueAt (src.map (fun f => f.left.toInt)) pos =
      lerp a.left.toInt b.left.toInt (pos % 65536 : Nat) := by
  unfold valueAt
  rw [List.getD_eq_getElem?_getD, List.getD_eq_getElem?_getD, List.getElem?_map, List.getElem?_map, ha, hb]
  rfl

theorem value_right {src : List Frame} {pos : Nat} {a b : Frame} (ha : src[pos / 65536]? = some a)
    (hb : src[pos / 65536 + 1]? = some b) : valueAt (src.map (fun f => f.right.toInt)) pos =
      lerp a.right.toInt b.right.toInt (pos % 65536 : Nat) := by
  unfold valueAt
  rw [List.getD_eq_getElem?_getD, List.getD_eq_getElem?_getD, List.getElem?_map, List.getElem?_map, ha, hb]
  rfl

/-- One step of the loop. -/
theorem pitchLoop_step (src : List Frame) (step : BitVec 32) (v : Int) (hs : step.toNat + 65536 ≤ 2147483648) (d : Frame)
    (ds : List Frame) (pos : Nat) :
    pitchLoop src step v (d :: ds) (pos / 65536 : Nat) (pos % 65536 : Nat) =
      match src[pos / 65536]?, src[pos / 65536 + 1]? with
      | some a, some b =>
        match pitchChannel d.left a.left b.left (pos % 65536 : Nat) v,
          pitchChannel d.right a.right b.right (pos % 65536 : Nat) v with
        | some l, some r =>
          (pitchLoop src step v ds ((pos + step.toNat) / 65536 : Nat) ((pos + step.toNat) % 65536 : Nat)).map
            (fun (fs, i, sf) => (⟨l, r⟩ :: fs, i, sf))
        | _, _ => none
      | _, _ => none := by
  have e1 := add32 (sf := pos % 65536) (step := step) (by omega)
  have e2 := and16 (pos % 65536 + step.toNat) (by omega)
  conv => lhs; unfold pitchLoop
  dsimp only
  rw [e1]
  rw [show (65535 : BitVec 32) = 65535#32 from rfl, e2]
  rw [show (((pos / 65536 : Nat) : Int) + ((pos % 65536 + step.toNat : Nat) : Int) / 65536) =
    ((pos + step.toNat) / 65536 : Nat) by omega]
  rw [show (pos % 65536 + step.toNat) % 65536 = (pos + step.toNat) % 65536 by omega]
  rw [show (((pos / 65536 : Nat) : Int) + 1) = ((pos / 65536 + 1 : Nat) : Int) by omega, frameAt_nat, frameAt_nat]
  split
  · rfl
  · rename_i hlt
    have : src[pos / 65536 + 1]? = none := List.getElem?_eq_none (by omega)
    rw [this]
    cases src[pos / 65536]? <;> rfl

/-- What the loop has computed when it comes to its end. -/
theorem pitchLoop_spec (src : List Frame) (step : BitVec 32) (v : Int) (hs : step.toNat + 65536 ≤ 2147483648) :
    ∀ (ds : List Frame) (pos : Nat) (fs : List Frame) (i sf : Int),
    pitchLoop src step v ds (pos / 65536 : Nat) (pos % 65536 : Nat) = some (fs, i, sf) →
    i = ((pos + ds.length * step.toNat) / 65536 : Nat) ∧ sf = ((pos + ds.length * step.toNat) % 65536 : Nat) ∧
    fs.length = ds.length ∧ ∀ (k : Nat) d, ds[k]? = some d → (pos + k * step.toNat) / 65536 + 1 < src.length ∧
      ∃ e, fs[k]? = some e ∧
        e.left.toInt = clamp (d.left.toInt + part v (valueAt (src.map (fun f => f.left.toInt)) (pos + k * step.toNat))) ∧
        e.right.toInt = clamp (d.right.toInt + part v (valueAt (src.map (fun f => f.right.toInt)) (pos + k * step.toNat))) := by
  intro ds
  induction ds with
  | nil =>
    intro pos fs i sf h
    unfold pitchLoop at h
    cases h
    exact ⟨by simp, by simp, rfl, fun k d hk => by simp at hk⟩
  | cons d ds ih =>
    intro pos fs i sf h
    rw [pitchLoop_step src step v hs] at h
    split at h
    · rename_i a b ha hb
      split at h
      · rename_i l r hl hr
        cases hq : pitchLoop src step v ds ((pos + step.toNat) / 65536 : Nat) ((pos + step.toNat) % 65536 : Nat) with
        | none => rw [hq] at h; cases h
        | some q =>
          obtain ⟨fs', i', sf'⟩ := q
          rw [hq] at h
          cases h
          obtain ⟨h1, h2, h3, h4⟩ := ih (pos + step.toNat) fs' i sf hq
          have e : pos + (d :: ds).length * step.toNat = pos + step.toNat + ds.length * step.toNat := by
            rw [List.length_cons]; ring
          refine ⟨by rw [e]; exact h1, by rw [e]; exact h2, by simp [h3], ?_⟩
          intro k d' hk
          cases k with
          | zero =>
            cases hk
            have hlt := (List.getElem?_eq_some_iff.mp hb).1
            refine ⟨by simpa using hlt, ⟨l, r⟩, rfl, ?_, ?_⟩
            · rw [Nat.zero_mul, Nat.add_zero, value_left ha hb]
              exact pitchChannel_some hl
            · rw [Nat.zero_mul, Nat.add_zero, value_right ha hb]
              exact pitchChannel_some hr
          | succ k =>
            have := h4 k d' hk
            rw [show pos + (k + 1) * step.toNat = pos + step.toNat + k * step.toNat by ring]
            exact this
      · cases h
    · cases h

/-- The loop comes to its end if there are enough samples. -/
theorem pitchLoop_ok (src : List Frame) (step : BitVec 32) {v : Int} (hs : step.toNat + 65536 ≤ 2147483648)
    (h3 : -65535 ≤ v) (h4 : v ≤ 65536) : ∀ (ds : List Frame) (pos : Nat),
    (∀ k < ds.length, (pos + k * step.toNat) / 65536 + 1 < src.length) →
    ∃ q, pitchLoop src step v ds (pos / 65536 : Nat) (pos % 65536 : Nat) = some q := by
  intro ds
  induction ds with
  | nil => intro pos _; exact ⟨_, rfl⟩
  | cons d ds ih =>
    intro pos h
    rw [pitchLoop_step src step v hs]
    have h0 : pos / 65536 + 1 < src.length := by simpa using h 0 (by simp)
    rw [List.getElem?_eq_getElem (show pos / 65536 < src.length by omega), List.getElem?_eq_getElem h0]
    dsimp only
    obtain ⟨l, hl⟩ := pitchChannel_ok d.left (src[pos / 65536]).left (src[pos / 65536 + 1]).left
      (sf := (pos % 65536 : Nat)) (by omega) (by omega) h3 h4
    obtain ⟨r, hr⟩ := pitchChannel_ok d.right (src[pos / 65536]).right (src[pos / 65536 + 1]).right
      (sf := (pos % 65536 : Nat)) (by omega) (by omega) h3 h4
    rw [hl, hr]
    obtain ⟨q, hq⟩ := ih (pos + step.toNat) (fun k hk => by
      have := h (k + 1) (by simpa using hk)
      rw [show pos + (k + 1) * step.toNat = pos + step.toNat + k * step.toNat by ring] at this
      exact this)
    dsimp only
    rw [hq]
    exact ⟨_, rfl⟩

theorem valueAt_drop (xs : List Int) (q pos : Nat) : valueAt (xs.drop q) pos = valueAt xs (pos + q * 65536) := by
  unfold valueAt
  simp only [List.getD_eq_getElem?_getD, List.getElem?_drop]
  rw [show q + pos / 65536 = (pos + q * 65536) / 65536 by omega,
    show q + (pos / 65536 + 1) = (pos + q * 65536) / 65536 + 1 by omega,
    show (pos + q * 65536) % 65536 = pos % 65536 by omega]

end Verif.Audio
