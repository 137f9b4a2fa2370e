import Verif.Audio.Spec

/-!
# Lemmas on samples and loops
-/

namespace Verif.Audio

theorem s16_range (a : S16) : -32768 ≤ a.toInt ∧ a.toInt ≤ 32767 := by
  have h1 := BitVec.le_toInt a
  have h2 := BitVec.toInt_lt (x := a)
  omega

theorem ofInt16 {x : Int} (h : -32768 ≤ x ∧ x ≤ 32767) : (BitVec.ofInt 16 x).toInt = x := by
  rw [BitVec.toInt_ofInt]
  exact Int.bmod_eq_of_le (by omega) (by omega)

theorem saturatingAdd_toInt (a b : S16) : (saturatingAdd a b).toInt = clamp (a.toInt + b.toInt) := by
  unfold saturatingAdd clamp
  have := s16_range a
  have := s16_range b
  dsimp only
  rw [ofInt16]
  · split
    · omega
    · split <;> omega
  · split
    · omega
    · split <;> omega

theorem scale_some {x l : Int} {y : S16} (h : scale x l = some y) : y.toInt = part l x := by
  unfold scale s32 at h
  split at h
  · cases h
  · rename_i z hz
    split at hz
    · cases hz
      cases h
      unfold part
      rw [ofInt16]
      omega
    · cases hz

theorem scale_ok {x l : Int} (h : -2147483648 ≤ x * l ∧ x * l ≤ 2147483647) : ∃ y, scale x l = some y := by
  unfold scale s32
  rw [if_pos h]
  exact ⟨_, rfl⟩

/-- All loops: the number of the cell decides what is done. -/
def genLoop (g : Nat → S16 → S16 → Option S16) : Nat → Nat → Mem → Nat → Nat → Option Mem
  | _, 0, m, _, _ => some m
  | k, n + 1, m, dst, src =>
    match m[dst]?, m[src]? with
    | some a, some b =>
      match g k a b with
      | none => none
      | some x => genLoop g (k + 1) n (m.set dst x) (dst + 1) (src + 1)
    | _, _ => none

theorem genLoop_succ (g : Nat → S16 → S16 → Option S16) (k n : Nat) (m : Mem) (d s : Nat) :
    genLoop g k (n + 1) m d s = match m[d]?, m[s]? with
    | some a, some b =>
      match g k a b with
      | none => none
      | some x => genLoop g (k + 1) n (m.set d x) (d + 1) (s + 1)
    | _, _ => none := rfl

theorem genLoop_ok (g : Nat → S16 → S16 → Option S16) : ∀ (n k : Nat) (m : Mem) (d s : Nat), Apart m d s n →
    (∀ i < n, ∀ a b, m[d + i]? = some a → m[s + i]? = some b → ∃ c, g (k + i) a b = some c) →
    ∃ m', genLoop g k n m d s = some m' := by
  intro n
  induction n with
  | zero => intro k m d s _ _; exact ⟨m, rfl⟩
  | succ n ih =>
    intro k m d s ap h
    have h1 := ap.dst
    have h2 := ap.src
    have h3 := ap.order
    unfold genLoop
    have e1 : m[d]? = some m[d] := List.getElem?_eq_getElem (by omega)
    have e2 : m[s]? = some m[s] := List.getElem?_eq_getElem (by omega)
    rw [e1, e2]
    dsimp only
    obtain ⟨c, hc⟩ := h 0 (by omega) _ _ e1 e2
    rw [Nat.add_zero] at hc
    rw [hc]
    dsimp only
    refine ih (k + 1) (m.set d c) (d + 1) (s + 1) ⟨by simp; omega, by simp; omega, by omega⟩ ?_
    intro i hi a b ha hb
    have := h (i + 1) (by omega) a b
    rw [show d + (i + 1) = d + 1 + i by omega, show s + (i + 1) = s + 1 + i by omega] at this
    rw [List.getElem?_set_ne (by omega)] at ha
    rw [List.getElem?_set_ne (by omega)] at hb
    rw [show k + 1 + i = k + (i + 1) by omega]
    exact this ha hb

theorem genLoop_spec (g : Nat → S16 → S16 → Option S16) : ∀ (n k : Nat) (m m' : Mem) (d s : Nat),
    (d ≤ s ∨ s + n ≤ d) → genLoop g k n m d s = some m' → m'.length = m.length ∧
    (∀ i < n, ∃ a b c, m[d + i]? = some a ∧ m[s + i]? = some b ∧ g (k + i) a b = some c ∧ m'[d + i]? = some c) ∧
    ∀ j, ¬ (d ≤ j ∧ j < d + n) → m'[j]? = m[j]? := by
  intro n
  induction n with
  | zero =>
    intro k m m' d s _ h
    unfold genLoop at h
    cases h
    exact ⟨rfl, fun i hi => absurd hi (by omega), fun _ _ => rfl⟩
  | succ n ih =>
    intro k m m' d s ap h
    unfold genLoop at h
    split at h
    · rename_i a b ha hb
      split at h
      · cases h
      · rename_i c hc
        obtain ⟨h1, h2, h3⟩ := ih (k + 1) _ m' (d + 1) (s + 1) (by omega) h
        rw [List.length_set] at h1
        have hd : d < m.length := (List.getElem?_eq_some_iff.mp ha).1
        refine ⟨h1, ?_, ?_⟩
        · intro i hi
          cases i with
          | zero =>
            refine ⟨a, b, c, ha, hb, hc, ?_⟩
            rw [Nat.add_zero, h3 d (by omega), List.getElem?_set_self hd]
          | succ i =>
            obtain ⟨a', b', c', q1, q2, q3, q4⟩ := h2 i (by omega)
            rw [List.getElem?_set_ne (by omega)] at q1
            rw [List.getElem?_set_ne (by omega)] at q2
            refine ⟨a', b', c', ?_, ?_, ?_, ?_⟩
            · rw [show d + (i + 1) = d + 1 + i by omega]; exact q1
            · rw [show s + (i + 1) = s + 1 + i by omega]; exact q2
            · rw [show k + (i + 1) = k + 1 + i by omega]; exact q3
            · rw [show d + (i + 1) = d + 1 + i by omega]; exact q4
        · intro j hj
          rw [h3 j (by omega), List.getElem?_set_ne (by omega)]
    · cases h

theorem genLoop_append (g : Nat → S16 → S16 → Option S16) : ∀ (n1 n2 k : Nat) (m : Mem) (d s : Nat),
    genLoop g k (n1 + n2) m d s = (genLoop g k n1 m d s).bind (fun m => genLoop g (k + n1) n2 m (d + n1) (s + n1)) := by
  intro n1
  induction n1 with
  | zero => intro n2 k m d s; rw [Nat.zero_add]; rfl
  | succ n ih =>
    intro n2 k m d s
    rw [show n + 1 + n2 = (n + n2) + 1 by omega]
    rw [genLoop_succ, genLoop_succ]
    cases m[d]? with
    | none => rfl
    | some a =>
      cases m[s]? with
      | none => rfl
      | some b =>
        dsimp only
        cases g k a b with
        | none => rfl
        | some c =>
          dsimp only
          rw [ih, show k + 1 + n = k + (n + 1) by omega, show d + 1 + n = d + (n + 1) by omega,
            show s + 1 + n = s + (n + 1) by omega]

theorem mixLoop_gen : ∀ (n k : Nat) (m : Mem) (d s : Nat),
    mixLoop n m d s = genLoop (fun _ a b => some (saturatingAdd a b)) k n m d s := by
  intro n
  induction n with
  | zero => intro k m d s; rfl
  | succ n ih =>
    intro k m d s
    rw [genLoop_succ]
    unfold mixLoop
    cases m[d]? with
    | none => rfl
    | some a =>
      cases m[s]? with
      | none => rfl
      | some b => exact ih (k + 1) _ _ _

theorem leveled_gen (l : Int) : ∀ (n k : Nat) (m : Mem) (d s : Nat),
    mixLeveledLoop l n m d s = genLoop (fun _ a b => (scale b.toInt l).map (saturatingAdd a)) k n m d s := by
  intro n
  induction n with
  | zero => intro k m d s; rfl
  | succ n ih =>
    intro k m d s
    rw [genLoop_succ]
    unfold mixLeveledLoop
    cases m[d]? with
    | none => rfl
    | some a =>
      cases m[s]? with
      | none => rfl
      | some b =>
        dsimp only
        cases scale b.toInt l with
        | none => rfl
        | some x => exact ih (k + 1) _ _ _

/-- The level at a stereo sample. -/
def levelAt (level step : BitVec 32) (k : Nat) : BitVec 32 := level + BitVec.ofNat 32 k * step

theorem levelAt_succ (level step : BitVec 32) (k : Nat) : levelAt (level + step) step k = levelAt level step (k + 1) := by
  unfold levelAt
  rw [BitVec.ofNat_add, BitVec.add_mul, BitVec.one_mul]
  ac_rfl

theorem dyn_gen (step : BitVec 32) : ∀ (n k : Nat) (level : BitVec 32) (m : Mem) (d s : Nat),
    mixDynLoop step n (levelAt level step k) m d s =
      genLoop (fun i a b => some (saturatingAdd a (dynScale b (levelAt level step (i / 2))))) (2 * k) (2 * n) m d s := by
  intro n
  induction n with
  | zero => intro k level m d s; rfl
  | succ n ih =>
    intro k level m d s
    rw [show 2 * (n + 1) = 2 * n + 1 + 1 by omega]
    rw [genLoop_succ]
    unfold mixDynLoop
    cases m[d]? with
    | none => rfl
    | some a =>
      cases m[s]? with
      | none => rfl
      | some b =>
        dsimp only
        rw [genLoop_succ, show 2 * k / 2 = k by omega, show (2 * k + 1) / 2 = k by omega]
        generalize m.set d _ = m2
        cases m2[d + 1]? with
        | none => rfl
        | some a =>
          cases m2[s + 1]? with
          | none => rfl
          | some b =>
            dsimp only
            have := ih (k + 1) level
            rw [show 2 * (k + 1) = 2 * k + 1 + 1 by omega] at this
            rw [← this]
            congr 1
            unfold levelAt
            rw [BitVec.ofNat_add, BitVec.add_mul, BitVec.one_mul]
            ac_rfl

theorem dynScale_toInt (x : S16) (l : BitVec 32) :
    (dynScale x l).toInt = (x.toInt * (l.toNat / 16384 : Nat) / 65536).bmod 65536 := by
  unfold dynScale
  rw [BitVec.toInt_eq_toNat_bmod]
  rw [BitVec.truncate_eq_setWidth, BitVec.toNat_setWidth, BitVec.toNat_ushiftRight, Nat.shiftRight_eq_div_pow, BitVec.toNat_mul,
    BitVec.toNat_ushiftRight, Nat.shiftRight_eq_div_pow]
  have h1 : (x.signExtend 32).toNat = (x.toInt % 4294967296).toNat := by
    have : (x.signExtend 32).toInt = x.toInt := BitVec.toInt_signExtend_of_le (by decide)
    have q := BitVec.toInt_eq_toNat_bmod (x.signExtend 32)
    rw [this] at q
    have hx := s16_range x
    have hlt := (x.signExtend 32).isLt
    rw [Int.bmod_def] at q
    split at q <;> omega
  rw [h1]
  have hx := s16_range x
  generalize l.toNat / 2 ^ 14 = q
  generalize hy : x.toInt = y at *
  have e : (((y % 4294967296).toNat * q % 4294967296 : Nat) : Int) = (y * q) % 4294967296 := by
    rw [Int.natCast_emod, Int.natCast_mul, Int.toNat_of_nonneg (by omega)]
    show y % 4294967296 * (q : Int) % 4294967296 = _
    rw [Int.mul_emod, Int.emod_emod_of_dvd _ (Int.dvd_refl _), ← Int.mul_emod]
  rw [show 2 ^ 32 = 4294967296 from rfl, show 2 ^ 16 = 65536 from rfl]
  generalize (y % 4294967296).toNat * q % 4294967296 = z at e
  rw [← Int.emod_bmod (y * q / 65536)]
  congr 1
  omega

end Verif.Audio
