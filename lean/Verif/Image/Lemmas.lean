import Verif.Image.Spec
/-!
# Images in memory — lemmas
-/
namespace Verif.Image

/-! ## Effects on memory -/

/-- Addresses in `E` have got values that `R` allows, and others are unchanged. -/
def Eff (E : Int → Prop) (R : Int → Option Byte → Prop) (m m' : Mem) : Prop :=
  (∀ b, E b → R b (m' b)) ∧ ∀ b, ¬ E b → m' b = m b

/-- What holds between the steps: outside `O` nothing has changed since `m0`, and all memory is still there. -/
def Inv (O : Int → Prop) (m0 m : Mem) : Prop :=
  (∀ b, ¬ O b → m b = m0 b) ∧ ∀ b, m0 b ≠ none → m b ≠ none

theorem Eff.inv {E O : Int → Prop} {R : Int → Option Byte → Prop} {m0 m m' : Mem}
    (h : Eff E R m m') (hs : ∀ b, E b → O b) (hr : ∀ b o, R b o → o ≠ none) (hi : Inv O m0 m) :
    Inv O m0 m' := by
  refine ⟨fun b hb => ?_, fun b hb => ?_⟩
  · rw [h.2 b (fun he => hb (hs b he)), hi.1 b hb]
  · by_cases he : E b
    · exact hr b _ (h.1 b he)
    · rw [h.2 b he]; exact hi.2 b hb

theorem Eff.comp {E E' : Int → Prop} {R : Int → Option Byte → Prop} {m m1 m' : Mem}
    (h : Eff E R m m1) (h' : Eff E' R m1 m') : Eff (fun b => E b ∨ E' b) R m m' := by
  refine ⟨fun b hb => ?_, fun b hb => ?_⟩
  · by_cases he : E' b
    · exact h'.1 b he
    · rw [h'.2 b he]; exact h.1 b (hb.resolve_right he)
  · rw [h'.2 b (fun he => hb (.inr he)), h.2 b (fun he => hb (.inl he))]

theorem Eff.congr {E E' : Int → Prop} {R : Int → Option Byte → Prop} {m m' : Mem}
    (h : Eff E R m m') (he : ∀ b, E b ↔ E' b) : Eff E' R m m' :=
  ⟨fun b hb => h.1 b ((he b).2 hb), fun b hb => h.2 b (fun x => hb ((he b).1 x))⟩

theorem Eff.none {E : Int → Prop} {R : Int → Option Byte → Prop} {m : Mem} (h : ∀ b, ¬ E b) : Eff E R m m :=
  ⟨fun b hb => absurd hb (h b), fun _ _ => rfl⟩

theorem forRows_eff {O : Int → Prop} {R : Int → Option Byte → Prop} {m0 : Mem} {f : Int → Mem → Option Mem}
    {E : Int → Int → Prop} (hr : ∀ b o, R b o → o ≠ none) :
    ∀ (n : Nat) (lo : Int) (m : Mem), Inv O m0 m →
      (∀ y, lo ≤ y → y < lo + n → ∀ b, E y b → O b) →
      (∀ y, lo ≤ y → y < lo + n → ∀ m, Inv O m0 m → ∃ m', f y m = some m' ∧ Eff (E y) R m m') →
      ∃ m', forRows f n lo m = some m' ∧ Eff (fun b => ∃ y, lo ≤ y ∧ y < lo + n ∧ E y b) R m m' := by
  intro n
  induction n with
  | zero =>
    intro lo m _ _ _
    exact ⟨m, rfl, Eff.none (fun b ⟨y, h1, h2, _⟩ => by omega)⟩
  | succ n ih =>
    intro lo m hi hs hf
    obtain ⟨m1, h1, e1⟩ := hf lo (by omega) (by omega) m hi
    have hi1 := e1.inv (hs lo (by omega) (by omega)) hr hi
    obtain ⟨m', h2, e2⟩ := ih (lo + 1) m1 hi1 (fun y ha hb => hs y (by omega) (by omega))
      (fun y ha hb => hf y (by omega) (by omega))
    refine ⟨m', ?_, (e1.comp e2).congr (fun b => ?_)⟩
    · rw [forRows, h1]; exact h2
    · constructor
      · rintro (h | ⟨y, ha, hb, h⟩)
        · exact ⟨lo, by omega, by omega, h⟩
        · exact ⟨y, by omega, by omega, h⟩
      · rintro ⟨y, ha, hb, h⟩
        by_cases hy : y = lo
        · subst hy; exact .inl h
        · exact .inr ⟨y, by omega, by omega, h⟩

theorem store_eff {R : Int → Option Byte → Prop} :
    ∀ (l : List Byte) (a : Int) (m : Mem), (∀ i : Nat, i < l.length → m (a + i) ≠ none) →
      (∀ i : Nat, i < l.length → R (a + i) l[i]?) →
      ∃ m', store m a l = some m' ∧ Eff (fun b => a ≤ b ∧ b < a + l.length) R m m' := by
  intro l
  induction l with
  | nil =>
    intro a m _ _
    exact ⟨m, rfl, Eff.none (fun b hb => by simp at hb; omega)⟩
  | cons x l ih =>
    intro a m hm hr
    have h0 := hm 0 (by simp)
    cases hv : m a with
    | none => exact absurd hv (by simpa using h0)
    | some v =>
      have hs : store1 m a x = some (fun j => if j = a then some x else m j) := by simp only [store1, hv]
      obtain ⟨m', h1, e1⟩ := ih (a + 1) (fun j => if j = a then some x else m j)
        (fun i hi => by
          have := hm (i + 1) (by simp; omega)
          rw [if_neg (by omega)]
          have e : a + 1 + (i : Int) = a + ((i + 1 : Nat) : Int) := by omega
          rw [e]; exact this)
        (fun i hi => by
          have := hr (i + 1) (by simp; omega)
          have e : a + 1 + (i : Int) = a + ((i + 1 : Nat) : Int) := by omega
          rw [e]; simpa using this)
      refine ⟨m', by rw [store, hs]; exact h1, fun b hb => ?_, fun b hb => ?_⟩
      · by_cases hc : b = a
        · have := e1.2 b (by omega)
          rw [this]
          dsimp only
          rw [if_pos hc, hc]
          have := hr 0 (by simp)
          simpa using this
        · exact e1.1 b (by simp only [List.length_cons] at hb; omega)
      · simp only [List.length_cons] at hb
        rw [e1.2 b (by omega)]
        dsimp only
        rw [if_neg (by omega)]

theorem load_some {m : Mem} : ∀ (n : Nat) (a : Int), (∀ i : Nat, i < n → m (a + i) ≠ none) →
    ∃ l, load m a n = some l ∧ l.length = n ∧ ∀ i : Nat, i < n → l[i]? = m (a + i) := by
  intro n
  induction n with
  | zero => intro a _; exact ⟨[], rfl, rfl, fun i hi => by omega⟩
  | succ n ih =>
    intro a h
    have h0 := h 0 (by omega)
    obtain ⟨l, h1, h2, h3⟩ := ih (a + 1) (fun i hi => by
      have := h (i + 1) (by omega)
      have e : a + 1 + (i : Int) = a + ((i + 1 : Nat) : Int) := by omega
      rw [e]; exact this)
    cases hv : m a with
    | none => exact absurd hv (by simpa using h0)
    | some v =>
      refine ⟨v :: l, by rw [load, hv, h1]; rfl, by simp [h2], fun i hi => ?_⟩
      cases i with
      | zero => simp [hv]
      | succ i =>
        have := h3 i (by omega)
        have e : a + 1 + (i : Int) = a + ((i + 1 : Nat) : Int) := by omega
        rw [← e]; simpa using this

theorem memcpy_eff {R : Int → Option Byte → Prop} {m : Mem} {d s : Int} {n : Nat}
    (ha : n = 0 ∨ d + n ≤ s ∨ s + n ≤ d)
    (hd : ∀ i : Nat, i < n → m (d + i) ≠ none) (hs : ∀ i : Nat, i < n → m (s + i) ≠ none)
    (hr : ∀ i : Nat, i < n → R (d + i) (m (s + i))) :
    ∃ m', memcpy m d s n = some m' ∧ Eff (fun b => d ≤ b ∧ b < d + n) R m m' := by
  obtain ⟨l, h1, h2, h3⟩ := load_some n s hs
  obtain ⟨m', h4, e⟩ := store_eff (R := R) l d m (by rw [h2]; exact hd)
    (fun i hi => by rw [h3 i (by omega)]; exact hr i (by omega))
  refine ⟨m', ?_, by rw [h2] at e; exact e⟩
  unfold memcpy
  rw [if_pos ha, h1]
  exact h4

/-! ## Addresses -/

theorem mul_apart {a b s r t : Int} (h : a * s + r = b * s + t) (hr : 0 ≤ r) (hr' : r < s.natAbs)
    (ht : 0 ≤ t) (ht' : t < s.natAbs) : a = b := by
  have e : (a - b) * s = t - r := by rw [Int.sub_mul]; omega
  have e2 : (a - b).natAbs * s.natAbs = (t - r).natAbs := by rw [← Int.natAbs_mul, e]
  by_cases hz : (a - b).natAbs = 0
  · omega
  · have : 1 * s.natAbs ≤ (a - b).natAbs * s.natAbs := Nat.mul_le_mul_right _ (by omega)
    omega

theorem col_lt {x w k z : Int} (hx : 0 ≤ x) (hw : x < w) (hk : 0 ≤ k) (hz : k < z) :
    0 ≤ x * z + k ∧ x * z + k < w * z := by
  have h1 : 0 ≤ x * z := Int.mul_nonneg hx (by omega)
  have h2 : (x + 1) * z ≤ w * z := Int.mul_le_mul_of_nonneg_right (by omega) (by omega)
  rw [Int.add_mul] at h2
  omega

theorem at_inj {im : Img} (ha : im.width * im.bytespp ≤ im.stride.natAbs) {x y k x' y' k' : Int}
    (h : Inside im x y k) (h' : Inside im x' y' k') (e : At im x y k = At im x' y' k') :
    x = x' ∧ y = y' ∧ k = k' := by
  obtain ⟨a1, a2, a3, a4, a5, a6⟩ := h
  obtain ⟨b1, b2, b3, b4, b5, b6⟩ := h'
  have c := col_lt a1 a2 a5 a6
  have c' := col_lt b1 b2 b5 b6
  unfold At at e
  have hy : y = y' := mul_apart (s := im.stride) (r := x * im.bytespp + k) (t := x' * im.bytespp + k')
    (by omega) c.1 (by omega) c'.1 (by omega)
  subst hy
  have hx : x = x' := mul_apart (s := im.bytespp) (r := k) (t := k') (by omega) a5 (by omega) b5 (by omega)
  subst hx
  exact ⟨rfl, rfl, by omega⟩

theorem natAbs_small {y h s : Int} (hy : 0 ≤ y) (hh : y < h) (hs : h * (s.natAbs : Int) < 2147483648) :
    -2147483648 ≤ y * s ∧ y * s < 2147483648 := by
  have h1 : y * (s.natAbs : Int) ≤ h * s.natAbs := Int.mul_le_mul_of_nonneg_right (by omega) (by omega)
  have h2 : (y * s).natAbs = y.natAbs * s.natAbs := Int.natAbs_mul _ _
  have h3 : ((y.natAbs * s.natAbs : Nat) : Int) = y * s.natAbs := by
    rw [Int.natCast_mul]; congr 1; omega
  omega

theorem getPixel_eq {m : Mem} {im : Img} (u : Usable m im) {x y : Int} (hx : 0 ≤ x) (hw : x < im.width)
    (hy : 0 ≤ y) (hh : y < im.height) : getPixel im x y = some (At im x y 0) := by
  have h1 := natAbs_small hy hh u.small
  have h2 : 0 ≤ x * (im.bytespp : Int) := Int.mul_nonneg hx (by omega)
  have h3 : x * (im.bytespp : Int) ≤ im.width * im.bytespp :=
    Int.mul_le_mul_of_nonneg_right (by omega) (by omega)
  have h4 := u.fits
  unfold getPixel inRect s32 At
  simp only [hx, hy, hw, hh, and_self, decide_true, if_true, h1]
  rw [if_pos (by omega)]
  simp

/-- The bytes of a row, counted from its first pixel. -/
theorem row_byte {im : Img} {y i : Int} (hy : 0 ≤ y) (hh : y < im.height) (hi : 0 ≤ i)
    (hw : i < im.width * im.bytespp) :
    ∃ x k, Inside im x y k ∧ x * im.bytespp + k = i := by
  have hb : 0 < (im.bytespp : Int) := by
    rcases Nat.eq_zero_or_pos im.bytespp with h | h
    · rw [h] at hw; simp at hw; omega
    · omega
  refine ⟨i / im.bytespp, i % im.bytespp, ⟨Int.ediv_nonneg hi (by omega), ?_, hy, hh,
    Int.emod_nonneg _ (by omega), Int.emod_lt_of_pos _ hb⟩, ?_⟩
  · exact Int.ediv_lt_of_lt_mul hb hw
  · exact Int.ediv_mul_add_emod _ _

/-- What the value of a byte of the image shall be, as a relation. -/
def Want (im : Img) (v : Int → Int → Int → Option Byte) (b : Int) (o : Option Byte) : Prop :=
  o ≠ none ∧ ∃ x y k, Inside im x y k ∧ b = At im x y k ∧ o = v x y k

theorem want_ne {im : Img} {v : Int → Int → Int → Option Byte} :
    ∀ b o, Want im v b o → o ≠ none := fun _ _ h => h.1

/-- Bytes of row `y`. -/
def Row (im : Img) (y : Int) (b : Int) : Prop := ∃ x k, Inside im x y k ∧ b = At im x y k

theorem row_iff {im : Img} {y : Int} (hy : 0 ≤ y) (hh : y < im.height) {n : Nat}
    (hn : (n : Int) = im.width * im.bytespp) (b : Int) :
    (At im 0 y 0 ≤ b ∧ b < At im 0 y 0 + n) ↔ Row im y b := by
  constructor
  · rintro ⟨h1, h2⟩
    obtain ⟨x, k, hi, e⟩ := row_byte (im := im) (i := b - At im 0 y 0) hy hh (by omega) (by omega)
    refine ⟨x, k, hi, ?_⟩
    unfold At at e ⊢
    simp at e
    omega
  · rintro ⟨x, k, ⟨a1, a2, a3, a4, a5, a6⟩, e⟩
    have c := col_lt a1 a2 a5 a6
    unfold At at e ⊢
    simp
    omega

/-- When all rows are done, all is done. -/
theorem draws_of_eff {im : Img} {v : Int → Int → Int → Option Byte} {m m' : Mem}
    (ha : im.width * im.bytespp ≤ im.stride.natAbs)
    (h : Eff (fun b => ∃ y, 0 ≤ y ∧ y < 0 + (im.height.toNat : Int) ∧ Row im y b) (Want im v) m m') :
    Draws im v m m' := by
  refine ⟨fun x y k hi => ?_, fun a hn => ?_⟩
  · obtain ⟨_, x', y', k', hi', e, hv⟩ := h.1 (At im x y k)
      ⟨y, hi.2.2.1, by have := hi.2.2.2.1; omega, x, k, hi, rfl⟩
    obtain ⟨rfl, rfl, rfl⟩ := at_inj ha hi hi' e
    exact hv
  · refine h.2 a (fun ⟨y, h1, h2, x, k, hi, e⟩ => hn ⟨x, y, k, hi, e⟩)

theorem row_owns {im : Img} {y b : Int} (h : Row im y b) : Owns im b := by
  obtain ⟨x, k, hi, e⟩ := h
  exact ⟨x, y, k, hi, e⟩

/-- Operations that go through the rows. -/
theorem rows_draw {m0 : Mem} {im : Img} {v : Int → Int → Int → Option Byte} {f : Int → Mem → Option Mem}
    (ha : im.width * im.bytespp ≤ im.stride.natAbs)
    (hf : ∀ y, 0 ≤ y → y < im.height → ∀ m, Inv (Owns im) m0 m →
      ∃ m', f y m = some m' ∧ Eff (Row im y) (Want im v) m m') :
    ∃ m', forRows f im.height.toNat 0 m0 = some m' ∧ Draws im v m0 m' := by
  obtain ⟨m', h1, e⟩ := forRows_eff (O := Owns im) (R := Want im v) (m0 := m0) (f := f) (E := Row im)
    want_ne im.height.toNat 0 m0 ⟨fun _ _ => rfl, fun _ h => h⟩
    (fun y _ _ b hb => row_owns hb)
    (fun y h1 h2 m hi => hf y h1 (by omega) m hi)
  exact ⟨m', h1, draws_of_eff ha e⟩

end Verif.Image
