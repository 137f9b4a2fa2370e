import Verif.Rand.Model
import Mathlib.Logic.Function.Iterate

/-!
# The state of the generator as a vector space over two elements

`step` is linear.  Polynomials in `step` are numbers, whose bits are the coefficients; `step` is a zero of the
polynomial `charPoly`, so that powers of `step` can be computed modulo it.
-/

namespace Verif.Rand

instance : XorOp Rng := ⟨fun a b => ⟨a.s0 ^^^ b.s0, a.s1 ^^^ b.s1⟩⟩
instance : Zero Rng := ⟨⟨0, 0⟩⟩

theorem xor_def (a b : Rng) : a ^^^ b = ⟨a.s0 ^^^ b.s0, a.s1 ^^^ b.s1⟩ := rfl
theorem zero_def : (0 : Rng) = ⟨0, 0⟩ := rfl

theorem xor_assoc' (a b c : Rng) : a ^^^ b ^^^ c = a ^^^ (b ^^^ c) := by
  simp only [xor_def, BitVec.xor_assoc]
theorem xor_comm' (a b : Rng) : a ^^^ b = b ^^^ a := by
  simp only [xor_def, BitVec.xor_comm]
theorem xor_zero' (a : Rng) : a ^^^ 0 = a := by
  ext1 <;> exact BitVec.xor_zero
theorem zero_xor' (a : Rng) : 0 ^^^ a = a := by
  ext1 <;> exact BitVec.zero_xor
theorem xor_self' (a : Rng) : a ^^^ a = 0 := by
  ext1 <;> exact BitVec.xor_self

theorem eq_of_xor {a b : Rng} (h : a ^^^ b = 0) : a = b := by
  have : a ^^^ b ^^^ b = 0 ^^^ b := by rw [h]
  rwa [xor_assoc', xor_self', xor_zero', zero_xor'] at this

theorem rotl_xor (x y : BitVec 64) (k : Nat) : rotl (x ^^^ y) k = rotl x k ^^^ rotl y k := by
  unfold rotl
  ext i hi
  simp only [BitVec.getElem_or, BitVec.getElem_xor, BitVec.getElem_shiftLeft, BitVec.getElem_ushiftRight,
    BitVec.getLsbD_xor]
  by_cases h1 : i < k
  · simp [h1]
  · have h2 : 64 ≤ 64 - k + i := by omega
    simp [h1, BitVec.getLsbD_of_ge _ _ h2]

theorem shl_xor (x y : BitVec 64) (k : Nat) : (x ^^^ y) <<< k = x <<< k ^^^ y <<< k := by
  exact BitVec.shiftLeft_xor_distrib ..

theorem four (a b c d : BitVec 64) : (a ^^^ b) ^^^ (c ^^^ d) = (a ^^^ c) ^^^ (b ^^^ d) := by ac_rfl

theorem step_xor (a b : Rng) : step (a ^^^ b) = step a ^^^ step b := by
  have e : (a.s1 ^^^ b.s1) ^^^ (a.s0 ^^^ b.s0) = (a.s1 ^^^ a.s0) ^^^ (b.s1 ^^^ b.s0) := four ..
  simp only [step, xor_def, e]
  generalize a.s1 ^^^ a.s0 = u
  generalize b.s1 ^^^ b.s0 = v
  simp only [rotl_xor, shl_xor]
  rw [four (rotl a.s0 24), four (rotl a.s0 24 ^^^ u)]

theorem step_zero : step 0 = 0 := by decide +kernel

theorem iter_xor (n : Nat) (a b : Rng) : step^[n] (a ^^^ b) = step^[n] a ^^^ step^[n] b := by
  induction n generalizing a b with
  | zero => rfl
  | succ n ih => rw [Function.iterate_succ_apply, Function.iterate_succ_apply, Function.iterate_succ_apply, step_xor, ih]

theorem iter_zero (n : Nat) : step^[n] (0 : Rng) = 0 := by
  induction n with
  | zero => rfl
  | succ n ih => rw [Function.iterate_succ_apply, step_zero, ih]

/-! ## Polynomials in `step` -/

/-- The polynomial whose coefficients are the lowest `n` bits of `p`, applied to a state. -/
def act (n p : Nat) (s : Rng) : Rng :=
  match n with
  | 0 => 0
  | n + 1 => act n p s ^^^ (if p.testBit n then step^[n] s else 0)

theorem act_add (n p q : Nat) (s : Rng) : act n (p ^^^ q) s = act n p s ^^^ act n q s := by
  induction n with
  | zero => exact (xor_self' 0).symm
  | succ n ih =>
    simp only [act, ih, Nat.testBit_xor]
    rw [xor_assoc', xor_assoc', xor_comm' (act n q s), xor_comm' (act n q s), ← xor_assoc' (ite _ _ _)]
    rcases Bool.eq_false_or_eq_true (p.testBit n) with h | h <;>
      rcases Bool.eq_false_or_eq_true (q.testBit n) with h' | h' <;>
      simp [h, h', xor_self', xor_zero', zero_xor']

theorem act_xor (n p : Nat) (s t : Rng) : act n p (s ^^^ t) = act n p s ^^^ act n p t := by
  induction n with
  | zero => exact (xor_self' 0).symm
  | succ n ih =>
    simp only [act, ih]
    split
    · rw [iter_xor, xor_assoc', xor_assoc', ← xor_assoc' (act n p t), ← xor_assoc' (step^[n] s),
        xor_comm' (act n p t) (step^[n] s)]
    · simp only [xor_zero']

theorem act_zero (n p : Nat) : act n p 0 = 0 := by
  induction n with
  | zero => rfl
  | succ n ih => simp only [act, ih, iter_zero, ite_self, xor_zero']

theorem act_none (n : Nat) (s : Rng) : act n 0 s = 0 := by
  induction n with
  | zero => rfl
  | succ n ih => simp [act, ih, xor_zero']

theorem step_act (n p : Nat) (s : Rng) : step (act n p s) = act n p (step s) := by
  induction n with
  | zero => exact step_zero
  | succ n ih =>
    simp only [act, step_xor, ih]
    split
    · rw [← Function.iterate_succ_apply' step, Function.iterate_succ_apply]
    · rw [step_zero]

theorem act_double (n p : Nat) (s : Rng) : act (n + 1) (p <<< 1) s = step (act n p s) := by
  induction n with
  | zero => simp [act, Nat.testBit_shiftLeft, xor_self', step_zero]
  | succ n ih =>
    rw [act, ih, act]
    rw [step_xor]
    simp only [Nat.testBit_shiftLeft]
    simp only [ge_iff_le, Nat.le_add_left, decide_true, Nat.add_sub_cancel, Bool.true_and]
    split
    · rw [Function.iterate_succ_apply']
    · rw [step_zero]

theorem act_more (n p : Nat) (h : p < 2 ^ n) (s : Rng) : act (n + 1) p s = act n p s := by
  rw [act, Nat.testBit_lt_two_pow h]
  simp [xor_zero']

/-- The characteristic polynomial of `step`. -/
def charPoly : Nat := 0x10008828e513b43d5095b8f76579aa001

/-- Horner's scheme, to compute with. -/
def horner (n p : Nat) (s acc : Rng) : Rng :=
  match n with
  | 0 => acc
  | n + 1 => horner n p s (step acc ^^^ (if p.testBit n then s else 0))

theorem horner_eq (n p : Nat) (s acc : Rng) : horner n p s acc = step^[n] acc ^^^ act n p s := by
  induction n generalizing acc with
  | zero => exact (xor_zero' _).symm
  | succ n ih =>
    rw [horner, ih, act, iter_xor, ← Function.iterate_succ_apply, xor_assoc', xor_comm' (act n p s)]
    congr 2
    split
    · rfl
    · rw [iter_zero]

/-- Multiplication by the variable. -/
def double (a : Nat) : Nat :=
  let y := a <<< 1
  if y.testBit 128 then y ^^^ charPoly else y

/-- The product of polynomials modulo the characteristic one. -/
def mulGo (i a b acc : Nat) : Nat :=
  match i with
  | 0 => acc
  | i + 1 => mulGo i a b (let y := double acc; if b.testBit i then y ^^^ a else y)

def mul (a b : Nat) : Nat := mulGo 128 a b 0

/-- Powers of the variable. -/
def powGo (i e acc : Nat) : Nat :=
  match i with
  | 0 => acc
  | i + 1 => powGo i e (let y := mul acc acc; if e.testBit i then double y else y)

def pow (e : Nat) : Nat := powGo 128 e 1

/-- The number of states other than zero. -/
def order : Nat := 2 ^ 128 - 1

/-! ## `step` is a zero of its characteristic polynomial -/

theorem below {x : BitVec 64} {i : Nat} (h : x.toNat < 2 ^ (i + 1)) (hi : i < 64) :
    x.toNat < 2 ^ i ∨ ((x ^^^ 1#64 <<< i).toNat < 2 ^ i) := by
  by_cases hx : x.toNat < 2 ^ i
  · exact Or.inl hx
  right
  have e : (1#64 <<< i).toNat = 2 ^ i := by
    rw [BitVec.toNat_shiftLeft, Nat.shiftLeft_eq]
    have : 2 ^ i < 2 ^ 64 := Nat.pow_lt_pow_right (by decide) hi
    simp only [BitVec.toNat_ofNat]
    rw [Nat.mod_eq_of_lt (by omega : 1 < 2 ^ 64), Nat.one_mul, Nat.mod_eq_of_lt this]
  rw [BitVec.toNat_xor, e]
  apply Nat.lt_pow_two_of_testBit
  intro j hj
  rw [Nat.testBit_xor, Nat.testBit_two_pow]
  by_cases hji : i = j
  · subst hji
    have : x.toNat.testBit i = true := by
      rw [Nat.testBit_eq_decide_div_mod_eq]
      have h1 : x.toNat / 2 ^ i < 2 := by rw [Nat.div_lt_iff_lt_mul (Nat.two_pow_pos i)]; rw [Nat.pow_succ] at h; omega
      have h2 : 1 ≤ x.toNat / 2 ^ i := by rw [Nat.le_div_iff_mul_le (Nat.two_pow_pos i)]; omega
      have : x.toNat / 2 ^ i = 1 := by omega
      simp [this]
    simp [this]
  · have hlt : x.toNat < 2 ^ j := Nat.lt_of_lt_of_le h (Nat.pow_le_pow_right (by decide) (by omega))
    rw [Nat.testBit_lt_two_pow hlt]
    simp [hji]

/-- A linear function of words that is zero at the powers of two is zero. -/
theorem zero_of_basis (f : BitVec 64 → Rng) (hf : ∀ x y, f (x ^^^ y) = f x ^^^ f y)
    (hb : ∀ i < 64, f (1#64 <<< i) = 0) (x : BitVec 64) : f x = 0 := by
  have h0 : f 0 = 0 := by
    have := hf 0 0
    rw [xor_self'] at this
    simpa using this
  have key : ∀ i ≤ 64, ∀ x : BitVec 64, x.toNat < 2 ^ i → f x = 0 := by
    intro i
    induction i with
    | zero =>
      intro _ x hx
      have : x = 0 := by apply BitVec.eq_of_toNat_eq; simpa using hx
      rw [this, h0]
    | succ i ih =>
      intro hi x hx
      rcases below hx (by omega) with h | h
      · exact ih (by omega) x h
      · have := ih (by omega) _ h
        rw [hf, hb i (by omega), xor_zero'] at this
        exact this
  exact key 64 (Nat.le_refl _) x x.isLt

set_option maxRecDepth 100000 in
theorem basis_checked : ∀ i < 64, horner 129 charPoly ⟨1#64 <<< i, 0⟩ 0 = 0 ∧ horner 129 charPoly ⟨0, 1#64 <<< i⟩ 0 = 0 := by
  decide +kernel

theorem charPoly_act (s : Rng) : act 129 charPoly s = 0 := by
  have e : ∀ s, act 129 charPoly s = horner 129 charPoly s 0 := by
    intro s; rw [horner_eq, iter_zero, zero_xor']
  have h1 : act 129 charPoly ⟨s.s0, 0⟩ = 0 := by
    refine zero_of_basis (fun x => act 129 charPoly ⟨x, 0⟩) (fun x y => ?_) (fun i hi => ?_) s.s0
    · show act 129 charPoly ⟨x ^^^ y, 0⟩ = _
      rw [← act_xor, xor_def]; simp
    · show act 129 charPoly ⟨1#64 <<< i, 0⟩ = 0
      rw [e]; exact (basis_checked i hi).1
  have h2 : act 129 charPoly ⟨0, s.s1⟩ = 0 := by
    refine zero_of_basis (fun x => act 129 charPoly ⟨0, x⟩) (fun x y => ?_) (fun i hi => ?_) s.s1
    · show act 129 charPoly ⟨0, x ^^^ y⟩ = _
      rw [← act_xor, xor_def]; simp
    · show act 129 charPoly ⟨0, 1#64 <<< i⟩ = 0
      rw [e]; exact (basis_checked i hi).2
  have : s = ⟨s.s0, 0⟩ ^^^ ⟨0, s.s1⟩ := by rw [xor_def]; simp
  rw [this, act_xor, h1, h2, xor_self']

/-! ## Computing modulo the characteristic polynomial -/

theorem charPoly_lt : charPoly < 2 ^ 129 := by decide +kernel
theorem charPoly_bit : charPoly.testBit 128 = true := by decide +kernel

theorem double_lt {a : Nat} (h : a < 2 ^ 128) : double a < 2 ^ 128 := by
  have hy : a <<< 1 < 2 ^ 129 := by rw [Nat.shiftLeft_eq]; omega
  unfold double
  dsimp only
  apply Nat.lt_pow_two_of_testBit
  intro j hj
  by_cases hb : (a <<< 1).testBit 128 = true
  · rw [if_pos hb, Nat.testBit_xor]
    by_cases hj' : j = 128
    · subst hj'; rw [hb, charPoly_bit]; rfl
    · have h1 : 2 ^ 129 ≤ 2 ^ j := Nat.pow_le_pow_right (by decide) (by omega)
      rw [Nat.testBit_lt_two_pow (Nat.lt_of_lt_of_le hy h1),
        Nat.testBit_lt_two_pow (Nat.lt_of_lt_of_le charPoly_lt h1)]
      rfl
  · rw [if_neg hb]
    by_cases hj' : j = 128
    · subst hj'; simpa using hb
    · have h1 : 2 ^ 129 ≤ 2 ^ j := Nat.pow_le_pow_right (by decide) (by omega)
      exact Nat.testBit_lt_two_pow (Nat.lt_of_lt_of_le hy h1)

theorem double_act {a : Nat} (h : a < 2 ^ 128) (s : Rng) : act 128 (double a) s = step (act 128 a s) := by
  rw [← act_more 128 _ (double_lt h), ← act_double]
  unfold double
  dsimp only
  split
  · rw [act_add, charPoly_act, xor_zero']
  · rfl

theorem act_succ (n p : Nat) (s : Rng) :
    act (n + 1) p s = act n p s ^^^ if p.testBit n then step^[n] s else 0 := rfl

theorem mulGo_spec (i : Nat) {a : Nat} (ha : a < 2 ^ 128) (b : Nat) {acc : Nat} (hacc : acc < 2 ^ 128) :
    mulGo i a b acc < 2 ^ 128 ∧
    ∀ s, act 128 (mulGo i a b acc) s = step^[i] (act 128 acc s) ^^^ act i b (act 128 a s) := by
  induction i generalizing acc with
  | zero => exact ⟨hacc, fun s => (xor_zero' _).symm⟩
  | succ i ih =>
    have hd := double_lt hacc
    rw [mulGo]
    dsimp only
    by_cases hb : b.testBit i = true
    · rw [if_pos hb]
      obtain ⟨h1, h2⟩ := ih (Nat.xor_lt_two_pow hd ha)
      refine ⟨h1, fun s => ?_⟩
      rw [h2, act_add, double_act hacc, iter_xor, ← Function.iterate_succ_apply, act_succ i b, if_pos hb, xor_assoc',
        xor_comm' (act i b _)]
    · rw [if_neg hb]
      obtain ⟨h1, h2⟩ := ih hd
      refine ⟨h1, fun s => ?_⟩
      rw [h2, double_act hacc, ← Function.iterate_succ_apply, act_succ i b, if_neg hb, xor_zero']

theorem mul_spec {a b : Nat} (ha : a < 2 ^ 128) : mul a b < 2 ^ 128 ∧
    ∀ s, act 128 (mul a b) s = act 128 b (act 128 a s) := by
  obtain ⟨h1, h2⟩ := mulGo_spec 128 ha b (acc := 0) (by decide)
  refine ⟨h1, fun s => ?_⟩
  unfold mul
  rw [h2, act_none, iter_zero, zero_xor']

theorem powGo_spec (i e : Nat) {acc k : Nat} (hacc : acc < 2 ^ 128) (hk : ∀ s, act 128 acc s = step^[k] s) :
    powGo i e acc < 2 ^ 128 ∧ ∀ s, act 128 (powGo i e acc) s = step^[k * 2 ^ i + e % 2 ^ i] s := by
  induction i generalizing acc k with
  | zero => exact ⟨hacc, fun s => by rw [Nat.pow_zero, Nat.mod_one, Nat.mul_one]; exact hk s⟩
  | succ i ih =>
    obtain ⟨m1, m2⟩ := mul_spec (a := acc) (b := acc) hacc
    have m3 : ∀ s, act 128 (mul acc acc) s = step^[2 * k] s := by
      intro s; rw [m2, hk, hk, ← Function.iterate_add_apply, Nat.two_mul]
    rw [powGo]
    dsimp only
    have hmod : e % 2 ^ (i + 1) = (if e.testBit i then 2 ^ i else 0) + e % 2 ^ i := by
      rw [Nat.pow_succ, Nat.mod_mul, Nat.testBit_eq_decide_div_mod_eq]
      rcases Nat.mod_two_eq_zero_or_one (e / 2 ^ i) with h | h <;> simp [h, Nat.add_comm]
    by_cases hb : e.testBit i = true
    · rw [if_pos hb]
      obtain ⟨h1, h2⟩ := ih (k := 2 * k + 1) (double_lt m1) (fun s => by
        rw [double_act m1, m3, ← Function.iterate_succ_apply' step])
      refine ⟨h1, fun s => ?_⟩
      rw [h2, hmod, if_pos hb]
      congr 1
      rw [Nat.pow_succ, Nat.add_mul, Nat.one_mul, Nat.mul_comm (2 ^ i) 2, ← Nat.mul_assoc, Nat.mul_comm k 2]
      omega
    · rw [if_neg hb]
      obtain ⟨h1, h2⟩ := ih m1 m3
      refine ⟨h1, fun s => ?_⟩
      rw [h2, hmod, if_neg hb]
      congr 1
      rw [Nat.pow_succ, Nat.mul_comm (2 ^ i) 2, ← Nat.mul_assoc, Nat.mul_comm k 2]
      omega

theorem pow_spec {e : Nat} (he : e < 2 ^ 128) : pow e < 2 ^ 128 ∧ ∀ s, act 128 (pow e) s = step^[e] s := by
  have h1 : ∀ s, act 128 1 s = step^[0] s := by
    have key : ∀ n s, act (n + 1) 1 s = s := by
      intro n s
      induction n with
      | zero => simp [act, zero_xor']
      | succ n ih =>
        rw [act, ih]
        have : Nat.testBit 1 (n + 1) = false := by
          apply Nat.testBit_lt_two_pow
          exact Nat.one_lt_two_pow (by omega)
        simp [this, xor_zero']
    exact key 127
  obtain ⟨h2, h3⟩ := powGo_spec 128 e (acc := 1) (k := 0) (by decide) h1
  refine ⟨h2, fun s => ?_⟩
  unfold pow
  rw [h3, Nat.zero_mul, Nat.zero_add, Nat.mod_eq_of_lt he]

/-- If the difference of a power and one has an inverse, the power moves every state but zero. -/
theorem moves {e u : Nat} (he : e < 2 ^ 128) (h : mul (pow e ^^^ 1) u = 1) {s : Rng} (hs : s ≠ 0) : step^[e] s ≠ s := by
  intro h2
  obtain ⟨p1, p2⟩ := pow_spec he
  have hlt : pow e ^^^ 1 < 2 ^ 128 := Nat.xor_lt_two_pow p1 (by decide)
  have one : ∀ s, act 128 1 s = s := by
    intro s
    have e0 : pow 0 = 1 := by decide +kernel
    have := (pow_spec (e := 0) (by decide)).2 s
    rw [e0] at this
    exact this
  have h3 : act 128 (pow e ^^^ 1) s = 0 := by
    rw [act_add, p2, one, h2, xor_self']
  have h4 := (mul_spec (b := u) hlt).2 s
  rw [h, one, h3, act_zero] at h4
  exact hs h4

end Verif.Rand
