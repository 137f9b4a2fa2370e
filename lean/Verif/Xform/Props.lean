import Verif.Xform.Spec
import Mathlib.Tactic.Ring
import Mathlib.Tactic.LinearCombination
import Mathlib.Tactic.FieldSimp
import Mathlib.Tactic.Linarith
import Mathlib.Tactic.NormNum

/-!
# Quaternions: C78

Rotations by quaternions and their conversion to and from matrices.
-/

noncomputable section

namespace Verif.Xform

open Verif.Geom (V2 V3 dotOf crossOf detOf)

/-! ## Lemmas -/

/-- The same rotation in a form that is quadratic in the quaternion. -/
def quad (q : V4) (v : R3) : R3 :=
  let n := q.x * q.x + q.y * q.y + q.z * q.z
  let d := q.x * v.x + q.y * v.y + q.z * v.z
  ⟨(q.w * q.w - n) * v.x + 2 * q.w * (q.y * v.z - q.z * v.y) + 2 * q.x * d,
   (q.w * q.w - n) * v.y + 2 * q.w * (q.z * v.x - q.x * v.z) + 2 * q.y * d,
   (q.w * q.w - n) * v.z + 2 * q.w * (q.x * v.y - q.y * v.x) + 2 * q.z * d⟩

theorem qRot_quad {q : Quat} (hq : Unit4 q) (v : R3) : qRot q v = quad q v := by
  unfold Unit4 at hq
  ext <;> simp only [qRot, add3, scale3, cross, V4.vec, quad]
  · linear_combination (-v.x) * hq
  · linear_combination (-v.y) * hq
  · linear_combination (-v.z) * hq

theorem quad_mul (a b : Quat) (v : R3) : quad (qMul a b) v = quad a (quad b v) := by
  ext <;> simp only [quad, qMul] <;> ring

theorem unit_mul {a b : Quat} (ha : Unit4 a) (hb : Unit4 b) : Unit4 (qMul a b) := by
  unfold Unit4 at *
  have : (qMul a b).x ^ 2 + (qMul a b).y ^ 2 + (qMul a b).z ^ 2 + (qMul a b).w ^ 2 =
      (a.x ^ 2 + a.y ^ 2 + a.z ^ 2 + a.w ^ 2) * (b.x ^ 2 + b.y ^ 2 + b.z ^ 2 + b.w ^ 2) := by
    simp only [qMul]; ring
  rw [this, ha, hb, one_mul]

theorem unit_inv {a : Quat} (ha : Unit4 a) : Unit4 (qInverted a) := by
  unfold Unit4 at *
  simp only [qInverted]
  linear_combination ha

theorem sqrt_pos_of {t : ℝ} (h : 0 < t) : 0 < √t ∧ √t * √t = t := ⟨Real.sqrt_pos.2 h, Real.mul_self_sqrt h.le⟩

theorem normalized_unit {p : V4} (h : 0 < length24 p) : Unit4 (normalized4 p) := by
  obtain ⟨h1, h2⟩ := sqrt_pos_of h
  unfold Unit4 normalized4
  dsimp only
  have h3 : √(length24 p) ^ 2 = length24 p := by rw [pow_two, h2]
  rw [div_pow, div_pow, div_pow, div_pow, ← add_div, ← add_div, ← add_div, h3, div_eq_one_iff_eq h.ne']
  unfold length24; ring

theorem normalized_quad {p : V4} (h : 0 < length24 p) (v : R3) :
    qRot (normalized4 p) v =
      ⟨(quad p v).x / length24 p, (quad p v).y / length24 p, (quad p v).z / length24 p⟩ := by
  rw [qRot_quad (normalized_unit h)]
  obtain ⟨h1, h2⟩ := sqrt_pos_of h
  have h3 : √(length24 p) ^ 2 = length24 p := by rw [pow_two, h2]
  unfold normalized4
  dsimp only
  generalize √(length24 p) = l at *
  rw [← h3]
  ext <;> simp only [quad] <;> field_simp

/-! ## Rotations -/

/-- **C78.** The quaternion of an axis and an angle rotates about the axis by the angle. -/
theorem C78_axis_angle {u : R3} (hu : Unit3 u) (a : ℝ) (v : R3) :
    fromAxisAngle? u a = some (fromAxisAngle u a) ∧ Unit4 (fromAxisAngle u a) ∧
    qRot (fromAxisAngle u a) v = rotated u a v := by
  have h2 : a = 2 * (a / 2) := by ring
  have hc : Real.cos a = 2 * Real.cos (a / 2) ^ 2 - 1 := by rw [h2, Real.cos_two_mul]; ring_nf
  have hs : Real.sin a = 2 * Real.sin (a / 2) * Real.cos (a / 2) := by
    conv_lhs => rw [h2, Real.sin_two_mul]
  have hp := Real.sin_sq_add_cos_sq (a / 2)
  unfold Unit3 dotOf at hu
  refine ⟨?_, ?_, ?_⟩
  · unfold fromAxisAngle?
    rw [if_pos]
    unfold isUnit length2
    rw [hu]; norm_num
  · unfold Unit4 fromAxisAngle
    dsimp only
    linear_combination Real.sin (a / 2) ^ 2 * hu + hp
  · unfold rotated qRot fromAxisAngle
    rw [hc, hs]
    generalize Real.sin (a / 2) = s at *
    generalize Real.cos (a / 2) = c at *
    ext <;> simp only [add3, scale3, cross, V4.vec, crossOf, dotOf]
    · linear_combination (-2 * v.x + 2 * (u.x * v.x + u.y * v.y + u.z * v.z) * u.x) * hp - 2 * s ^ 2 * v.x * hu
    · linear_combination (-2 * v.y + 2 * (u.x * v.x + u.y * v.y + u.z * v.z) * u.y) * hp - 2 * s ^ 2 * v.y * hu
    · linear_combination (-2 * v.z + 2 * (u.x * v.x + u.y * v.y + u.z * v.z) * u.z) * hp - 2 * s ^ 2 * v.z * hu

example : Unit3 ⟨0, 0.6, 0.8⟩ := by unfold Unit3 dotOf; norm_num

/-- **C78.** A quaternion of length one rotates: nothing is stretched, sheared or mirrored. -/
theorem C78_quat_rotates {q : Quat} (hq : Unit4 q) : IsRotationMap (qRot q) := by
  unfold Unit4 at hq
  obtain ⟨x, y, z, w⟩ := q
  dsimp only at hq
  refine ⟨?_, ?_, ?_, ?_⟩
  · intro a b
    ext <;> simp only [qRot, add3, scale3, cross, V4.vec] <;> ring
  · intro k a
    ext <;> simp only [qRot, add3, scale3, cross, V4.vec] <;> ring
  · rintro ⟨a1, a2, a3⟩ ⟨b1, b2, b3⟩
    simp only [qRot, add3, scale3, cross, V4.vec, dotOf]
    linear_combination (4 * (x ^ 2 + y ^ 2 + z ^ 2) * (a1 * b1 + a2 * b2 + a3 * b3) -
      4 * (x * a1 + y * a2 + z * a3) * (x * b1 + y * b2 + z * b3)) * hq
  · rintro ⟨a1, a2, a3⟩ ⟨b1, b2, b3⟩
    ext <;> simp only [qRot, add3, scale3, cross, V4.vec, crossOf]
    · linear_combination (-4 * (x * (a2 * b3 - a3 * b2) + y * (a3 * b1 - a1 * b3) + z * (a1 * b2 - a2 * b1)) * x) * hq
    · linear_combination (-4 * (x * (a2 * b3 - a3 * b2) + y * (a3 * b1 - a1 * b3) + z * (a1 * b2 - a2 * b1)) * y) * hq
    · linear_combination (-4 * (x * (a2 * b3 - a3 * b2) + y * (a3 * b1 - a1 * b3) + z * (a1 * b2 - a2 * b1)) * z) * hq

example : Unit4 ⟨0.1, 0.5, 0.5, 0.7⟩ := by unfold Unit4; norm_num

/-- **C78.** The product of quaternions rotates by the second one and then by the first one. -/
theorem C78_quat_product {a b : Quat} (ha : Unit4 a) (hb : Unit4 b) :
    Unit4 (qMul a b) ∧ ∀ v, qRot (qMul a b) v = qRot a (qRot b v) := by
  refine ⟨unit_mul ha hb, fun v => ?_⟩
  rw [qRot_quad (unit_mul ha hb), quad_mul, qRot_quad hb, qRot_quad ha]

/-- **C78.** The product is associative, the identity does nothing, and the inverse takes a rotation back, on both
sides. -/
theorem C78_quat_inverse {q : Quat} (hq : Unit4 q) (a b : Quat) (v : R3) :
    qMul (qMul a b) q = qMul a (qMul b q) ∧
    Unit4 qIdentity ∧ qRot qIdentity v = v ∧ qMul q qIdentity = q ∧ qMul qIdentity q = q ∧
    Unit4 (qInverted q) ∧ qMul q (qInverted q) = qIdentity ∧ qMul (qInverted q) q = qIdentity ∧
    qRot (qInverted q) (qRot q v) = v ∧ qRot q (qRot (qInverted q) v) = v := by
  have h1 : qMul q (qInverted q) = qIdentity := by
    unfold Unit4 at hq
    ext <;> simp only [qMul, qInverted, qIdentity]
    · ring
    · ring
    · ring
    · linear_combination hq
  have h2 : qMul (qInverted q) q = qIdentity := by
    unfold Unit4 at hq
    ext <;> simp only [qMul, qInverted, qIdentity]
    · ring
    · ring
    · ring
    · linear_combination hq
  have h3 : ∀ v, qRot qIdentity v = v := by
    intro v
    ext <;> simp only [qRot, qIdentity, add3, scale3, cross, V4.vec] <;> ring
  refine ⟨?_, ?_, h3 v, ?_, ?_, unit_inv hq, h1, h2, ?_, ?_⟩
  · ext <;> simp only [qMul] <;> ring
  · unfold Unit4 qIdentity; norm_num
  · ext <;> simp only [qMul, qIdentity] <;> ring
  · ext <;> simp only [qMul, qIdentity] <;> ring
  · rw [← (C78_quat_product (unit_inv hq) hq).2, h2, h3]
  · rw [← (C78_quat_product hq (unit_inv hq)).2, h1, h3]

/-- **C78.** The short forms for the axes, and the matrices of a quaternion, are the rotation. -/
theorem C78_quat_forms (q : Quat) (p v : R3) :
    rotateUnitX q = qRot q ⟨1, 0, 0⟩ ∧ rotateUnitY q = qRot q ⟨0, 1, 0⟩ ∧ rotateUnitZ q = qRot q ⟨0, 0, 1⟩ ∧
    (M3.fromQuaternion q).mulVec v = qRot q v ∧
    (M34.fromQuaternion q p).mulVec v = add3 (qRot q v) p ∧
    (M4.fromQuaternion q p).mulVec ⟨v.x, v.y, v.z, 1⟩ =
      ⟨(qRot q v).x + p.x, (qRot q v).y + p.y, (qRot q v).z + p.z, 1⟩ := by
  refine ⟨?_, ?_, ?_, ?_, ?_, ?_⟩
  · ext <;> simp only [rotateUnitX, qRot, add3, scale3, cross, V4.vec] <;> ring
  · ext <;> simp only [rotateUnitY, qRot, add3, scale3, cross, V4.vec] <;> ring
  · ext <;> simp only [rotateUnitZ, qRot, add3, scale3, cross, V4.vec] <;> ring
  · ext <;> simp only [M3.fromQuaternion, M3.mulVec, qRot, add3, scale3, cross, V4.vec] <;> ring
  · ext <;> simp only [M34.fromQuaternion, M34.mulVec, qRot, add3, scale3, cross, V4.vec] <;> ring
  · ext <;> simp only [M4.fromQuaternion, M4.mulVec, qRot, add3, scale3, cross, V4.vec] <;> ring

/-- **C78.** The matrix of a quaternion of length one is a rotation matrix. -/
theorem C78_quat_matrix {q : Quat} (hq : Unit4 q) : IsRotation (M3.fromQuaternion q) := by
  have r := C78_quat_rotates hq
  have f := C78_quat_forms q ⟨0, 0, 0⟩ ⟨0, 0, 0⟩
  have e0 : (M3.fromQuaternion q).c0 = qRot q ⟨1, 0, 0⟩ := f.1
  have e1 : (M3.fromQuaternion q).c1 = qRot q ⟨0, 1, 0⟩ := f.2.1
  have e2 : (M3.fromQuaternion q).c2 = qRot q ⟨0, 0, 1⟩ := f.2.2.1
  refine ⟨?_, ?_, ?_, ?_, ?_, ?_, ?_⟩
  · rw [e0, Unit3, r.dot]; simp [dotOf]
  · rw [e1, Unit3, r.dot]; simp [dotOf]
  · rw [e2, Unit3, r.dot]; simp [dotOf]
  · rw [e0, e1, r.dot]; simp [dotOf]
  · rw [e1, e2, r.dot]; simp [dotOf]
  · rw [e2, e0, r.dot]; simp [dotOf]
  · rw [e0, e1, e2, detOf, ← r.cross, r.dot]; simp [dotOf, crossOf]

/-- **C78.** A quaternion and its negative are the same rotation, and no other is. -/
theorem C78_quat_sign {a b : Quat} (ha : Unit4 a) (hb : Unit4 b) :
    (∀ v, qRot a v = qRot b v) ↔ a = b ∨ a = neg4 b := by
  constructor
  · intro h
    have h1 := h ⟨1, 0, 0⟩
    have h2 := h ⟨0, 1, 0⟩
    have h3 := h ⟨0, 0, 1⟩
    rw [qRot_quad ha, qRot_quad hb] at h1 h2 h3
    unfold Unit4 at ha hb
    obtain ⟨x, y, z, w⟩ := a
    obtain ⟨x', y', z', w'⟩ := b
    simp only [quad, V3.mk.injEq, mul_one, mul_zero, add_zero, zero_add, sub_zero, zero_sub] at h1 h2 h3 ha hb
    obtain ⟨a11, a12, a13⟩ := h1
    obtain ⟨a21, a22, a23⟩ := h2
    obtain ⟨a31, a32, a33⟩ := h3
    have exx : x * x = x' * x' := by linear_combination (1/4) * (a11 - a22 - a33 + ha - hb)
    have eyy : y * y = y' * y' := by linear_combination (1/4) * (a22 - a11 - a33 + ha - hb)
    have ezz : z * z = z' * z' := by linear_combination (1/4) * (a33 - a22 - a11 + ha - hb)
    have eww : w * w = w' * w' := by linear_combination (1/4) * (a11 + a22 + a33 + ha - hb)
    have exy : x * y = x' * y' := by linear_combination (1/4) * (a12 + a21)
    have exz : x * z = x' * z' := by linear_combination (1/4) * (a13 + a31)
    have eyz : y * z = y' * z' := by linear_combination (1/4) * (a23 + a32)
    have ewx : w * x = w' * x' := by linear_combination (1/4) * (a23 - a32)
    have ewy : w * y = w' * y' := by linear_combination (1/4) * (a31 - a13)
    have ewz : w * z = w' * z' := by linear_combination (1/4) * (a12 - a21)
    have hd : (x * x' + y * y' + z * z' + w * w') ^ 2 = 1 := by
      have : (x * x' + y * y' + z * z' + w * w') ^ 2 =
          (x * x) * (x' * x') + (y * y) * (y' * y') + (z * z) * (z' * z') + (w * w) * (w' * w') +
          2 * ((x * y) * (x' * y') + (x * z) * (x' * z') + (y * z) * (y' * z') + (w * x) * (w' * x') +
            (w * y) * (w' * y') + (w * z) * (w' * z')) := by ring
      rw [this, exx, eyy, ezz, eww, exy, exz, eyz, ewx, ewy, ewz]
      have : ∀ s : ℝ, s = 1 → s * s = 1 := by rintro s rfl; ring
      have := this _ hb
      linear_combination this
    have hcase : x * x' + y * y' + z * z' + w * w' = 1 ∨ x * x' + y * y' + z * z' + w * w' = -1 := by
      have : (x * x' + y * y' + z * z' + w * w' - 1) * (x * x' + y * y' + z * z' + w * w' + 1) = 0 := by
        linear_combination hd
      rcases mul_eq_zero.1 this with h | h
      · left; linear_combination h
      · right; linear_combination h
    have zero_of : ∀ p q r s : ℝ, p ^ 2 + q ^ 2 + r ^ 2 + s ^ 2 = 0 → p = 0 ∧ q = 0 ∧ r = 0 ∧ s = 0 := by
      intro p q r s h
      have := sq_nonneg p; have := sq_nonneg q; have := sq_nonneg r; have := sq_nonneg s
      refine ⟨pow_eq_zero_iff (two_ne_zero) |>.1 ?_, pow_eq_zero_iff (two_ne_zero) |>.1 ?_,
        pow_eq_zero_iff (two_ne_zero) |>.1 ?_, pow_eq_zero_iff (two_ne_zero) |>.1 ?_⟩ <;> linarith
    rcases hcase with hc | hc
    · left
      obtain ⟨k1, k2, k3, k4⟩ := zero_of (x - x') (y - y') (z - z') (w - w') (by linear_combination ha + hb - 2 * hc)
      ext <;> dsimp only <;> linarith
    · right
      obtain ⟨k1, k2, k3, k4⟩ := zero_of (x + x') (y + y') (z + z') (w + w') (by linear_combination ha + hb + 2 * hc)
      ext <;> simp only [neg4] <;> linarith
  · rintro (rfl | rfl) v
    · rfl
    · ext <;> simp only [qRot, neg4, add3, scale3, cross, V4.vec] <;> ring

end Verif.Xform
