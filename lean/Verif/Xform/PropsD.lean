import Verif.Xform.PropsC
import Verif.Geom.Props
import Mathlib.Tactic.IntervalCases
import Mathlib.Analysis.Calculus.Deriv.Pow
import Mathlib.Analysis.Calculus.Deriv.Mul
import Mathlib.Analysis.Calculus.Deriv.Add

/-!
# C78: movements, directions and curves
-/

noncomputable section

namespace Verif.Xform

open Verif.Geom (V2 V3 dotOf crossOf detOf AxisRot axisCross unit cast3)

/-! ## Rotation and position -/

/-- **C78.** Movements: the product does one after the other, the inverse takes back, on both sides, and the identity
does nothing; a product with a bare rotation is the one with a movement that only rotates. -/
theorem C78_quatpos {a b : QuatPos} (ha : Unit4 a.quat) (hb : Unit4 b.quat) (v p : R3) :
    (a.mul b).mulVec v = a.mulVec (b.mulVec v) ∧ Unit4 (a.mul b).quat ∧
    a.inverted.mulVec (a.mulVec v) = v ∧ a.mulVec (a.inverted.mulVec v) = v ∧ Unit4 a.inverted.quat ∧
    a.mul a.inverted = .identity ∧ a.inverted.mul a = .identity ∧
    QuatPos.identity.mulVec v = v ∧ a.mul .identity = a ∧ QuatPos.identity.mul a = a ∧
    (QuatPos.makeTranslation p).mulVec v = ⟨v.x + p.x, v.y + p.y, v.z + p.z⟩ ∧
    a.mulQuat b.quat = a.mul ⟨b.quat, ⟨0, 0, 0⟩⟩ ∧ qMulQuatPos a.quat b = QuatPos.mul ⟨a.quat, ⟨0, 0, 0⟩⟩ b := by
  obtain ⟨aq, ap⟩ := a
  obtain ⟨bq, bp⟩ := b
  dsimp only at ha hb
  have hr := C78_quat_rotates ha
  have hp := C78_quat_product ha hb
  have hadd : ∀ u w, qRot aq (add3 u w) = add3 (qRot aq u) (qRot aq w) := hr.add
  have hiadd : ∀ u w, qRot (qInverted aq) (add3 u w) = add3 (qRot (qInverted aq) u) (qRot (qInverted aq) w) :=
    (C78_quat_rotates (unit_inv ha)).add
  have hneg : ∀ q u, qRot q (neg3 u) = neg3 (qRot q u) := by
    intro q u; ext <;> simp only [qRot, neg3, add3, scale3, cross, V4.vec] <;> ring
  have hz : ∀ q, qRot q ⟨0, 0, 0⟩ = ⟨0, 0, 0⟩ := by
    intro q; ext <;> simp [qRot, add3, scale3, cross, V4.vec]
  have inv := fun u => C78_quat_inverse ha aq aq u
  have hid : ∀ u, qRot ⟨0, 0, 0, 1⟩ u = u := fun u => (inv u).2.2.1
  refine ⟨?_, hp.1, ?_, ?_, unit_inv ha, ?_, ?_, ?_, ?_, ?_, ?_, ?_, ?_⟩
  · simp only [QuatPos.mul, QuatPos.mulVec, hp.2, hadd]
    ext <;> simp only [add3] <;> ring
  · simp only [QuatPos.inverted, QuatPos.mulVec, hiadd, hneg, (inv v).2.2.2.2.2.2.2.2.1]
    ext <;> simp only [add3, neg3] <;> ring
  · simp only [QuatPos.inverted, QuatPos.mulVec, hadd, hneg, (inv v).2.2.2.2.2.2.2.2.2, (inv ap).2.2.2.2.2.2.2.2.2]
    ext <;> simp only [add3, neg3] <;> ring
  · simp only [QuatPos.mul, QuatPos.inverted, hneg, (inv ap).2.2.2.2.2.2.2.2.2, (inv ap).2.2.2.2.2.2.1]
    simp [QuatPos.identity, qIdentity, add3, neg3]
  · simp only [QuatPos.mul, QuatPos.inverted, hneg, (inv ap).2.2.2.2.2.2.2.1]
    simp [QuatPos.identity, qIdentity, add3, neg3]
  · simp only [QuatPos.identity, QuatPos.mulVec, hid]
    ext <;> simp [add3]
  · simp only [QuatPos.identity, QuatPos.mul, hz]
    rw [show qMul aq ⟨0, 0, 0, 1⟩ = aq from (inv v).2.2.2.1]
    simp [add3]
  · simp only [QuatPos.identity, QuatPos.mul, hid]
    rw [show qMul ⟨0, 0, 0, 1⟩ aq = aq from (inv v).2.2.2.2.1]
    simp [add3]
  · simp only [QuatPos.makeTranslation, QuatPos.mulVec, hid]; rfl
  · simp only [QuatPos.mulQuat, QuatPos.mul, hz]
    simp [add3]
  · simp only [qMulQuatPos, QuatPos.mul]
    simp [add3]

/-- **C78.** The matrices of movements: they move points alike and the product of the matrices is the matrix of the
product. -/
theorem C78_quatpos_matrix {a b : QuatPos} (ha : Unit4 a.quat) (hb : Unit4 b.quat) (v : R3) :
    (M34.fromQuaternion a.quat a.pos).mulVec v = a.mulVec v ∧
    (M34.fromQuaternion a.quat a.pos).mul (M34.fromQuaternion b.quat b.pos) =
      M34.fromQuaternion (a.mul b).quat (a.mul b).pos ∧
    (M34.fromQuaternion a.quat a.pos).toM4 = M4.fromQuaternion a.quat a.pos := by
  refine ⟨(C78_quat_forms a.quat a.pos v).2.2.2.2.1, ?_, rfl⟩
  obtain ⟨fx, fy, fz, -⟩ := C78_quat_forms b.quat b.pos v
  have hp := (C78_quat_product ha hb).2
  obtain ⟨gx, gy, gz, -⟩ := C78_quat_forms (qMul a.quat b.quat) b.pos v
  have e : ∀ q p, M34.fromQuaternion q p = ⟨rotateUnitX q, rotateUnitY q, rotateUnitZ q, p⟩ := fun _ _ => rfl
  have e3 : ∀ u, (M34.fromQuaternion a.quat a.pos).as3.mulVec u = qRot a.quat u :=
    fun u => (C78_quat_forms a.quat a.pos u).2.2.2.1
  unfold M34.mul
  rw [e3, e3, e3, (C78_quat_forms a.quat a.pos _).2.2.2.2.1]
  rw [e b.quat, e (a.mul b).quat]
  simp only [QuatPos.mul]
  rw [fx, fy, fz, gx, gy, gz, hp, hp, hp]

/-- **C78.** Between two movements: at 0 the first, at 1 the second, always a movement. -/
theorem C78_quatpos_mix {a b : QuatPos} (ha : Unit4 a.quat) (hb : Unit4 b.quat) (v : R3) :
    (QuatPos.mix a b 0).mulVec v = a.mulVec v ∧ (QuatPos.mix a b 1).mulVec v = b.mulVec v ∧
    ∀ f, 0 ≤ f → f ≤ 1 → Unit4 (QuatPos.mix a b f).quat := by
  obtain ⟨h1, h2, h3⟩ := C78_mix ha hb
  refine ⟨?_, ?_, h1⟩
  · simp only [QuatPos.mix, QuatPos.mulVec, h2]
    ext <;> simp [add3, mix3, scale3]
  · simp only [QuatPos.mix, QuatPos.mulVec, h3]
    ext <;> simp [add3, mix3, scale3]

example : Unit4 (QuatPos.mk ⟨0, 3 / 5, 0, 4 / 5⟩ ⟨1, 2, 3⟩).quat := by norm_num [Unit4]

/-- **C78 fails for a movement made from a rotation alone**: its position is what was in memory. -/
theorem C78_quatpos_wrong : ∃ memory q v, Unit4 q ∧ (QuatPos.ofQuat memory q).mulVec v ≠ qRot q v := by
  refine ⟨⟨1, 0, 0⟩, qIdentity, ⟨0, 0, 0⟩, by simp [Unit4, qIdentity], ?_⟩
  simp [QuatPos.ofQuat, QuatPos.mulVec, qIdentity, qRot, add3, scale3, cross, V4.vec]

/-- **C78.** With a scale: first scaled, then rotated, then moved; both matrices do the same, and a movement before
it is done after it. -/
theorem C78_quatposscale {a : QuatPos} {b : QuatPosScale} (ha : Unit4 a.quat) (hb : Unit4 b.quat) (v s : R3) :
    b.mulVec v = QuatPos.mulVec ⟨b.quat, b.pos⟩ ⟨b.scale.x * v.x, b.scale.y * v.y, b.scale.z * v.z⟩ ∧
    b.toM34.mulVec v = b.mulVec v ∧
    b.toM4.mulVec ⟨v.x, v.y, v.z, 1⟩ = ⟨(b.mulVec v).x, (b.mulVec v).y, (b.mulVec v).z, 1⟩ ∧
    (QuatPosScale.after a b).mulVec v = a.mulVec (b.mulVec v) ∧
    QuatPosScale.identity.mulVec v = v ∧
    (QuatPosScale.makeTranslation s).mulVec v = ⟨v.x + s.x, v.y + s.y, v.z + s.z⟩ ∧
    (QuatPosScale.makeScale s).mulVec v = ⟨s.x * v.x, s.y * v.y, s.z * v.z⟩ := by
  refine ⟨?_, ?_, ?_, ?_, ?_, ?_, ?_⟩
  · simp only [QuatPosScale.mulVec, QuatPos.mulVec, times3, mul_comm]
  · ext <;> simp only [QuatPosScale.toM34, QuatPosScale.mulVec, M34.mulVec, M34.mul, M34.as3, M3.mulVec,
      M34.fromQuaternion, M34.makeScale, qRot, times3, add3, scale3, cross, V4.vec] <;> ring
  · ext <;> simp only [QuatPosScale.toM4, QuatPosScale.mulVec, M4.mulVec, M4.mul, M4.fromQuaternion, M4.makeScale,
      qRot, times3, add3, scale3, cross, V4.vec] <;> ring
  · have h := (C78_quatpos (a := a) (b := ⟨b.quat, b.pos⟩) ha hb (times3 v b.scale) s).1
    exact h
  · ext <;> simp [QuatPosScale.identity, QuatPosScale.mulVec, qIdentity, qRot, times3, add3, scale3, cross, V4.vec]
  · ext <;> simp [QuatPosScale.makeTranslation, QuatPosScale.mulVec, qRot, times3, add3, scale3, cross, V4.vec]
  · ext <;> simp [QuatPosScale.makeScale, QuatPosScale.mulVec, qRot, times3, add3, scale3, cross, V4.vec, mul_comm]

example : QuatPosScale.mulVec ⟨⟨0, 0, 1, 0⟩, ⟨1, 2, 3⟩, ⟨2, 3, 4⟩⟩ ⟨1, 1, 1⟩ = ⟨-1, -1, 7⟩ := by
  ext <;> norm_num [QuatPosScale.mulVec, qRot, times3, add3, scale3, cross, V4.vec]

/-- **C78.** Scaling and moving in the plane: products, inverse, identity, and the map of the unit square to a
rectangle. -/
theorem C78_scalepos {a b : ScalePos2} (v : R2) (r : Rect) (hx : a.scale.x ≠ 0) (hy : a.scale.y ≠ 0) :
    (a.mul b).mulVec v = a.mulVec (b.mulVec v) ∧
    a.inverted.mulVec (a.mulVec v) = v ∧ a.mulVec (a.inverted.mulVec v) = v ∧
    a.mul a.inverted = .identity ∧ a.inverted.mul a = .identity ∧
    ScalePos2.identity.mulVec v = v ∧ (ScalePos2.makeScale b.scale).mulVec v = ⟨b.scale.x * v.x, b.scale.y * v.y⟩ ∧
    (ScalePos2.mapToRect r).mulVec v = ⟨between r.mins.x r.maxs.x v.x, between r.mins.y r.maxs.y v.y⟩ ∧
    (ScalePos2.mapToRect r).mulRect ⟨⟨0, 0⟩, ⟨1, 1⟩⟩ = r := by
  refine ⟨?_, ?_, ?_, ?_, ?_, ?_, ?_, ?_, ?_⟩
  · ext <;> simp only [ScalePos2.mul, ScalePos2.mulVec] <;> ring
  · ext <;> simp only [ScalePos2.inverted, ScalePos2.mulVec] <;> field_simp <;> ring
  · ext <;> simp only [ScalePos2.inverted, ScalePos2.mulVec] <;> field_simp <;> ring
  · ext <;> simp only [ScalePos2.inverted, ScalePos2.mul, ScalePos2.identity] <;> field_simp <;> ring
  · ext <;> simp only [ScalePos2.inverted, ScalePos2.mul, ScalePos2.identity] <;> field_simp <;> ring
  · ext <;> simp [ScalePos2.identity, ScalePos2.mulVec]
  · ext <;> simp [ScalePos2.makeScale, ScalePos2.mulVec]
  · ext <;> simp only [ScalePos2.mapToRect, ScalePos2.mulVec, between] <;> ring
  · obtain ⟨⟨x0, y0⟩, ⟨x1, y1⟩⟩ := r
    simp [ScalePos2.mapToRect, ScalePos2.mulRect, ScalePos2.mulVec]

example : (ScalePos2.mapToRect ⟨⟨1, 2⟩, ⟨5, 8⟩⟩).mulVec ⟨1 / 2, 1⟩ = ⟨3, 8⟩ := by
  ext <;> norm_num [ScalePos2.mapToRect, ScalePos2.mulVec]

/-- **C78 fails for translations in the plane**: `makeTranslation` has the scale 0 and takes every point to the same
one. -/
theorem C78_scalepos_wrong (p v : R2) : (ScalePos2.makeTranslation p).mulVec v = p ∧
    ∃ p v : R2, (ScalePos2.makeTranslation p).mulVec v ≠ ⟨v.x + p.x, v.y + p.y⟩ := by
  refine ⟨by ext <;> simp [ScalePos2.makeTranslation, ScalePos2.mulVec], ⟨0, 0⟩, ⟨1, 0⟩, ?_⟩
  simp [ScalePos2.makeTranslation, ScalePos2.mulVec]

/-! ## Directions -/

theorem rotation_dot {m : M3} (h : IsRotation m) (u v : R3) : dotOf (m.mulVec u) (m.mulVec v) = dotOf u v := by
  obtain ⟨u0, u1, u2, p01, p12, p20, -⟩ := h
  simp only [Unit3, dotOf, M3.mulVec] at *
  linear_combination u.x * v.x * u0 + u.y * v.y * u1 + u.z * v.z * u2 + (u.x * v.y + u.y * v.x) * p01 +
    (u.y * v.z + u.z * v.y) * p12 + (u.z * v.x + u.x * v.z) * p20

theorem det_mul (m : M3) (u v w : R3) :
    detOf (m.mulVec u) (m.mulVec v) (m.mulVec w) = detOf m.c0 m.c1 m.c2 * detOf u v w := by
  simp only [detOf, dotOf, crossOf, M3.mulVec]; ring

/-- **C78.** The product of rotation matrices is one. -/
theorem C78_matrix_rotations {a b : M3} (ha : IsRotation a) (hb : IsRotation b) : IsRotation (a.mul b) := by
  obtain ⟨u0, u1, u2, p01, p12, p20, d⟩ := hb
  refine ⟨?_, ?_, ?_, ?_, ?_, ?_, ?_⟩ <;> simp only [M3.mul, Unit3, rotation_dot ha, det_mul]
  · exact u0
  · exact u1
  · exact u2
  · exact p01
  · exact p12
  · exact p20
  · rw [ha.det, d, one_mul]

/-- **C78.** `anyPerp` gives a vector perpendicular to a vector of length one, and not zero. -/
theorem C78_any_perp {u : R3} (hu : Unit3 u) : dotOf u (anyPerp u) = 0 ∧ 0.1 ≤ dotOf (anyPerp u) (anyPerp u) := by
  unfold Unit3 dotOf at hu
  unfold anyPerp notCollinear
  by_cases h : u.z * u.z < 0.9
  · rw [if_pos h]
    refine ⟨by simp only [dotOf, cross]; ring, ?_⟩
    simp only [dotOf, cross]
    norm_num at h ⊢
    linarith
  · rw [if_neg h]
    refine ⟨by simp only [dotOf, cross]; ring, ?_⟩
    simp only [dotOf, cross]
    norm_num at h ⊢
    nlinarith [mul_self_nonneg u.x]

/-- The length of the vector product with a vector that is not parallel. -/
theorem frame {f r : R3} {l : ℝ} (hf : Unit3 f) (hr : dotOf r f = 0) (hl : dotOf r r = l) (h0 : 0 < l) :
    IsRotation ⟨⟨r.x / √l, r.y / √l, r.z / √l⟩, f, cross ⟨r.x / √l, r.y / √l, r.z / √l⟩ f⟩ := by
  obtain ⟨s0, s1⟩ := sqrt_pos_of h0
  have e : √l ≠ 0 := s0.ne'
  have hu : Unit3 (⟨r.x / √l, r.y / √l, r.z / √l⟩ : R3) := by
    simp only [Unit3, dotOf] at *
    field_simp
    linear_combination hl - s1
  have hp : dotOf (⟨r.x / √l, r.y / √l, r.z / √l⟩ : R3) f = 0 := by
    simp only [dotOf] at *
    field_simp
    linear_combination hr
  generalize (⟨r.x / √l, r.y / √l, r.z / √l⟩ : R3) = u at *
  simp only [Unit3, dotOf] at hu hf hp
  refine ⟨?_, ?_, ?_, ?_, ?_, ?_, ?_⟩ <;> simp only [Unit3, dotOf, detOf, crossOf, cross]
  · exact hu
  · exact hf
  · linear_combination (f.x * f.x + f.y * f.y + f.z * f.z) * hu + hf -
      (u.x * f.x + u.y * f.y + u.z * f.z) * hp
  · exact hp
  · ring
  · ring
  · linear_combination (f.x * f.x + f.y * f.y + f.z * f.z) * hu + hf -
      (u.x * f.x + u.y * f.y + u.z * f.z) * hp

theorem basis_rotation {fwd : R3} (hf : Unit3 fwd) (up : R3) :
    IsRotation (basisOf fwd up) ∧ (basisOf fwd up).c1 = fwd ∧
    (1e-6 ≤ length2 (cross fwd up) → 0 < dotOf up (basisOf fwd up).c2 ∧ dotOf up (basisOf fwd up).c0 = 0) := by
  refine ⟨?_, rfl, ?_⟩
  · unfold basisOf
    dsimp only
    by_cases h : length2 (cross fwd up) < 1e-6
    · rw [if_pos h, if_pos h]
      have h1 := (C78_any_perp hf).2
      refine frame hf ?_ ?_ ?_
      · simp only [dotOf, cross]; ring
      · rfl
      · refine lt_of_lt_of_le ?_ h1
        norm_num
    · rw [if_neg h, if_neg h]
      refine frame hf ?_ rfl ?_
      · simp only [dotOf, cross]; ring
      · refine lt_of_lt_of_le ?_ (not_lt.1 h)
        norm_num
  · intro h
    have h' : ¬ length2 (cross fwd up) < 1e-6 := not_lt.2 h
    have h0 : 0 < length2 (cross fwd up) := lt_of_lt_of_le (by norm_num) h
    obtain ⟨s0, s1⟩ := sqrt_pos_of h0
    have e := s0.ne'
    unfold basisOf
    dsimp only
    rw [if_neg h', if_neg h']
    constructor
    · have : dotOf up (cross ⟨(cross fwd up).x / √(length2 (cross fwd up)), (cross fwd up).y / √(length2 (cross fwd up)),
          (cross fwd up).z / √(length2 (cross fwd up))⟩ fwd) = length2 (cross fwd up) / √(length2 (cross fwd up)) := by
        rw [eq_div_iff e]
        generalize √(length2 (cross fwd up)) = s at *
        simp only [dotOf, cross, length2]
        field_simp
        ring
      rw [this]
      exact div_pos h0 s0
    · generalize √(length2 (cross fwd up)) = s at *
      simp only [dotOf, cross]
      field_simp
      ring

/-- The matrix back from the axes `fwdFrom` and `upFrom`. -/
theorem axis_matrix : ∀ f < 6, ∀ u < 6, dotOf (unit f) (unit u) = 0 → ∃ x r,
    axisCross f u = some x ∧ (AxisRot.mk x f u).inverted = some r ∧ ∃ n : V3 (V3 ℝ), r.toMat = some n ∧
    IsRotation ⟨n.x, n.y, n.z⟩ ∧ M3.mulVec ⟨n.x, n.y, n.z⟩ (cast3 ℝ (unit f)) = ⟨0, 1, 0⟩ ∧
    M3.mulVec ⟨n.x, n.y, n.z⟩ (cast3 ℝ (unit u)) = ⟨0, 0, 1⟩ := by
  intro f hf u hu h
  interval_cases f <;> interval_cases u <;>
    first
    | exact absurd h (by decide)
    | (refine ⟨_, _, rfl, rfl, _, rfl, ?_, ?_, ?_⟩
       · refine ⟨?_, ?_, ?_, ?_, ?_, ?_, ?_⟩ <;> norm_num [Unit3, dotOf, detOf, crossOf]
       · ext <;> norm_num [M3.mulVec, cast3, unit]
       · ext <;> norm_num [M3.mulVec, cast3, unit])

theorem mul_vec (a b : M3) (v : R3) : (a.mul b).mulVec v = a.mulVec (b.mulVec v) := by
  ext <;> simp only [M3.mul, M3.mulVec] <;> ring

/-- **C78.** `makeBasis`: for a forward direction of length one and two perpendicular axes the assertions hold and the
result is a rotation that takes the first axis to the forward direction.  If the wanted upward direction is not nearly
parallel to it, the second axis is taken to its side, in the plane of both. -/
theorem C78_make_basis {fwd : R3} (hf : Unit3 fwd) (up : R3) {f u : Nat} (h1 : f < 6) (h2 : u < 6)
    (hfu : dotOf (unit f) (unit u) = 0) :
    ∃ m, makeBasis fwd up f u = some m ∧ IsRotation m ∧ m.mulVec (cast3 ℝ (unit f)) = fwd ∧
      (1e-6 ≤ length2 (cross fwd up) →
        0 < dotOf up (m.mulVec (cast3 ℝ (unit u))) ∧
        detOf fwd up (m.mulVec (cast3 ℝ (unit u))) = 0) := by
  obtain ⟨hb, hc, hu⟩ := basis_rotation hf up
  obtain ⟨x, r, e1, e2, n, e3, hn, n1, n2⟩ := axis_matrix f h1 u h2 hfu
  have hlen : length (basisOf fwd up).c2 = 1 := by
    have := hb.u2
    unfold length
    rw [show length2 (basisOf fwd up).c2 = 1 from this]
    exact Real.sqrt_one
  refine ⟨(basisOf fwd up).mul ⟨n.x, n.y, n.z⟩, ?_, C78_matrix_rotations hb hn, ?_, ?_⟩
  · unfold makeBasis
    dsimp only
    rw [if_pos (by rw [hlen]; norm_num), e1]
    simp only [Option.bind_eq_bind, Option.bind_some, e2, e3]
  · rw [mul_vec, n1]
    conv_rhs => rw [← hc]
    ext <;> simp [M3.mulVec]
  · intro h
    have e : (M3.mul (basisOf fwd up) ⟨n.x, n.y, n.z⟩).mulVec (cast3 ℝ (unit u)) = (basisOf fwd up).c2 := by
      rw [mul_vec, n2]; ext <;> simp [M3.mulVec]
    rw [e]
    refine ⟨(hu h).1, ?_⟩
    have hz := (hu h).2
    have k : (basisOf fwd up).c2 = cross (basisOf fwd up).c0 fwd := rfl
    have k2 : dotOf (basisOf fwd up).c0 fwd = 0 := by rw [← hc]; exact hb.p01
    rw [k]
    generalize (basisOf fwd up).c0 = w at *
    simp only [dotOf, detOf, crossOf, cross, Unit3] at *
    linear_combination (fwd.x * up.x + fwd.y * up.y + fwd.z * up.z) * k2 - (fwd.x ^ 2 + fwd.y ^ 2 + fwd.z ^ 2) * hz

example : ∃ fwd up : R3, Unit3 fwd ∧ 1e-6 ≤ length2 (cross fwd up) ∧ dotOf (unit 2) (unit 4) = 0 :=
  ⟨⟨0, 1, 0⟩, ⟨0, 3, 4⟩, by norm_num [Unit3, dotOf], by norm_num [length2, cross], by decide⟩

/-- **C78.** `makeBasis` with one direction only. -/
theorem C78_make_basis_one {fwd : R3} (hf : Unit3 fwd) {f : Nat} (h1 : f < 6) :
    ∃ m, makeBasis1 fwd f = some m ∧ IsRotation m ∧ m.mulVec (cast3 ℝ (unit f)) = fwd := by
  have : ∀ f < 6, f + 2 - (if f + 2 ≥ 6 then 6 else 0) < 6 ∧
      dotOf (unit f) (unit (f + 2 - (if f + 2 ≥ 6 then 6 else 0))) = 0 := by decide
  obtain ⟨m, e1, e2, e3, -⟩ := C78_make_basis hf (notCollinear fwd) h1 (this f h1).1 (this f h1).2
  exact ⟨m, e1, e2, e3⟩

/-- **C78.** `lookAt` a direction that is not vertical: a rotation that takes the direction to the negative z axis and
the vertical to the upper half of the y-z plane. -/
theorem C78_look_at {d : R3} (h : d.x ≠ 0 ∨ d.y ≠ 0) :
    IsRotation (lookAt d).to3 ∧ (lookAt d) = (M34.of3 (lookAt d).to3 ⟨0, 0, 0⟩).toM4 ∧
    (lookAt d).to3.mulVec d = ⟨0, 0, -length d⟩ ∧
    ((lookAt d).to3.mulVec ⟨0, 0, 1⟩).x = 0 ∧ 0 < ((lookAt d).to3.mulVec ⟨0, 0, 1⟩).y := by
  have hxy : 0 < d.x * d.x + d.y * d.y := by
    rcases h with h | h
    · have := mul_self_pos.2 h; nlinarith [mul_self_nonneg d.y]
    · have := mul_self_pos.2 h; nlinarith [mul_self_nonneg d.x]
  have hl : 0 < length2 d := by unfold length2; nlinarith [mul_self_nonneg d.z]
  obtain ⟨s0, s1⟩ := sqrt_pos_of hl
  have e := s0.ne'
  have hd : d = scale3 (normalized3 d) (length d) := by
    ext <;> simp only [scale3, normalized3, length] <;> field_simp
  have hf : Unit3 (normalized3 d) := by
    simp only [Unit3, dotOf, normalized3, length] at *
    have s2 : √(length2 d) * √(length2 d) = d.x * d.x + d.y * d.y + d.z * d.z := s1
    field_simp
    linear_combination -s2
  have hr : 0 < length2 (cross (normalized3 d) ⟨0, 0, 1⟩) := by
    have : length2 (cross (normalized3 d) ⟨0, 0, 1⟩) = (d.x * d.x + d.y * d.y) / (length d * length d) := by
      simp only [length2, cross, normalized3]
      have : length d ≠ 0 := e
      field_simp
      ring
    rw [this]
    exact div_pos hxy (mul_pos s0 s0)
  have fr := frame (r := cross (normalized3 d) ⟨0, 0, 1⟩) hf (by simp only [dotOf, cross]; ring) rfl hr
  obtain ⟨t0, t1⟩ := sqrt_pos_of hr
  have hlook : lookAt d = (M4.mk
      ⟨(normalized3 (cross (normalized3 d) ⟨0, 0, 1⟩)).x, (normalized3 (cross (normalized3 d) ⟨0, 0, 1⟩)).y,
        (normalized3 (cross (normalized3 d) ⟨0, 0, 1⟩)).z, 0⟩
      ⟨(cross (normalized3 (cross (normalized3 d) ⟨0, 0, 1⟩)) (normalized3 d)).x,
        (cross (normalized3 (cross (normalized3 d) ⟨0, 0, 1⟩)) (normalized3 d)).y,
        (cross (normalized3 (cross (normalized3 d) ⟨0, 0, 1⟩)) (normalized3 d)).z, 0⟩
      ⟨-(normalized3 d).x, -(normalized3 d).y, -(normalized3 d).z, 0⟩ ⟨0, 0, 0, 1⟩).transposed := rfl
  have hrz : (normalized3 (cross (normalized3 d) ⟨0, 0, 1⟩)).z = 0 := by
    simp [normalized3, cross]
  have hru : 0 < (cross (normalized3 (cross (normalized3 d) ⟨0, 0, 1⟩)) (normalized3 d)).z := by
    have : (cross (normalized3 (cross (normalized3 d) ⟨0, 0, 1⟩)) (normalized3 d)).z =
        length2 (cross (normalized3 d) ⟨0, 0, 1⟩) / length (cross (normalized3 d) ⟨0, 0, 1⟩) := by
      have e2 : length (cross (normalized3 d) ⟨0, 0, 1⟩) ≠ 0 := t0.ne'
      rw [eq_div_iff e2]
      rw [show normalized3 (cross (normalized3 d) ⟨0, 0, 1⟩) =
        ⟨(cross (normalized3 d) ⟨0, 0, 1⟩).x / length (cross (normalized3 d) ⟨0, 0, 1⟩),
         (cross (normalized3 d) ⟨0, 0, 1⟩).y / length (cross (normalized3 d) ⟨0, 0, 1⟩),
         (cross (normalized3 d) ⟨0, 0, 1⟩).z / length (cross (normalized3 d) ⟨0, 0, 1⟩)⟩ from rfl]
      generalize length (cross (normalized3 d) ⟨0, 0, 1⟩) = s at *
      generalize normalized3 d = f at *
      simp only [cross, length2]
      field_simp
      ring
    rw [this]
    exact div_pos hr t0
  change IsRotation ⟨normalized3 (cross (normalized3 d) ⟨0, 0, 1⟩), normalized3 d,
    cross (normalized3 (cross (normalized3 d) ⟨0, 0, 1⟩)) (normalized3 d)⟩ at fr
  generalize normalized3 (cross (normalized3 d) ⟨0, 0, 1⟩) = r at *
  generalize normalized3 d = f at *
  generalize length d = l at *
  obtain ⟨u0, u1, u2, p01, p12, p20, dt⟩ := fr
  have hR : IsRotation ⟨r, cross r f, neg3 f⟩ := by
    refine ⟨u0, u2, ?_, ?_, ?_, ?_, ?_⟩ <;> simp only [Unit3, dotOf, detOf, crossOf, cross, neg3] at *
    · linear_combination u1
    · linear_combination p20
    · linear_combination -p12
    · linear_combination -p01
    · linear_combination dt
  have e3 : (lookAt d).to3 = (M3.mk r (cross r f) (neg3 f)).transposed := by rw [hlook]; rfl
  refine ⟨?_, ?_, ?_, ?_, ?_⟩
  · rw [e3]; exact (C78_matrix_transpose hR).2.2
  · rw [hlook]; rfl
  · rw [e3, hd]
    simp only [Unit3, dotOf] at u1 p01 p12
    ext <;> simp only [M3.transposed, M3.mulVec, scale3, cross, neg3] at *
    · linear_combination l * p01
    · linear_combination l * p12
    · linear_combination -l * u1
  · rw [e3]; simpa [M3.transposed, M3.mulVec] using hrz
  · rw [e3]; simpa [M3.transposed, M3.mulVec] using hru

example : (⟨3, 4, 5⟩ : R3).x ≠ 0 ∨ (⟨3, 4, 5⟩ : R3).y ≠ 0 := by norm_num

/-- **C78 fails for vertical directions**: the code divides zero by zero. -/
theorem C78_look_at_wrong : length (cross (normalized3 ⟨0, 0, 1⟩) ⟨0, 0, 1⟩) = 0 := by
  simp [normalized3, length, length2, cross]

/-- **C78.** `approach` goes straight towards the target by the step, but not beyond it. -/
theorem C78_approach {a b : R3} (h : a ≠ b) {step : ℝ} (hs : 0 ≤ step) :
    length (sub3 (approach a b step) a) = min step (length (sub3 b a)) ∧
    length (sub3 b (approach a b step)) = length (sub3 b a) - min step (length (sub3 b a)) ∧
    ∃ f, 0 ≤ f ∧ f ≤ 1 ∧
      approach a b step = ⟨between a.x b.x f, between a.y b.y f, between a.z b.z f⟩ := by
  have hl2 : 0 < length2 (sub3 b a) := by
    by_contra hn
    apply h
    simp only [length2, sub3] at hn
    have h1 := mul_self_nonneg (b.x - a.x)
    have h2 := mul_self_nonneg (b.y - a.y)
    have h3 := mul_self_nonneg (b.z - a.z)
    have k1 := mul_self_eq_zero.1 (show (b.x - a.x) * (b.x - a.x) = 0 by linarith)
    have k2 := mul_self_eq_zero.1 (show (b.y - a.y) * (b.y - a.y) = 0 by linarith)
    have k3 := mul_self_eq_zero.1 (show (b.z - a.z) * (b.z - a.z) = 0 by linarith)
    ext <;> linarith
  obtain ⟨s0, s1⟩ := sqrt_pos_of hl2
  have hscale : ∀ (v : R3) (k : ℝ), 0 ≤ k → length (scale3 v k) = k * length v := by
    intro v k hk
    unfold length
    rw [show length2 (scale3 v k) = k * k * length2 v by simp only [length2, scale3]; ring,
      Real.sqrt_mul (mul_self_nonneg k), Real.sqrt_mul_self hk]
  have key : ∃ f, 0 ≤ f ∧ f ≤ 1 ∧ f * length (sub3 b a) = min step (length (sub3 b a)) ∧
      approach a b step = ⟨between a.x b.x f, between a.y b.y f, between a.z b.z f⟩ := by
    unfold approach
    dsimp only
    by_cases hlt : length (sub3 b a) < step
    · rw [if_pos hlt]
      refine ⟨1, by norm_num, le_refl _, ?_, ?_⟩
      · rw [min_eq_right hlt.le, one_mul]
      · ext <;> simp only [between] <;> ring
    · rw [if_neg hlt]
      have hle := not_lt.1 hlt
      have hne : length (sub3 b a) ≠ 0 := s0.ne'
      refine ⟨step / length (sub3 b a), div_nonneg hs s0.le, (div_le_one s0).2 hle, ?_, ?_⟩
      · rw [min_eq_left hle, div_mul_cancel₀ _ hne]
      · ext <;> simp only [add3, scale3, sub3, between] <;> ring
  obtain ⟨f, f0, f1, hf, he⟩ := key
  refine ⟨?_, ?_, f, f0, f1, he⟩
  · rw [← hf, he, ← hscale _ _ f0]
    congr 1
    ext <;> simp only [sub3, scale3, between] <;> ring
  · rw [← hf, he, show length (sub3 b a) - f * length (sub3 b a) = (1 - f) * length (sub3 b a) by ring,
      ← hscale _ _ (by linarith)]
    congr 1
    ext <;> simp only [sub3, scale3, between] <;> ring

example : (⟨0, 0, 0⟩ : R3) ≠ ⟨3, 4, 0⟩ ∧ (0 : ℝ) ≤ 2 := by norm_num

/-! ## Curves -/

/-- **C78.** The cubic curve begins at the first point and ends at the last, is the threefold interpolation between its
points, and reversed it is the curve of the reversed points. -/
theorem C78_cubic (a b c d t : ℝ) :
    interpolateCubic a b c d 0 = a ∧ interpolateCubic a b c d 1 = d ∧
    interpolateCubic a b c d t = between (between (between a b t) (between b c t) t)
      (between (between b c t) (between c d t) t) t ∧
    interpolateCubic a b c d (1 - t) = interpolateCubic d c b a t := by
  refine ⟨by simp [interpolateCubic], by simp [interpolateCubic], ?_, ?_⟩ <;>
    simp only [interpolateCubic, between] <;> ring

/-- **C78.** The curve does not leave the range of its points. -/
theorem C78_cubic_range {a b c d t lo hi : ℝ} (h0 : 0 ≤ t) (h1 : t ≤ 1) (ha : lo ≤ a ∧ a ≤ hi) (hb : lo ≤ b ∧ b ≤ hi)
    (hc : lo ≤ c ∧ c ≤ hi) (hd : lo ≤ d ∧ d ≤ hi) :
    lo ≤ interpolateCubic a b c d t ∧ interpolateCubic a b c d t ≤ hi := by
  have key : ∀ x y : ℝ, lo ≤ x ∧ x ≤ hi → lo ≤ y ∧ y ≤ hi → lo ≤ between x y t ∧ between x y t ≤ hi := by
    intro x y hx hy
    unfold between
    constructor <;> nlinarith
  rw [(C78_cubic a b c d t).2.2.1]
  exact key _ _ (key _ _ (key _ _ ha hb) (key _ _ hb hc)) (key _ _ (key _ _ hb hc) (key _ _ hc hd))

example : interpolateCubic 0 0 1 1 (1 / 2) = 1 / 2 := by norm_num [interpolateCubic]

theorem cubic_deriv (a b c d t : ℝ) :
    HasDerivAt (interpolateCubic a b c d) (3 * derivativeCubic a b c d t) t := by
  have e : interpolateCubic a b c d = fun t => a + (3 * (b - a)) * t + (3 * (a - 2 * b + c)) * t ^ 2 +
      (d - 3 * c + 3 * b - a) * t ^ 3 := by
    funext t; simp only [interpolateCubic]; ring
  rw [e]
  have h1 := (hasDerivAt_id t).const_mul (3 * (b - a))
  have h2 := (hasDerivAt_pow 2 t).const_mul (3 * (a - 2 * b + c))
  have h3 := (hasDerivAt_pow 3 t).const_mul (d - 3 * c + 3 * b - a)
  have h := ((h1.const_add a).add h2).add h3
  have e2 : 3 * derivativeCubic a b c d t = 3 * (b - a) * 1 + 3 * (a - 2 * b + c) * ((2 : ℕ) * t ^ (2 - 1)) +
      (d - 3 * c + 3 * b - a) * ((3 : ℕ) * t ^ (3 - 1)) := by
    simp only [derivativeCubic, mix]; push_cast; ring
  rw [e2]
  exact h

/-- **C78.** `derivativeCubic` has the direction of the curve, but a third of the speed. -/
theorem C78_cubic_derivative_partial (a b c d t : ℝ) :
    HasDerivAt (interpolateCubic a b c d) (3 * derivativeCubic a b c d t) t := cubic_deriv a b c d t

/-- **C78 fails for the derivative itself**: wherever the curve moves, `derivativeCubic` is not its derivative. -/
theorem C78_cubic_derivative_wrong {a b c d t : ℝ} (h : derivativeCubic a b c d t ≠ 0) :
    ¬ HasDerivAt (interpolateCubic a b c d) (derivativeCubic a b c d t) t := by
  intro h2
  have := h2.unique (cubic_deriv a b c d t)
  apply h
  linarith

example : derivativeCubic 0 1 2 3 (1 / 2) ≠ 0 := by norm_num [derivativeCubic, mix]

/-- **C78.** The simple cubic goes from 0 to 1, without speed at both ends, symmetrically, and never backwards. -/
theorem C78_simple_cubic (t : ℝ) :
    applySimpleCubic 0 = 0 ∧ applySimpleCubic 1 = 1 ∧ applySimpleCubic (1 - t) = 1 - applySimpleCubic t ∧
    applySimpleCubic t = interpolateCubic 0 0 1 1 t ∧
    HasDerivAt applySimpleCubic 0 0 ∧ HasDerivAt applySimpleCubic 0 1 ∧
    ∀ s u, 0 ≤ s → s < u → u ≤ 1 → applySimpleCubic s < applySimpleCubic u := by
  have e : applySimpleCubic = interpolateCubic 0 0 1 1 := by
    funext t; simp only [applySimpleCubic, interpolateCubic]; ring
  refine ⟨by norm_num [applySimpleCubic], by norm_num [applySimpleCubic], ?_, by rw [e], ?_, ?_, ?_⟩
  · simp only [applySimpleCubic]; ring
  · have := cubic_deriv 0 0 1 1 0
    rw [e]
    simpa [derivativeCubic, mix] using this
  · have := cubic_deriv 0 0 1 1 1
    rw [e]
    simpa [derivativeCubic, mix] using this
  · intro s u h0 h1 h2
    have : applySimpleCubic u - applySimpleCubic s =
        (u - s) * (3 * (s * (1 - u) + u * (1 - s)) - 2 * (u - s) ^ 2) := by
      simp only [applySimpleCubic]; ring
    have p : 0 < (u - s) * (3 * (s * (1 - u) + u * (1 - s)) - 2 * (u - s) ^ 2) := by
      apply mul_pos (by linarith)
      have a1 : 0 ≤ s * (1 - u) := mul_nonneg h0 (by linarith)
      have a2 : (u - s) ^ 2 ≤ u * (1 - s) := by
        rw [pow_two]
        exact mul_le_mul (by linarith) (by linarith) (by linarith) (by linarith)
      have a3 : 0 < (u - s) ^ 2 := by apply pow_pos; linarith
      linarith
    linarith

/-- **C78.** `mix` and `unmix` undo each other. -/
theorem C78_mix_unmix {a b : ℝ} (h : a ≠ b) (f x : ℝ) :
    mix a b f = between a b f ∧ unmix a b (mix a b f) = f ∧ mix a b (unmix a b x) = x := by
  have h' : b - a ≠ 0 := sub_ne_zero.2 h.symm
  refine ⟨by simp only [mix, between]; ring, ?_, ?_⟩ <;> simp only [mix, unmix] <;> field_simp <;> ring

end Verif.Xform
