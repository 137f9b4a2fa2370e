import Verif.Xform.PropsB

/-!
# C78: matrices

Products, transposes and inverses are those of Mathlib's matrices; projections map the view to the cube.
-/

noncomputable section

namespace Verif.Xform

open Verif.Geom (V2 V3 dotOf crossOf detOf)

/-- Entries by coordinates. -/
macro "entries" : tactic => `(tactic| (
  ext i j <;> fin_cases i <;> fin_cases j <;>
    simp [mat2, mat3, mat4, mat34, M2.mul, M3.mul, M34.mul, M4.mul, M34.mul4, M4.mul34, M2.mulVec, M3.mulVec,
      M34.mulVec, M34.mulVec4, M4.mulVec, M34.as3, Matrix.mul_apply, Fin.sum_univ_succ, M34.toM4, M4.to34, M4.to3,
      V4.vec, M34.of3, M4.of3] <;> ring))

/-- Coordinates. -/
macro "coords" : tactic => `(tactic| (
  ext i <;> fin_cases i <;>
    simp [co2, co3, co4, mat2, mat3, mat4, mat34, M2.mulVec, M3.mulVec, M34.mulVec, M34.mulVec4, M4.mulVec,
      Matrix.mulVec, dotProduct, Fin.sum_univ_succ] <;> ring))

/-- **C78.** The product of a matrix and a vector is the one of algebra. -/
theorem C78_matrix_vector (m2 : M2) (v2 : R2) (m3 : M3) (v3 : R3) (m34 : M34) (m4 : M4) (v4 : V4) :
    co2 (m2.mulVec v2) = (mat2 m2).mulVec (co2 v2) ∧ co3 (m3.mulVec v3) = (mat3 m3).mulVec (co3 v3) ∧
    co4 (m4.mulVec v4) = (mat4 m4).mulVec (co4 v4) ∧ co4 (m34.mulVec4 v4) = (mat34 m34).mulVec (co4 v4) ∧
    ![(m34.mulVec v3).x, (m34.mulVec v3).y, (m34.mulVec v3).z, 1] = (mat34 m34).mulVec ![v3.x, v3.y, v3.z, 1] := by
  refine ⟨?_, ?_, ?_, ?_, ?_⟩
  · coords
  · coords
  · coords
  · coords
  · coords

/-- **C78.** The product of two matrices is the one of algebra, also where a matrix with three rows is understood
as one with the fourth row 0 0 0 1. -/
theorem C78_matrix_product (a2 b2 : M2) (a3 b3 : M3) (a34 b34 : M34) (a4 b4 : M4) :
    mat2 (a2.mul b2) = mat2 a2 * mat2 b2 ∧ mat3 (a3.mul b3) = mat3 a3 * mat3 b3 ∧
    mat4 (a4.mul b4) = mat4 a4 * mat4 b4 ∧ mat34 (a34.mul b34) = mat34 a34 * mat34 b34 ∧
    mat4 (a34.mul4 b4) = mat34 a34 * mat4 b4 ∧ mat4 (a4.mul34 b34) = mat4 a4 * mat34 b34 := by
  refine ⟨?_, ?_, ?_, ?_, ?_, ?_⟩
  · entries
  · entries
  · entries
  · entries
  · entries
  · entries

example : (M2.mul ⟨⟨1, 2⟩, ⟨3, 4⟩⟩ ⟨⟨0, 1⟩, ⟨1, 0⟩⟩) = ⟨⟨3, 4⟩, ⟨1, 2⟩⟩ := by
  ext <;> simp [M2.mul, M2.mulVec]

/-- **C78.** Identity, scaling, transposing and the conversions between kinds of matrices. -/
theorem C78_matrix_forms (m2 : M2) (m3 : M3) (m34 : M34) (m4 : M4) (p : R3) :
    mat2 .identity = 1 ∧ mat3 .identity = 1 ∧ mat34 .identity = 1 ∧ mat4 .identity = 1 ∧
    mat2 m2.transposed = (mat2 m2).transpose ∧ mat3 m3.transposed = (mat3 m3).transpose ∧
    mat4 m4.transposed = (mat4 m4).transpose ∧
    mat4 m34.toM4 = mat34 m34 ∧ m34.toM4.to34 = m34 ∧ (M34.of3 m3 p).as3 = m3 ∧ (M34.of3 m3 p).c3 = p ∧
    mat4 (M4.of3 m3 p) = mat34 (M34.of3 m3 p) ∧ (M4.of3 m3 p).to3 = m3 := by
  refine ⟨?_, ?_, ?_, ?_, ?_, ?_, ?_, ?_, rfl, rfl, rfl, ?_, rfl⟩
  · ext i j; fin_cases i <;> fin_cases j <;> simp [mat2, M2.identity]
  · ext i j; fin_cases i <;> fin_cases j <;> simp [mat3, M3.identity]
  · ext i j; fin_cases i <;> fin_cases j <;> simp [mat34, M34.identity]
  · ext i j; fin_cases i <;> fin_cases j <;> simp [mat4, M4.identity]
  · ext i j; fin_cases i <;> fin_cases j <;> simp [mat2, M2.transposed]
  · ext i j; fin_cases i <;> fin_cases j <;> simp [mat3, M3.transposed]
  · ext i j; fin_cases i <;> fin_cases j <;> simp [mat4, M4.transposed]
  · ext i j; fin_cases i <;> fin_cases j <;> simp [mat4, mat34, M34.toM4]
  · ext i j; fin_cases i <;> fin_cases j <;> simp [mat4, mat34, M4.of3, M34.of3]

/-- **C78.** What scaling, moving and turning matrices do to a point. -/
theorem C78_matrix_effect (s p v : R3) (s2 v2 : R2) (a : ℝ) :
    (M2.makeScale s2).mulVec v2 = ⟨s2.x * v2.x, s2.y * v2.y⟩ ∧
    (M3.makeScale s).mulVec v = ⟨s.x * v.x, s.y * v.y, s.z * v.z⟩ ∧
    (M34.makeScale s).mulVec v = ⟨s.x * v.x, s.y * v.y, s.z * v.z⟩ ∧
    (M4.makeScale s).mulVec ⟨v.x, v.y, v.z, 1⟩ = ⟨s.x * v.x, s.y * v.y, s.z * v.z, 1⟩ ∧
    (M34.makeTranslation p).mulVec v = ⟨v.x + p.x, v.y + p.y, v.z + p.z⟩ ∧
    (M4.makeTranslation p).mulVec ⟨v.x, v.y, v.z, 1⟩ = ⟨v.x + p.x, v.y + p.y, v.z + p.z, 1⟩ ∧
    (M2.makeRotation a).mulVec ⟨1, 0⟩ = ⟨Real.cos a, Real.sin a⟩ ∧
    (M2.makeRotation a).mulVec ⟨0, 1⟩ = ⟨-Real.sin a, Real.cos a⟩ := by
  refine ⟨?_, ?_, ?_, ?_, ?_, ?_, ?_, ?_⟩ <;> ext <;>
    simp [M2.makeScale, M3.makeScale, M34.makeScale, M4.makeScale, M34.makeTranslation, M4.makeTranslation,
      M2.makeRotation, M2.fromComplex, fromAngle, M2.mulVec, M3.mulVec, M34.mulVec, M4.mulVec]

/-- **C78.** Rotations of the plane: the product of two complex numbers turns by both, angles are added, the matrix
of a complex number multiplies by it. -/
theorem C78_matrix_turn (a b : R2) (s t : ℝ) :
    (M2.fromComplex a).mulVec b = complexMul a b ∧
    (M2.fromComplex a).mul (M2.fromComplex b) = M2.fromComplex (complexMul a b) ∧
    (M2.makeRotation s).mul (M2.makeRotation t) = M2.makeRotation (s + t) ∧
    (M2.makeRotation s).mul (M2.makeRotation s).transposed = .identity ∧
    complexMul (fromAngle s) (fromAngle t) = fromAngle (s + t) := by
  have hcs := Real.sin_sq_add_cos_sq s
  refine ⟨?_, ?_, ?_, ?_, ?_⟩ <;> ext <;>
    simp only [M2.fromComplex, M2.mulVec, complexMul, M2.mul, M2.makeRotation, fromAngle, M2.transposed, M2.identity,
      Real.cos_add, Real.sin_add] <;> first | (ring1) | linear_combination hcs

/-- **C78.** A rotation matrix is undone by its transpose, on both sides. -/
theorem C78_matrix_transpose {m : M3} (h : IsRotation m) :
    m.transposed.mul m = .identity ∧ m.mul m.transposed = .identity ∧ IsRotation m.transposed := by
  obtain ⟨r1, r2, r3, r4, r5, r6⟩ := rotation_rows h
  obtain ⟨u0, u1, u2, p01, p12, p20, d⟩ := h
  have key : m.mul m.transposed = .identity := by
    ext <;> simp only [M3.mul, M3.mulVec, M3.transposed, M3.identity] <;> linarith
  refine ⟨?_, key, ?_⟩
  · unfold Unit3 at *
    unfold dotOf at *
    ext <;> simp only [M3.mul, M3.mulVec, M3.transposed, M3.identity] <;> linarith
  · refine ⟨?_, ?_, ?_, ?_, ?_, ?_, ?_⟩ <;> simp only [Unit3, dotOf, detOf, crossOf, M3.transposed] <;>
      first | linarith | (simp only [detOf, dotOf, crossOf] at d; linarith)

/-- **C78.** `invertedOrtho` undoes a rotation followed by a movement: both products are the identity. -/
theorem C78_inverted_ortho {m : M34} (h : IsRotation m.as3) :
    mat34 m.invertedOrtho * mat34 m = 1 ∧ mat34 m * mat34 m.invertedOrtho = 1 ∧
    m.toM4.invertedOrtho = m.invertedOrtho.toM4 ∧
    (∀ v, m.invertedOrtho.mulVec (m.mulVec v) = v) ∧ ∀ v, m.mulVec (m.invertedOrtho.mulVec v) = v := by
  obtain ⟨r1, r2, r3, r4, r5, r6⟩ := rotation_rows h
  obtain ⟨u0, u1, u2, p01, p12, p20, d⟩ := h
  simp only [Unit3, dotOf, M34.as3] at *
  refine ⟨?_, ?_, ?_, fun v => ?_, fun v => ?_⟩
  · ext i j
    fin_cases i <;> fin_cases j <;>
      simp [mat34, M34.invertedOrtho, M34.as3, M3.transposed, M3.mulVec, neg3, Matrix.mul_apply, Fin.sum_univ_succ] <;>
      linarith
  · ext i j
    fin_cases i <;> fin_cases j <;>
      simp [mat34, M34.invertedOrtho, M34.as3, M3.transposed, M3.mulVec, neg3, Matrix.mul_apply, Fin.sum_univ_succ] <;>
      grind
  · ext <;> simp [M34.toM4, M4.invertedOrtho, M34.invertedOrtho, M4.transposed, M4.mulVec, neg4, neg3, M34.as3,
      M3.transposed, M3.mulVec]
  · ext <;> simp only [M34.mulVec, M34.invertedOrtho, M3.transposed, M3.mulVec, neg3, M34.as3] <;> grind
  · ext <;> simp only [M34.mulVec, M34.invertedOrtho, M3.transposed, M3.mulVec, neg3, M34.as3] <;> grind

example : IsRotation (M34.as3 ⟨⟨0, 1, 0⟩, ⟨-1, 0, 0⟩, ⟨0, 0, 1⟩, ⟨5, 6, 7⟩⟩) := by
  refine ⟨?_, ?_, ?_, ?_, ?_, ?_, ?_⟩ <;> simp [Unit3, dotOf, detOf, crossOf, M34.as3]

/-! ## Projections -/

/-- **C78.** The perspective projection: a point at the distance `d` before the eye, at the fraction `s` of the width
of the view, has the horizontal coordinate `-1 + 2 s`; the nearest plane has the depth -1, the farthest 1; `w` is the
distance.  The vertical coordinate is right (`-1 + 2 t`) if the view is symmetric about the horizon or is a square. -/
theorem C78_projection_partial {f : Rect} {zn zf : ℝ} (hn : 0 < zn) (hf : 0 < zf) (hnf : zn ≠ zf)
    (hx : f.mins.x ≠ f.maxs.x) (hy : f.mins.y ≠ f.maxs.y) :
    ∃ m, M4.makeProjection f zn zf = some m ∧
      ∀ d s t, 0 < d →
        let c := m.mulVec ⟨d * between f.mins.x f.maxs.x s, d * between f.mins.y f.maxs.y t, -d, 1⟩
        c.w = d ∧ (point c).x = -1 + 2 * s ∧
        (f.mins.y + f.maxs.y = 0 ∨ f.maxs.x - f.mins.x = f.maxs.y - f.mins.y → (point c).y = -1 + 2 * t) ∧
        (d = zn → (point c).z = -1) ∧ (d = zf → (point c).z = 1) := by
  have hx' : f.maxs.x - f.mins.x ≠ 0 := sub_ne_zero.2 hx.symm
  have hy' : f.maxs.y - f.mins.y ≠ 0 := sub_ne_zero.2 hy.symm
  have hz' : zn - zf ≠ 0 := sub_ne_zero.2 hnf
  unfold M4.makeProjection
  rw [if_pos ⟨hn, hf⟩]
  refine ⟨_, rfl, fun d s t hd => ?_⟩
  have hd' := hd.ne'
  simp only [M4.mulVec, point, between]
  have hw : (0 : ℝ) * (d * (f.mins.x + s * (f.maxs.x - f.mins.x))) + 0 * (d * (f.mins.y + t * (f.maxs.y - f.mins.y))) +
      -1 * -d + 0 * 1 = d := by ring
  rw [hw]
  refine ⟨rfl, ?_, ?_, ?_, ?_⟩
  · field_simp
    ring
  · rintro (h | h)
    · have : f.maxs.y = -f.mins.y := by linarith
      rw [h, this]
      have h0 : f.mins.y ≠ 0 := by intro h0; apply hy; rw [this, h0]; ring
      have h2 : -f.mins.y - f.mins.y = -2 * f.mins.y := by ring
      rw [h2]
      field_simp
      ring
    · rw [h]
      field_simp
      ring
  · rintro rfl
    field_simp
    ring
  · rintro rfl
    field_simp
    ring

/-- **C78 fails for views that are neither symmetric nor square**: of a view twice as wide as high, wholly above the
horizon, the lower edge is not drawn at the lower edge. -/
theorem C78_projection_wrong : ∃ f : Rect, f.mins.x < f.maxs.x ∧ f.mins.y < f.maxs.y ∧
    ∃ m, M4.makeProjection f 1 2 = some m ∧ (point (m.mulVec ⟨f.mins.x, f.mins.y, -1, 1⟩)).y ≠ -1 := by
  refine ⟨⟨⟨-1, 1⟩, ⟨1, 2⟩⟩, by norm_num, by norm_num, ?_⟩
  unfold M4.makeProjection
  rw [if_pos (by norm_num)]
  refine ⟨_, rfl, ?_⟩
  norm_num [M4.mulVec, point]

/-- **C78.** With the view given by an angle and a ratio the projection is right: at the distance `d` the height of
the view is `2 d tan (angle / 2)` and the width is the height times the ratio, and the four edges are drawn at the
edges. -/
theorem C78_projection_fov {fovY aspect zn zf : ℝ} (hn : 0 < zn) (hf : 0 < zf) (hnf : zn ≠ zf)
    (ht : Real.tan (fovY / 2) ≠ 0) (ha : aspect ≠ 0) :
    ∃ m, M4.makeProjection (rectFromFov fovY aspect) zn zf = some m ∧
      ∀ d u v, 0 < d →
        let c := m.mulVec ⟨u * (d * Real.tan (fovY / 2) * aspect), v * (d * Real.tan (fovY / 2)), -d, 1⟩
        c.w = d ∧ (point c).x = u ∧ (point c).y = v ∧ (d = zn → (point c).z = -1) ∧ (d = zf → (point c).z = 1) := by
  have hta : Real.tan (fovY / 2) * aspect ≠ 0 := mul_ne_zero ht ha
  obtain ⟨m, h1, h2⟩ := C78_projection_partial (f := rectFromFov fovY aspect) hn hf hnf
    (by simp only [rectFromFov]; intro h; apply hta; linarith) (by simp only [rectFromFov]; intro h; apply ht; linarith)
  refine ⟨m, h1, fun d u v hd => ?_⟩
  obtain ⟨k1, k2, k3, k4, k5⟩ := h2 d ((u + 1) / 2) ((v + 1) / 2) hd
  have e1 : d * between (rectFromFov fovY aspect).mins.x (rectFromFov fovY aspect).maxs.x ((u + 1) / 2) =
      u * (d * Real.tan (fovY / 2) * aspect) := by simp only [rectFromFov, between]; ring
  have e2 : d * between (rectFromFov fovY aspect).mins.y (rectFromFov fovY aspect).maxs.y ((v + 1) / 2) =
      v * (d * Real.tan (fovY / 2)) := by simp only [rectFromFov, between]; ring
  rw [e1, e2] at k1 k2 k3 k4 k5
  refine ⟨k1, by rw [k2]; ring, ?_, k4, k5⟩
  rw [k3 (Or.inl (by simp only [rectFromFov]; ring))]
  ring

/-- **C78.** The parallel projection maps the box of the view to the cube: the fractions `s`, `t`, `r` of width,
height and depth to `-1 + 2 s`, `-1 + 2 t`, `-1 + 2 r`. -/
theorem C78_ortho {f : Rect} {zn zf : ℝ} (hnf : zn ≠ zf) (hx : f.mins.x ≠ f.maxs.x) (hy : f.mins.y ≠ f.maxs.y)
    (s t r : ℝ) :
    (M4.makeOrtho f zn zf).mulVec ⟨between f.mins.x f.maxs.x s, between f.mins.y f.maxs.y t, -between zn zf r, 1⟩ =
      ⟨-1 + 2 * s, -1 + 2 * t, -1 + 2 * r, 1⟩ := by
  have hx' : f.maxs.x - f.mins.x ≠ 0 := sub_ne_zero.2 hx.symm
  have hy' : f.maxs.y - f.mins.y ≠ 0 := sub_ne_zero.2 hy.symm
  have hz' : zn - zf ≠ 0 := sub_ne_zero.2 hnf
  ext <;> simp only [M4.makeOrtho, M4.mulVec, between]
  · field_simp; norm_num; ring
  · field_simp; norm_num; ring
  · field_simp; ring
  · ring

example : (M4.makeOrtho ⟨⟨0, 0⟩, ⟨4, 2⟩⟩ 1 3).mulVec ⟨4, 1, -1, 1⟩ = ⟨1, 0, -1, 1⟩ := by
  ext <;> norm_num [M4.makeOrtho, M4.mulVec]

end Verif.Xform
