import Verif.Xform.Props

/-!
# Quaternions: C78, continued

Interpolation, the rotation from one vector to another, and quaternions from matrices.
-/

noncomputable section

namespace Verif.Xform

open Verif.Geom (V2 V3 dotOf crossOf detOf)

/-! ## Interpolation -/

/-- The scalar product of quaternions. -/
def dot4 (a b : V4) : ℝ := a.x * b.x + a.y * b.y + a.z * b.z + a.w * b.w

theorem closer_dot (a b : Quat) : 0 ≤ dot4 (negatedIfCloserTo a b) b := by
  unfold negatedIfCloserTo
  split <;> rename_i h <;> simp only [length24, sub4, neg4, dot4] at h ⊢ <;> nlinarith

/-- **C78.** The nearer one of a quaternion and its negative. -/
theorem C78_closer (a b : Quat) :
    (negatedIfCloserTo a b = a ∨ negatedIfCloserTo a b = neg4 a) ∧
    dist24 (negatedIfCloserTo a b) b ≤ dist24 a b ∧ dist24 (negatedIfCloserTo a b) b ≤ dist24 (neg4 a) b := by
  unfold negatedIfCloserTo
  split <;> rename_i h <;> simp only [length24, sub4, neg4, dist24] at h ⊢
  · exact ⟨Or.inl trivial, le_refl _, by nlinarith⟩
  · exact ⟨Or.inr trivial, by nlinarith, le_refl _⟩

example : negatedIfCloserTo ⟨1, 0, 0, 0⟩ ⟨-0.6, 0, 0, 0.8⟩ = ⟨-1, 0, 0, 0⟩ := by
  unfold negatedIfCloserTo length24 sub4 neg4; norm_num

theorem unit_closer {a : Quat} (ha : Unit4 a) (b : Quat) : Unit4 (negatedIfCloserTo a b) := by
  rcases (C78_closer a b).1 with h | h <;> rw [h]
  · exact ha
  · unfold Unit4 at *
    simp only [neg4]
    linear_combination ha

theorem mix_pos {a b : Quat} (ha : Unit4 a) (hb : Unit4 b) (f : ℝ) (h0 : 0 ≤ f) (h1 : f ≤ 1) :
    0 < length24 (mix4 (negatedIfCloserTo a b) b f) := by
  have hu := unit_closer ha b
  have hd := closer_dot a b
  generalize negatedIfCloserTo a b = c at *
  unfold Unit4 at *
  have e : length24 (mix4 c b f) = (1 - f) ^ 2 + f ^ 2 + 2 * (f * (1 - f)) * dot4 c b := by
    simp only [length24, mix4, add4, scale4, dot4]
    linear_combination (1 - f) ^ 2 * hu + f ^ 2 * hb
  rw [e]
  have : 0 ≤ f * (1 - f) := mul_nonneg h0 (by linarith)
  have := mul_nonneg this hd
  nlinarith [sq_nonneg (2 * f - 1)]

theorem normalized_of_unit {q : Quat} (hq : Unit4 q) : normalized4 q = q := by
  have : length24 q = 1 := by unfold Unit4 at hq; unfold length24; linear_combination hq
  unfold normalized4
  rw [this]
  simp

/-- **C78.** Between two rotations there always is a rotation, and it begins with the first and ends with the
second. -/
theorem C78_mix {a b : Quat} (ha : Unit4 a) (hb : Unit4 b) :
    (∀ f, 0 ≤ f → f ≤ 1 → Unit4 (qMix a b f)) ∧
    (∀ v, qRot (qMix a b 0) v = qRot a v) ∧ qMix a b 1 = b := by
  refine ⟨fun f h0 h1 => normalized_unit (mix_pos ha hb f h0 h1), fun v => ?_, ?_⟩
  · have : mix4 (negatedIfCloserTo a b) b 0 = negatedIfCloserTo a b := by
      ext <;> simp only [mix4, add4, scale4] <;> ring
    unfold qMix
    rw [this, normalized_of_unit (unit_closer ha b)]
    exact (C78_quat_sign (unit_closer ha b) ha).2 (C78_closer a b).1 v
  · have : mix4 (negatedIfCloserTo a b) b 1 = b := by
      ext <;> simp only [mix4, add4, scale4] <;> ring
    unfold qMix
    rw [this, normalized_of_unit hb]

/-- **C78.** Which of the two quaternions of a rotation is given to begin with makes no difference, unless the
rotations are opposite. -/
theorem C78_mix_sign {a b : Quat} (h : dot4 a b ≠ 0) (f : ℝ) : qMix (neg4 a) b f = qMix a b f := by
  have key : negatedIfCloserTo (neg4 a) b = negatedIfCloserTo a b := by
    have e : length24 (sub4 (neg4 a) b) - length24 (sub4 a b) = 4 * dot4 a b := by
      simp only [length24, sub4, neg4, dot4]; ring
    have n : neg4 (neg4 a) = a := by ext <;> simp [neg4]
    unfold negatedIfCloserTo
    rw [n]
    rcases lt_or_gt_of_ne h with h | h
    · rw [if_pos (by linarith), if_neg (by linarith)]
    · rw [if_neg (by linarith), if_pos (by linarith)]
  unfold qMix
  rw [key]

/-! ## From one vector to another -/

/-- **C78.** The rotation from one vector to another, if they are not nearly opposite: the shortest one, about an
axis perpendicular to both. -/
theorem C78_unit_vectors_partial {a b : R3} (ha : Unit3 a) (hb : Unit3 b) (h : 1e-6 ≤ dotOf a b + 1) :
    Unit4 (fromUnitVectors a b) ∧ qRot (fromUnitVectors a b) a = b ∧
    dotOf (fromUnitVectors a b).vec a = 0 ∧ dotOf (fromUnitVectors a b).vec b = 0 ∧ 0 < (fromUnitVectors a b).w := by
  unfold Unit3 at ha hb
  have e : fromUnitVectors a b = normalized4 ⟨(cross a b).x, (cross a b).y, (cross a b).z, dot a b + 1⟩ := by
    unfold fromUnitVectors
    exact if_neg (not_lt.2 h)
  have hd : dot a b = dotOf a b := rfl
  have hl : length24 ⟨(cross a b).x, (cross a b).y, (cross a b).z, dot a b + 1⟩ = 2 * (dotOf a b + 1) := by
    simp only [length24, cross, dot, dotOf] at *
    linear_combination ha * (b.x * b.x + b.y * b.y + b.z * b.z) + hb
  have hpos : 0 < length24 ⟨(cross a b).x, (cross a b).y, (cross a b).z, dot a b + 1⟩ := by
    rw [hl]; norm_num at h; linarith
  rw [e]
  refine ⟨normalized_unit hpos, ?_, ?_, ?_, ?_⟩
  · rw [normalized_quad hpos, hl]
    have hne : dotOf a b + 1 ≠ 0 := by norm_num at h; intro hh; rw [hh] at h; norm_num at h
    have q : quad ⟨(cross a b).x, (cross a b).y, (cross a b).z, dot a b + 1⟩ a =
        ⟨2 * (dotOf a b + 1) * b.x, 2 * (dotOf a b + 1) * b.y, 2 * (dotOf a b + 1) * b.z⟩ := by
      simp only [dotOf] at ha hb
      ext <;> simp only [quad, cross, dot, dotOf]
      · linear_combination (-(b.x * b.x + b.y * b.y + b.z * b.z) * a.x +
          2 * (1 + (a.x * b.x + a.y * b.y + a.z * b.z)) * b.x) * ha - a.x * hb
      · linear_combination (-(b.x * b.x + b.y * b.y + b.z * b.z) * a.y +
          2 * (1 + (a.x * b.x + a.y * b.y + a.z * b.z)) * b.y) * ha - a.y * hb
      · linear_combination (-(b.x * b.x + b.y * b.y + b.z * b.z) * a.z +
          2 * (1 + (a.x * b.x + a.y * b.y + a.z * b.z)) * b.z) * ha - a.z * hb
    rw [q]
    have h2 : 2 * (dotOf a b + 1) ≠ 0 := mul_ne_zero two_ne_zero hne
    ext <;> simp only <;> rw [mul_div_cancel_left₀ _ h2]
  · simp only [normalized4, V4.vec, dotOf, cross]
    rw [div_mul_eq_mul_div, div_mul_eq_mul_div, div_mul_eq_mul_div, ← add_div, ← add_div]
    rw [div_eq_zero_iff]; left; ring
  · simp only [normalized4, V4.vec, dotOf, cross]
    rw [div_mul_eq_mul_div, div_mul_eq_mul_div, div_mul_eq_mul_div, ← add_div, ← add_div]
    rw [div_eq_zero_iff]; left; ring
  · simp only [normalized4]
    apply div_pos
    · rw [hd]; norm_num at h; linarith
    · exact Real.sqrt_pos.2 hpos

example : qRot (fromUnitVectors ⟨1, 0, 0⟩ ⟨0, 0.6, 0.8⟩) ⟨1, 0, 0⟩ = ⟨0, 0.6, 0.8⟩ :=
  (C78_unit_vectors_partial (by unfold Unit3 dotOf; norm_num) (by unfold Unit3 dotOf; norm_num)
    (by unfold dotOf; norm_num)).2.1

/-- **C78.** If the vectors are nearly opposite, the rotation is a half turn, which takes the first vector to its
opposite; that is less than 0.0015 away from the second one. -/
theorem C78_unit_vectors_opposite {a b : R3} (ha : Unit3 a) (hb : Unit3 b) (h : dotOf a b + 1 < 1e-6) :
    Unit4 (fromUnitVectors a b) ∧ qRot (fromUnitVectors a b) a = neg3 a ∧
    dist2 (qRot (fromUnitVectors a b) a) b < 0.0015 ^ 2 := by
  unfold Unit3 at ha hb
  have e : ∃ u : R3, fromUnitVectors a b = normalized4 ⟨u.x, u.y, u.z, 0⟩ ∧ dotOf u a = 0 ∧ 0 < dotOf u u := by
    refine ⟨cross a (if |a.x| < 0.9 then ⟨1, 0, 0⟩ else ⟨0, 1, 0⟩), ?_, ?_, ?_⟩
    · unfold fromUnitVectors
      exact if_pos h
    · simp only [cross, dotOf]; ring
    · simp only [dotOf] at ha
      by_cases hx : |a.x| < 0.9
      · rw [if_pos hx]
        have := abs_lt.1 hx
        simp only [cross, dotOf]
        norm_num at this
        nlinarith
      · rw [if_neg hx]
        have h9 : (0.9 : ℝ) * 0.9 ≤ |a.x| * |a.x| := by
          have := not_lt.1 hx
          nlinarith
        rw [abs_mul_abs_self] at h9
        norm_num at h9
        simp only [cross, dotOf]
        nlinarith [sq_nonneg a.z]
  obtain ⟨u, e, hp, hu⟩ := e
  have hl : length24 ⟨u.x, u.y, u.z, 0⟩ = dotOf u u := by simp only [length24, dotOf]; ring
  have hpos : 0 < length24 ⟨u.x, u.y, u.z, 0⟩ := hl ▸ hu
  have hr : qRot (fromUnitVectors a b) a = neg3 a := by
    rw [e, normalized_quad hpos, hl]
    have q : quad ⟨u.x, u.y, u.z, 0⟩ a = ⟨dotOf u u * -a.x, dotOf u u * -a.y, dotOf u u * -a.z⟩ := by
      simp only [dotOf] at hp
      ext <;> simp only [quad, dotOf]
      · linear_combination 2 * u.x * hp
      · linear_combination 2 * u.y * hp
      · linear_combination 2 * u.z * hp
    rw [q]
    ext <;> simp only [neg3] <;> rw [mul_div_cancel_left₀ _ hu.ne']
  refine ⟨e ▸ normalized_unit hpos, hr, ?_⟩
  rw [hr]
  have : dist2 (neg3 a) b = 2 * (dotOf a b + 1) := by
    simp only [dist2, neg3, dotOf] at *
    linear_combination ha + hb
  rw [this]
  norm_num at h ⊢
  linarith

/-- **C78, what fails.** Vectors that are nearly opposite are treated as opposite, and the first one is not taken
to the second one. -/
theorem C78_unit_vectors_wrong : ∃ a b, Unit3 a ∧ Unit3 b ∧ qRot (fromUnitVectors a b) a ≠ b := by
  have hb : Unit3 ⟨-(99999999 / 100000001), 20000 / 100000001, 0⟩ := by unfold Unit3 dotOf; norm_num
  refine ⟨⟨1, 0, 0⟩, ⟨-(99999999 / 100000001), 20000 / 100000001, 0⟩, by unfold Unit3 dotOf; norm_num, hb, ?_⟩
  rw [(C78_unit_vectors_opposite (by unfold Unit3 dotOf; norm_num) hb (by unfold dotOf; norm_num)).2.1]
  intro hh
  have := congrArg V3.y hh
  simp only [neg3] at this
  norm_num at this

/-! ## From matrices -/

/-- The third column of a rotation matrix is the vector product of the others, and so on: what is needed of rotation
matrices. -/
theorem rotation_facts {m : M3} (h : IsRotation m) :
    m.c2 = crossOf m.c0 m.c1 ∧ m.c0 = crossOf m.c1 m.c2 ∧ m.c1 = crossOf m.c2 m.c0 := by
  have key : ∀ a b c : R3, Unit3 a → Unit3 b → Unit3 c → dotOf a b = 0 → detOf a b c = 1 → c = crossOf a b := by
    intro a b c ha hb hc hab hdet
    simp only [Unit3, dotOf, detOf, crossOf] at *
    have zero : (c.x - (a.y * b.z - a.z * b.y)) ^ 2 + (c.y - (a.z * b.x - a.x * b.z)) ^ 2 +
        (c.z - (a.x * b.y - a.y * b.x)) ^ 2 = 0 := by
      linear_combination hc - 2 * hdet + ha * (b.x * b.x + b.y * b.y + b.z * b.z) + hb -
        (a.x * b.x + a.y * b.y + a.z * b.z) * hab
    have z1 := sq_nonneg (c.x - (a.y * b.z - a.z * b.y))
    have z2 := sq_nonneg (c.y - (a.z * b.x - a.x * b.z))
    have z3 := sq_nonneg (c.z - (a.x * b.y - a.y * b.x))
    ext <;> dsimp only
    · have := pow_eq_zero_iff (two_ne_zero) |>.1 (show (c.x - (a.y * b.z - a.z * b.y)) ^ 2 = 0 by linarith)
      linarith
    · have := pow_eq_zero_iff (two_ne_zero) |>.1 (show (c.y - (a.z * b.x - a.x * b.z)) ^ 2 = 0 by linarith)
      linarith
    · have := pow_eq_zero_iff (two_ne_zero) |>.1 (show (c.z - (a.x * b.y - a.y * b.x)) ^ 2 = 0 by linarith)
      linarith
  refine ⟨key _ _ _ h.u0 h.u1 h.u2 h.p01 h.det, key _ _ _ h.u1 h.u2 h.u0 h.p12 ?_, key _ _ _ h.u2 h.u0 h.u1 h.p20 ?_⟩
  · have := h.det
    simp only [detOf, dotOf, crossOf] at *
    linear_combination this
  · have := h.det
    simp only [detOf, dotOf, crossOf] at *
    linear_combination this

/-- The rows of a rotation matrix have length one and are perpendicular to each other. -/
theorem rotation_rows {m : M3} (h : IsRotation m) :
    m.c0.x ^ 2 + m.c1.x ^ 2 + m.c2.x ^ 2 = 1 ∧ m.c0.y ^ 2 + m.c1.y ^ 2 + m.c2.y ^ 2 = 1 ∧
    m.c0.z ^ 2 + m.c1.z ^ 2 + m.c2.z ^ 2 = 1 ∧
    m.c0.x * m.c0.y + m.c1.x * m.c1.y + m.c2.x * m.c2.y = 0 ∧
    m.c0.y * m.c0.z + m.c1.y * m.c1.z + m.c2.y * m.c2.z = 0 ∧
    m.c0.z * m.c0.x + m.c1.z * m.c1.x + m.c2.z * m.c2.x = 0 := by
  have hc := (rotation_facts h).1
  have h0 := h.u0
  have h1 := h.u1
  have h2 := h.p01
  simp only [Unit3, dotOf] at h0 h1 h2
  rw [hc]
  simp only [crossOf]
  generalize m.c0 = a at *
  generalize m.c1 = b at *
  refine ⟨?_, ?_, ?_, ?_, ?_, ?_⟩
  · linear_combination (b.x * b.x + b.y * b.y + b.z * b.z - b.x ^ 2) * h0 + (1 - a.x ^ 2) * h1 +
      (-(a.x * b.x + a.y * b.y + a.z * b.z) + 2 * a.x * b.x) * h2
  · linear_combination (b.x * b.x + b.y * b.y + b.z * b.z - b.y ^ 2) * h0 + (1 - a.y ^ 2) * h1 +
      (-(a.x * b.x + a.y * b.y + a.z * b.z) + 2 * a.y * b.y) * h2
  · linear_combination (b.x * b.x + b.y * b.y + b.z * b.z - b.z ^ 2) * h0 + (1 - a.z ^ 2) * h1 +
      (-(a.x * b.x + a.y * b.y + a.z * b.z) + 2 * a.z * b.z) * h2
  · linear_combination (-b.x * b.y) * h0 + (-a.x * a.y) * h1 + (a.x * b.y + a.y * b.x) * h2
  · linear_combination (-b.y * b.z) * h0 + (-a.y * a.z) * h1 + (a.y * b.z + a.z * b.y) * h2
  · linear_combination (-b.z * b.x) * h0 + (-a.z * a.x) * h1 + (a.z * b.x + a.x * b.z) * h2

/-- The products of the coordinates of the quaternion of a matrix: `tw` is 4 w w, `kwx` is 4 w x, and so on. -/
structure Products (m : M3) (tw tx ty tz kwx kwy kwz kxy kxz kyz : ℝ) : Prop where
  tw : tw = 1 + m.c0.x + m.c1.y + m.c2.z
  tx : tx = 1 + m.c0.x - m.c1.y - m.c2.z
  ty : ty = 1 - m.c0.x + m.c1.y - m.c2.z
  tz : tz = 1 - m.c0.x - m.c1.y + m.c2.z
  kwx : kwx = m.c1.z - m.c2.y
  kwy : kwy = m.c2.x - m.c0.z
  kwz : kwz = m.c0.y - m.c1.x
  kxy : kxy = m.c0.y + m.c1.x
  kxz : kxz = m.c2.x + m.c0.z
  kyz : kyz = m.c1.z + m.c2.y

theorem rotation_products {m : M3} (h : IsRotation m) {tw tx ty tz kwx kwy kwz kxy kxz kyz : ℝ}
    (p : Products m tw tx ty tz kwx kwy kwz kxy kxz kyz) :
    (kwx ^ 2 = tw * tx ∧ kwy ^ 2 = tw * ty ∧ kwz ^ 2 = tw * tz ∧ kxy ^ 2 = tx * ty ∧ kxz ^ 2 = tx * tz ∧
      kyz ^ 2 = ty * tz) ∧
    (kwx * kwy = tw * kxy ∧ kwx * kwz = tw * kxz ∧ kwy * kwz = tw * kyz) ∧
    (kwx * kxy = tx * kwy ∧ kwx * kxz = tx * kwz ∧ kxy * kxz = tx * kyz) ∧
    (kwy * kxy = ty * kwx ∧ kwy * kyz = ty * kwz ∧ kxy * kyz = ty * kxz) ∧
    (kwz * kxz = tz * kwx ∧ kwz * kyz = tz * kwy ∧ kxz * kyz = tz * kxy) := by
  obtain ⟨f2, f0, f1⟩ := rotation_facts h
  obtain ⟨rx, ry, rz, rxy, ryz, rzx⟩ := rotation_rows h
  obtain ⟨h0, h1, h2, h01, h12, h20, -⟩ := h
  obtain ⟨rfl, rfl, rfl, rfl, rfl, rfl, rfl, rfl, rfl, rfl⟩ := p
  simp only [Unit3, dotOf, crossOf, V3.ext_iff] at *
  generalize m.c0 = a at *
  generalize m.c1 = b at *
  generalize m.c2 = c at *
  obtain ⟨f0x, f0y, f0z⟩ := f0
  obtain ⟨f1x, f1y, f1z⟩ := f1
  obtain ⟨f2x, f2y, f2z⟩ := f2
  refine ⟨⟨?_, ?_, ?_, ?_, ?_, ?_⟩, ⟨?_, ?_, ?_⟩, ⟨?_, ?_, ?_⟩, ⟨?_, ?_, ?_⟩, ?_, ?_, ?_⟩
  · linear_combination -2 * f0x + h1 + h2 - rx
  · linear_combination -2 * f1y + h2 + h0 - ry
  · linear_combination -2 * f2z + h0 + h1 - rz
  · linear_combination 2 * f2z + h0 + h1 - rz
  · linear_combination 2 * f1y + h0 + h2 - ry
  · linear_combination 2 * f0x + h1 + h2 - rx
  · linear_combination -h01 - rxy - f0y - f1x
  all_goals grind

/-- A quaternion with these products has the matrix. -/
theorem of_products {m : M3} {tw tx ty tz kwx kwy kwz kxy kxz kyz : ℝ}
    (p : Products m tw tx ty tz kwx kwy kwz kxy kxz kyz) {q : Quat} (ww : q.w * q.w = tw / 4) (xx : q.x * q.x = tx / 4)
    (yy : q.y * q.y = ty / 4) (zz : q.z * q.z = tz / 4) (wx : q.w * q.x = kwx / 4) (wy : q.w * q.y = kwy / 4)
    (wz : q.w * q.z = kwz / 4) (xy : q.x * q.y = kxy / 4) (xz : q.x * q.z = kxz / 4) (yz : q.y * q.z = kyz / 4) :
    Unit4 q ∧ M3.fromQuaternion q = m := by
  obtain ⟨p1, p2, p3, p4, p5, p6, p7, p8, p9, p10⟩ := p
  constructor
  · unfold Unit4
    linear_combination ww + xx + yy + zz + (p1 + p2 + p3 + p4) / 4
  · unfold M3.fromQuaternion
    ext <;> dsimp only
    · linear_combination -2 * yy - 2 * zz - (p3 + p4) / 2
    · linear_combination 2 * xy + 2 * wz + (p8 + p7) / 2
    · linear_combination 2 * xz - 2 * wy + (p9 - p6) / 2
    · linear_combination 2 * xy - 2 * wz + (p8 - p7) / 2
    · linear_combination -2 * xx - 2 * zz - (p2 + p4) / 2
    · linear_combination 2 * yz + 2 * wx + (p10 + p5) / 2
    · linear_combination 2 * xz + 2 * wy + (p9 + p6) / 2
    · linear_combination 2 * yz - 2 * wx + (p10 - p5) / 2
    · linear_combination -2 * xx - 2 * yy - (p2 + p3) / 2

/-- The signed square root of the code. -/
theorem signed_root {t k : ℝ} (ht : t ≥ 0.5) {s : ℝ} (hs : s = √t * ((if k ≥ 0 then 1 else 0) - 0.5)) :
    s * s = t / 4 ∧ s * (0.25 / s) = 1 / 4 ∧ t * (0.25 / s) ^ 2 = 1 / 4 ∧ 0 ≤ k * (0.25 / s) := by
  have ht' : 0 < t := by norm_num at ht; linarith
  obtain ⟨h1, h2⟩ := sqrt_pos_of ht'
  have hss : s * s = t / 4 := by
    rw [hs]
    split <;> norm_num <;> linear_combination h2 / 4
  have hne : s ≠ 0 := by rintro rfl; simp at hss; linarith
  refine ⟨hss, ?_, ?_, ?_⟩
  · field_simp; norm_num
  · have : t = 4 * (s * s) := by rw [hss]; ring
    rw [this]
    field_simp; norm_num
  · by_cases hk : k ≥ 0
    · apply mul_nonneg hk
      apply div_nonneg (by norm_num)
      rw [hs, if_pos hk]
      apply mul_nonneg h1.le; norm_num
    · have hk' := (not_le.1 hk).le
      apply mul_nonneg_of_nonpos_of_nonpos hk'
      apply div_nonpos_of_nonneg_of_nonpos (by norm_num)
      rw [hs, if_neg hk]
      apply mul_nonpos_of_nonneg_of_nonpos h1.le; norm_num

/-- **C78.** Every rotation matrix is converted to a quaternion of length one that rotates in the same way, with a
last coordinate that is not negative; the assertion does not fail. -/
theorem C78_from_matrix {m : M3} (h : IsRotation m) :
    ∃ q, fromOrtho m = some q ∧ Unit4 q ∧ M3.fromQuaternion q = m ∧ 0 ≤ q.w := by
  obtain ⟨tw, htw⟩ : ∃ t, t = 1 + m.c0.x + m.c1.y + m.c2.z := ⟨_, rfl⟩
  obtain ⟨tx, htx⟩ : ∃ t, t = 1 + m.c0.x - m.c1.y - m.c2.z := ⟨_, rfl⟩
  obtain ⟨ty, hty⟩ : ∃ t, t = 1 - m.c0.x + m.c1.y - m.c2.z := ⟨_, rfl⟩
  obtain ⟨tz, htz⟩ : ∃ t, t = 1 - m.c0.x - m.c1.y + m.c2.z := ⟨_, rfl⟩
  have p : Products m tw tx ty tz (m.c1.z - m.c2.y) (m.c2.x - m.c0.z) (m.c0.y - m.c1.x) (m.c0.y + m.c1.x)
      (m.c2.x + m.c0.z) (m.c1.z + m.c2.y) := ⟨htw, htx, hty, htz, rfl, rfl, rfl, rfl, rfl, rfl⟩
  obtain ⟨⟨s1, s2, s3, s4, s5, s6⟩, ⟨a1, a2, a3⟩, ⟨b1, b2, b3⟩, ⟨c1, c2, c3⟩, d1, d2, d3⟩ := rotation_products h p
  unfold fromOrtho
  simp only [← htw, ← htx, ← hty, ← htz]
  generalize m.c1.z - m.c2.y = kwx at *
  generalize m.c2.x - m.c0.z = kwy at *
  generalize m.c0.y - m.c1.x = kwz at *
  generalize m.c0.y + m.c1.x = kxy at *
  generalize m.c2.x + m.c0.z = kxz at *
  generalize m.c1.z + m.c2.y = kyz at *
  by_cases hw : tw ≥ 0.5
  · rw [if_pos hw]
    have hw' : √tw * 0.5 = √tw * ((if (1 : ℝ) ≥ 0 then 1 else 0) - 0.5) := by norm_num
    obtain ⟨g1, g2, g3, g4⟩ := signed_root (k := 1) hw hw'
    generalize 0.25 / (√tw * 0.5) = f at *
    have hw0 : 0 ≤ √tw * 0.5 := mul_nonneg (Real.sqrt_nonneg _) (by norm_num)
    generalize √tw * 0.5 = w at *
    obtain ⟨k1, k2⟩ := of_products p (q := ⟨kwx * f, kwy * f, kwz * f, w⟩) g1
      (by linear_combination f ^ 2 * s1 + tx * g3) (by linear_combination f ^ 2 * s2 + ty * g3)
      (by linear_combination f ^ 2 * s3 + tz * g3) (by linear_combination kwx * g2) (by linear_combination kwy * g2)
      (by linear_combination kwz * g2) (by linear_combination f ^ 2 * a1 + kxy * g3)
      (by linear_combination f ^ 2 * a2 + kxz * g3) (by linear_combination f ^ 2 * a3 + kyz * g3)
    exact ⟨_, rfl, k1, k2, hw0⟩
  rw [if_neg hw]
  by_cases hx : tx ≥ 0.5
  · rw [if_pos hx]
    obtain ⟨g1, g2, g3, g4⟩ := signed_root (k := kwx) hx rfl
    generalize √tx * ((if kwx ≥ 0 then 1 else 0) - 0.5) = x at *
    generalize 0.25 / x = f at *
    obtain ⟨k1, k2⟩ := of_products p (q := ⟨x, kxy * f, kxz * f, kwx * f⟩)
      (by linear_combination f ^ 2 * s1 + tw * g3) g1 (by linear_combination f ^ 2 * s4 + ty * g3)
      (by linear_combination f ^ 2 * s5 + tz * g3) (by linear_combination kwx * g2)
      (by linear_combination f ^ 2 * b1 + kwy * g3) (by linear_combination f ^ 2 * b2 + kwz * g3)
      (by linear_combination kxy * g2) (by linear_combination kxz * g2)
      (by linear_combination f ^ 2 * b3 + kyz * g3)
    exact ⟨_, rfl, k1, k2, g4⟩
  rw [if_neg hx]
  by_cases hy : ty ≥ 0.5
  · rw [if_pos hy]
    obtain ⟨g1, g2, g3, g4⟩ := signed_root (k := kwy) hy rfl
    generalize √ty * ((if kwy ≥ 0 then 1 else 0) - 0.5) = y at *
    generalize 0.25 / y = f at *
    obtain ⟨k1, k2⟩ := of_products p (q := ⟨kxy * f, y, kyz * f, kwy * f⟩)
      (by linear_combination f ^ 2 * s2 + tw * g3) (by linear_combination f ^ 2 * s4 + tx * g3) g1
      (by linear_combination f ^ 2 * s6 + tz * g3) (by linear_combination f ^ 2 * c1 + kwx * g3)
      (by linear_combination kwy * g2) (by linear_combination f ^ 2 * c2 + kwz * g3)
      (by linear_combination kxy * g2) (by linear_combination f ^ 2 * c3 + kxz * g3)
      (by linear_combination kyz * g2)
    exact ⟨_, rfl, k1, k2, g4⟩
  rw [if_neg hy]
  by_cases hz : tz ≥ 0.5
  · rw [if_pos hz]
    obtain ⟨g1, g2, g3, g4⟩ := signed_root (k := kwz) hz rfl
    generalize √tz * ((if kwz ≥ 0 then 1 else 0) - 0.5) = z at *
    generalize 0.25 / z = f at *
    obtain ⟨k1, k2⟩ := of_products p (q := ⟨kxz * f, kyz * f, z, kwz * f⟩)
      (by linear_combination f ^ 2 * s3 + tw * g3) (by linear_combination f ^ 2 * s5 + tx * g3)
      (by linear_combination f ^ 2 * s6 + ty * g3) g1 (by linear_combination f ^ 2 * d1 + kwx * g3)
      (by linear_combination f ^ 2 * d2 + kwy * g3) (by linear_combination kwz * g2)
      (by linear_combination f ^ 2 * d3 + kxy * g3) (by linear_combination kxz * g2)
      (by linear_combination kyz * g2)
    exact ⟨_, rfl, k1, k2, g4⟩
  exfalso
  norm_num at hw hx hy hz
  linarith

example : fromOrtho ⟨⟨1, 0, 0⟩, ⟨0, -1, 0⟩, ⟨0, 0, -1⟩⟩ = some ⟨1, 0, 0, 0⟩ := by
  have h4 : √(4 : ℝ) = 2 := by
    rw [show (4 : ℝ) = 2 ^ 2 by norm_num]; exact Real.sqrt_sq (by norm_num)
  unfold fromOrtho
  norm_num [h4]

/-- **C78.** A quaternion made a matrix and back is the quaternion or its negative. -/
theorem C78_quat_round_trip {q : Quat} (hq : Unit4 q) :
    fromOrtho (M3.fromQuaternion q) = some q ∨ fromOrtho (M3.fromQuaternion q) = some (neg4 q) := by
  obtain ⟨r, h1, h2, h3, -⟩ := C78_from_matrix (C78_quat_matrix hq)
  have : r = q ∨ r = neg4 q := by
    apply (C78_quat_sign h2 hq).1
    intro v
    rw [← (C78_quat_forms r v v).2.2.2.1, h3, (C78_quat_forms q v v).2.2.2.1]
  rw [h1]
  rcases this with rfl | rfl
  · left; rfl
  · right; rfl

/-- **C78.** The matrices of a quaternion with a position, and back; the 4x4 matrix gives the same. -/
theorem C78_quatpos_round_trip {q : Quat} (hq : Unit4 q) (p : R3) :
    ∃ r, (r = q ∨ r = neg4 q) ∧ QuatPos.fromOrtho (M34.fromQuaternion q p) = some ⟨r, p⟩ ∧
      QuatPos.fromOrtho4 (M4.fromQuaternion q p) = some ⟨r, p⟩ := by
  have e1 : (M34.fromQuaternion q p).as3 = M3.fromQuaternion q := rfl
  have e2 : (M4.fromQuaternion q p).to3 = M3.fromQuaternion q := rfl
  rcases C78_quat_round_trip hq with h | h
  · refine ⟨q, Or.inl rfl, ?_, ?_⟩
    · unfold QuatPos.fromOrtho; rw [e1, h]; rfl
    · unfold QuatPos.fromOrtho4; rw [e2, h]; rfl
  · refine ⟨neg4 q, Or.inr rfl, ?_, ?_⟩
    · unfold QuatPos.fromOrtho; rw [e1, h]; rfl
    · unfold QuatPos.fromOrtho4; rw [e2, h]; rfl

end Verif.Xform
