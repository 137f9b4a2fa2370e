import Verif.Xform.Model
import Verif.Geom.Spec
import Mathlib.LinearAlgebra.Matrix.Notation

/-!
# What rotations, matrices and projections are

Rotations by the formula of Rodrigues and by what they preserve, matrices as those of Mathlib.
-/

noncomputable section

namespace Verif.Xform

open Verif.Geom (V2 V3 dotOf crossOf detOf)

/-- The rotation about the unit vector `u` by the angle `a`, by the right hand, applied to `v` (Rodrigues). -/
def rotated (u : R3) (a : ℝ) (v : R3) : R3 :=
  ⟨Real.cos a * v.x + Real.sin a * (crossOf u v).x + (1 - Real.cos a) * dotOf u v * u.x,
   Real.cos a * v.y + Real.sin a * (crossOf u v).y + (1 - Real.cos a) * dotOf u v * u.y,
   Real.cos a * v.z + Real.sin a * (crossOf u v).z + (1 - Real.cos a) * dotOf u v * u.z⟩

/-- A vector of length one. -/
def Unit3 (v : R3) : Prop := dotOf v v = 1

/-- A quaternion of length one. -/
def Unit4 (q : V4) : Prop := q.x ^ 2 + q.y ^ 2 + q.z ^ 2 + q.w ^ 2 = 1

/-- The square of the distance of two vectors. -/
def dist2 (a b : R3) : ℝ := (a.x - b.x) ^ 2 + (a.y - b.y) ^ 2 + (a.z - b.z) ^ 2

/-- The square of the distance of two quaternions. -/
def dist24 (a b : V4) : ℝ := (a.x - b.x) ^ 2 + (a.y - b.y) ^ 2 + (a.z - b.z) ^ 2 + (a.w - b.w) ^ 2

/-- A map of vectors that is a rotation: it is linear and preserves scalar products and vector products. -/
structure IsRotationMap (f : R3 → R3) : Prop where
  add : ∀ a b : R3, f ⟨a.x + b.x, a.y + b.y, a.z + b.z⟩ = ⟨(f a).x + (f b).x, (f a).y + (f b).y, (f a).z + (f b).z⟩
  smul : ∀ (k : ℝ) (a : R3), f ⟨k * a.x, k * a.y, k * a.z⟩ = ⟨k * (f a).x, k * (f a).y, k * (f a).z⟩
  dot : ∀ a b : R3, dotOf (f a) (f b) = dotOf a b
  cross : ∀ a b : R3, f (crossOf a b) = crossOf (f a) (f b)

/-- A rotation matrix: columns of length one, perpendicular to each other, with determinant 1. -/
structure IsRotation (m : M3) : Prop where
  u0 : Unit3 m.c0
  u1 : Unit3 m.c1
  u2 : Unit3 m.c2
  p01 : dotOf m.c0 m.c1 = 0
  p12 : dotOf m.c1 m.c2 = 0
  p20 : dotOf m.c2 m.c0 = 0
  det : detOf m.c0 m.c1 m.c2 = 1

/-- The coordinates of vectors and the entries of matrices, row by row, for Mathlib. -/
def co2 (v : R2) : Fin 2 → ℝ := ![v.x, v.y]
def co3 (v : R3) : Fin 3 → ℝ := ![v.x, v.y, v.z]
def co4 (v : V4) : Fin 4 → ℝ := ![v.x, v.y, v.z, v.w]
def mat2 (m : M2) : Matrix (Fin 2) (Fin 2) ℝ := !![m.c0.x, m.c1.x; m.c0.y, m.c1.y]
def mat3 (m : M3) : Matrix (Fin 3) (Fin 3) ℝ :=
  !![m.c0.x, m.c1.x, m.c2.x; m.c0.y, m.c1.y, m.c2.y; m.c0.z, m.c1.z, m.c2.z]
def mat4 (m : M4) : Matrix (Fin 4) (Fin 4) ℝ :=
  !![m.c0.x, m.c1.x, m.c2.x, m.c3.x; m.c0.y, m.c1.y, m.c2.y, m.c3.y; m.c0.z, m.c1.z, m.c2.z, m.c3.z;
     m.c0.w, m.c1.w, m.c2.w, m.c3.w]
/-- Three rows and four columns, completed by 0 0 0 1. -/
def mat34 (m : M34) : Matrix (Fin 4) (Fin 4) ℝ :=
  !![m.c0.x, m.c1.x, m.c2.x, m.c3.x; m.c0.y, m.c1.y, m.c2.y, m.c3.y; m.c0.z, m.c1.z, m.c2.z, m.c3.z; 0, 0, 0, 1]

/-- The point with the homogeneous coordinates `v`. -/
def point (v : V4) : R3 := ⟨v.x / v.w, v.y / v.w, v.z / v.w⟩

/-- Between two numbers, at the fraction `s` of the way. -/
def between (a b s : ℝ) : ℝ := a + s * (b - a)

end Verif.Xform
