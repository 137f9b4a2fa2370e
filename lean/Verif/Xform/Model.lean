import Verif.Geom.Model
import Mathlib.Analysis.Real.Sqrt
import Mathlib.Analysis.Complex.Trigonometric

/-!
# Quaternions, matrices and transformations

Paths are relative to repos/plywood/src; math/ = math/math/ply-math/.

Numbers are real numbers: rounding, overflow and NaN are not modelled, and `sqrtf`, `sinf` and `cosf` are the
functions they approximate.  What the theorems say therefore is what the formulas of the code compute, not how
precisely.  A failed `PLY_ASSERT` is `none`; so is reading a number that was never written.
-/

noncomputable section

namespace Verif.Xform

open Verif.Geom (V2 V3 AxisRot axisCross)

/-- `Float4`, math/Vector.h:766-780. -/
@[ext] structure V4 where
  x : ℝ
  y : ℝ
  z : ℝ
  w : ℝ

abbrev R2 := V2 ℝ
abbrev R3 := V3 ℝ

/-! ## Vectors -/

/-- `Float3 + Float3`, math/Vector.h:565-567. -/
def add3 (a b : R3) : R3 := ⟨a.x + b.x, a.y + b.y, a.z + b.z⟩
/-- `Float3 - Float3`, math/Vector.h:568-570. -/
def sub3 (a b : R3) : R3 := ⟨a.x - b.x, a.y - b.y, a.z - b.z⟩
/-- `Float3 * float`, math/Vector.h:571-573 with `Float3(float)`. -/
def scale3 (a : R3) (k : ℝ) : R3 := ⟨a.x * k, a.y * k, a.z * k⟩
/-- `Float3 * Float3`, math/Vector.h:571-573. -/
def times3 (a b : R3) : R3 := ⟨a.x * b.x, a.y * b.y, a.z * b.z⟩
/-- `-Float3`, math/Vector.h:549-551. -/
def neg3 (a : R3) : R3 := ⟨-a.x, -a.y, -a.z⟩
/-- `dot`, math/Vector.h:627-629. -/
def dot (a b : R3) : ℝ := a.x * b.x + a.y * b.y + a.z * b.z
/-- `cross`, math/Vector.cpp:47-49. -/
def cross (a b : R3) : R3 := ⟨a.y * b.z - a.z * b.y, a.z * b.x - a.x * b.z, a.x * b.y - a.y * b.x⟩
/-- `Float3::length2`, math/Vector.h:441-443. -/
def length2 (a : R3) : ℝ := a.x * a.x + a.y * a.y + a.z * a.z
/-- `Float3::length`, math/Vector.h:447-449. -/
def length (a : R3) : ℝ := √(length2 a)
/-- `Float3::isUnit`, math/Vector.h:454-456. -/
def isUnit (a : R3) : Prop := |1 - length2 a| < 0.001
/-- `Float3::normalized`, math/Vector.cpp:32-34. -/
def normalized3 (a : R3) : R3 := ⟨a.x / length a, a.y / length a, a.z / length a⟩
/-- `Float4::length2`, math/Vector.h:840-842. -/
def length24 (a : V4) : ℝ := a.x * a.x + a.y * a.y + a.z * a.z + a.w * a.w
/-- `Float4::normalized`, math/Vector.cpp:58-60. -/
def normalized4 (a : V4) : V4 :=
  let l := √(length24 a)
  ⟨a.x / l, a.y / l, a.z / l, a.w / l⟩
/-- `Float4 + Float4`, math/Vector.h:987-989. -/
def add4 (a b : V4) : V4 := ⟨a.x + b.x, a.y + b.y, a.z + b.z, a.w + b.w⟩
/-- `Float4 - Float4`, math/Vector.h:990-992. -/
def sub4 (a b : V4) : V4 := ⟨a.x - b.x, a.y - b.y, a.z - b.z, a.w - b.w⟩
/-- `Float4 * float`, math/Vector.h:993-995 with `Float4(float)`. -/
def scale4 (a : V4) (k : ℝ) : V4 := ⟨a.x * k, a.y * k, a.z * k, a.w * k⟩
/-- `-Float4`, math/Vector.h:971-973. -/
def neg4 (a : V4) : V4 := ⟨-a.x, -a.y, -a.z, -a.w⟩
/-- `mix` for `Float3`, math/Core.h:107-110. -/
def mix3 (a b : R3) (f : ℝ) : R3 := add3 (scale3 a (1 - f)) (scale3 b f)
/-- `mix` for `Float4`, math/Core.h:107-110. -/
def mix4 (a b : V4) (f : ℝ) : V4 := add4 (scale4 a (1 - f)) (scale4 b f)
/-- `mix` for numbers, math/Core.h:107-110. -/
def mix (a b f : ℝ) : ℝ := a * (1 - f) + b * f
/-- `unmix` for numbers, math/Core.h:112-115. -/
def unmix (a b x : ℝ) : ℝ := (x - a) / (b - a)

/-! ## Quaternions -/

/-- `struct Quaternion`, math/Quaternion.h:33-44; `asFloat4`, math/Quaternion.h:75-78. -/
abbrev Quat := V4

/-- `asFloat3`, math/Quaternion.h:68-71. -/
def V4.vec (q : V4) : R3 := ⟨q.x, q.y, q.z⟩

/-- `Quaternion::identity`, math/Quaternion.h:83-85. -/
def qIdentity : Quat := ⟨0, 0, 0, 1⟩

/-- `fromAxisAngle`, math/Quaternion.cpp:11-16. -/
def fromAxisAngle (u : R3) (radians : ℝ) : Quat :=
  let c := Real.cos (radians / 2)
  let s := Real.sin (radians / 2)
  ⟨s * u.x, s * u.y, s * u.z, c⟩

open Classical in
/-- `fromAxisAngle` with its assertion, math/Quaternion.cpp:11-16. -/
def fromAxisAngle? (u : R3) (radians : ℝ) : Option Quat :=
  if isUnit u then some (fromAxisAngle u radians) else none

/-- `fromUnitVectors`, math/Quaternion.cpp:18-32. -/
def fromUnitVectors (a b : R3) : Quat :=
  let w := dot a b + 1
  if w < 1e-6 then
    let notCollinear : R3 := if |a.x| < 0.9 then ⟨1, 0, 0⟩ else ⟨0, 1, 0⟩
    let axis := cross a notCollinear
    normalized4 ⟨axis.x, axis.y, axis.z, 0⟩
  else
    let v := cross a b
    normalized4 ⟨v.x, v.y, v.z, w⟩

/-- `inverted`, math/Quaternion.h:117-121. -/
def qInverted (q : Quat) : Quat := ⟨-q.x, -q.y, -q.z, q.w⟩
/-- `rotateUnitX`, math/Quaternion.cpp:74-76. -/
def rotateUnitX (q : Quat) : R3 :=
  ⟨1 - 2 * q.y * q.y - 2 * q.z * q.z, 2 * q.x * q.y + 2 * q.z * q.w, 2 * q.x * q.z - 2 * q.y * q.w⟩
/-- `rotateUnitY`, math/Quaternion.cpp:78-80. -/
def rotateUnitY (q : Quat) : R3 :=
  ⟨2 * q.x * q.y - 2 * q.z * q.w, 1 - 2 * q.x * q.x - 2 * q.z * q.z, 2 * q.y * q.z + 2 * q.x * q.w⟩
/-- `rotateUnitZ`, math/Quaternion.cpp:82-84. -/
def rotateUnitZ (q : Quat) : R3 :=
  ⟨2 * q.x * q.z + 2 * q.y * q.w, 2 * q.y * q.z - 2 * q.x * q.w, 1 - 2 * q.x * q.x - 2 * q.y * q.y⟩
/-- `negatedIfCloserTo`, math/Quaternion.cpp:86-90. -/
def negatedIfCloserTo (a b : Quat) : Quat :=
  if length24 (sub4 a b) < length24 (sub4 (neg4 a) b) then a else neg4 a
/-- `Quaternion * Float3`, math/Quaternion.cpp:92-96. -/
def qRot (q : Quat) (v : R3) : R3 :=
  let t := scale3 (cross q.vec v) 2
  add3 (add3 v (scale3 t q.w)) (cross q.vec t)
/-- `Quaternion * Quaternion`, math/Quaternion.cpp:98-103. -/
def qMul (a b : Quat) : Quat :=
  ⟨a.w * b.x + a.x * b.w + a.y * b.z - a.z * b.y,
   a.w * b.y - a.x * b.z + a.y * b.w + a.z * b.x,
   a.w * b.z + a.x * b.y - a.y * b.x + a.z * b.w,
   a.w * b.w - a.x * b.x - a.y * b.y - a.z * b.z⟩
/-- `mix(Quaternion, Quaternion, float)`, math/Quaternion.cpp:105-107. -/
def qMix (a b : Quat) (f : ℝ) : Quat := normalized4 (mix4 (negatedIfCloserTo a b) b f)

/-! ## Matrices: columns -/

/-- `Float2x2`, math/Matrix.h:31-45. -/
@[ext] structure M2 where
  c0 : R2
  c1 : R2
/-- `Float3x3`, math/Matrix.h:133-145. -/
@[ext] structure M3 where
  c0 : R3
  c1 : R3
  c2 : R3
/-- `Float3x4`, math/Matrix.h:240-272. -/
@[ext] structure M34 where
  c0 : R3
  c1 : R3
  c2 : R3
  c3 : R3
/-- `Float4x4`, math/Matrix.h:389-404. -/
@[ext] structure M4 where
  c0 : V4
  c1 : V4
  c2 : V4
  c3 : V4

/-- `Float2x2::identity`, math/Matrix.cpp:13-15. -/
def M2.identity : M2 := ⟨⟨1, 0⟩, ⟨0, 1⟩⟩
/-- `Float2x2::makeScale`, math/Matrix.cpp:17-19. -/
def M2.makeScale (s : R2) : M2 := ⟨⟨s.x, 0⟩, ⟨0, s.y⟩⟩
/-- `Float2x2::fromComplex`, math/Matrix.cpp:25-27. -/
def M2.fromComplex (c : R2) : M2 := ⟨⟨c.x, c.y⟩, ⟨-c.y, c.x⟩⟩
/-- `Complex::fromAngle`, math/Complex.h:16-20. -/
def fromAngle (radians : ℝ) : R2 := ⟨Real.cos radians, Real.sin radians⟩
/-- `Complex::mul`, math/Complex.h:26-28. -/
def complexMul (a b : R2) : R2 := ⟨a.x * b.x - a.y * b.y, a.x * b.y + a.y * b.x⟩
/-- `Float2x2::makeRotation`, math/Matrix.cpp:21-23. -/
def M2.makeRotation (radians : ℝ) : M2 := M2.fromComplex (fromAngle radians)
/-- `Float2x2::transposed`, math/Matrix.cpp:29-36. -/
def M2.transposed (m : M2) : M2 := ⟨⟨m.c0.x, m.c1.x⟩, ⟨m.c0.y, m.c1.y⟩⟩
/-- `Float2x2 * Float2`, math/Matrix.cpp:42-54. -/
def M2.mulVec (m : M2) (v : R2) : R2 := ⟨m.c0.x * v.x + m.c1.x * v.y, m.c0.y * v.x + m.c1.y * v.y⟩
/-- `Float2x2 * Float2x2`, math/Matrix.cpp:56-62. -/
def M2.mul (a b : M2) : M2 := ⟨a.mulVec b.c0, a.mulVec b.c1⟩

/-- `Float3x3::identity`, math/Matrix.cpp:67-69. -/
def M3.identity : M3 := ⟨⟨1, 0, 0⟩, ⟨0, 1, 0⟩, ⟨0, 0, 1⟩⟩
/-- `Float3x3::makeScale`, math/Matrix.cpp:71-73. -/
def M3.makeScale (a : R3) : M3 := ⟨⟨a.x, 0, 0⟩, ⟨0, a.y, 0⟩, ⟨0, 0, a.z⟩⟩
/-- `Float3x3::fromQuaternion`, math/Matrix.cpp:79-86. -/
def M3.fromQuaternion (q : Quat) : M3 :=
  ⟨⟨1 - 2 * q.y * q.y - 2 * q.z * q.z, 2 * q.x * q.y + 2 * q.z * q.w, 2 * q.x * q.z - 2 * q.y * q.w⟩,
   ⟨2 * q.x * q.y - 2 * q.z * q.w, 1 - 2 * q.x * q.x - 2 * q.z * q.z, 2 * q.y * q.z + 2 * q.x * q.w⟩,
   ⟨2 * q.x * q.z + 2 * q.y * q.w, 2 * q.y * q.z - 2 * q.x * q.w, 1 - 2 * q.x * q.x - 2 * q.y * q.y⟩⟩
/-- `Float3x3::transposed`, math/Matrix.cpp:92-100. -/
def M3.transposed (m : M3) : M3 :=
  ⟨⟨m.c0.x, m.c1.x, m.c2.x⟩, ⟨m.c0.y, m.c1.y, m.c2.y⟩, ⟨m.c0.z, m.c1.z, m.c2.z⟩⟩
/-- `Float3x3 * Float3`, math/Matrix.cpp:113-125. -/
def M3.mulVec (m : M3) (v : R3) : R3 :=
  ⟨m.c0.x * v.x + m.c1.x * v.y + m.c2.x * v.z, m.c0.y * v.x + m.c1.y * v.y + m.c2.y * v.z,
   m.c0.z * v.x + m.c1.z * v.y + m.c2.z * v.z⟩
/-- `Float3x3 * Float3x3`, math/Matrix.cpp:127-133. -/
def M3.mul (a b : M3) : M3 := ⟨a.mulVec b.c0, a.mulVec b.c1, a.mulVec b.c2⟩

/-- `asFloat3x3`, math/Matrix.h:270-272. -/
def M34.as3 (m : M34) : M3 := ⟨m.c0, m.c1, m.c2⟩
/-- `Float3x4(Float3x3, Float3)`, math/Matrix.cpp:138-143. -/
def M34.of3 (m : M3) (pos : R3) : M34 := ⟨m.c0, m.c1, m.c2, pos⟩
/-- `Float3x4::toFloat4x4`, math/Matrix.cpp:145-147. -/
def M34.toM4 (m : M34) : M4 :=
  ⟨⟨m.c0.x, m.c0.y, m.c0.z, 0⟩, ⟨m.c1.x, m.c1.y, m.c1.z, 0⟩, ⟨m.c2.x, m.c2.y, m.c2.z, 0⟩, ⟨m.c3.x, m.c3.y, m.c3.z, 1⟩⟩
/-- `Float3x4::identity`, math/Matrix.cpp:149-151. -/
def M34.identity : M34 := ⟨⟨1, 0, 0⟩, ⟨0, 1, 0⟩, ⟨0, 0, 1⟩, ⟨0, 0, 0⟩⟩
/-- `Float3x4::makeScale`, math/Matrix.cpp:153-155. -/
def M34.makeScale (a : R3) : M34 := ⟨⟨a.x, 0, 0⟩, ⟨0, a.y, 0⟩, ⟨0, 0, a.z⟩, ⟨0, 0, 0⟩⟩
/-- `Float3x4::makeTranslation`, math/Matrix.cpp:161-163. -/
def M34.makeTranslation (pos : R3) : M34 := ⟨⟨1, 0, 0⟩, ⟨0, 1, 0⟩, ⟨0, 0, 1⟩, pos⟩
/-- `Float3x4::fromQuaternion`, math/Matrix.cpp:165-173. -/
def M34.fromQuaternion (q : Quat) (pos : R3) : M34 :=
  ⟨⟨1 - 2 * q.y * q.y - 2 * q.z * q.z, 2 * q.x * q.y + 2 * q.z * q.w, 2 * q.x * q.z - 2 * q.y * q.w⟩,
   ⟨2 * q.x * q.y - 2 * q.z * q.w, 1 - 2 * q.x * q.x - 2 * q.z * q.z, 2 * q.y * q.z + 2 * q.x * q.w⟩,
   ⟨2 * q.x * q.z + 2 * q.y * q.w, 2 * q.y * q.z - 2 * q.x * q.w, 1 - 2 * q.x * q.x - 2 * q.y * q.y⟩,
   pos⟩
/-- `Float3x4::invertedOrtho`, math/Matrix.cpp:179-184. -/
def M34.invertedOrtho (m : M34) : M34 :=
  let r := m.as3.transposed
  ⟨r.c0, r.c1, r.c2, r.mulVec (neg3 m.c3)⟩
/-- `Float3x4 * Float3`, math/Matrix.cpp:197-209. -/
def M34.mulVec (m : M34) (v : R3) : R3 :=
  ⟨m.c0.x * v.x + m.c1.x * v.y + m.c2.x * v.z + m.c3.x, m.c0.y * v.x + m.c1.y * v.y + m.c2.y * v.z + m.c3.y,
   m.c0.z * v.x + m.c1.z * v.y + m.c2.z * v.z + m.c3.z⟩
/-- `Float3x4 * Float4`, math/Matrix.cpp:211-224. -/
def M34.mulVec4 (m : M34) (v : V4) : V4 :=
  ⟨m.c0.x * v.x + m.c1.x * v.y + m.c2.x * v.z + m.c3.x * v.w, m.c0.y * v.x + m.c1.y * v.y + m.c2.y * v.z + m.c3.y * v.w,
   m.c0.z * v.x + m.c1.z * v.y + m.c2.z * v.z + m.c3.z * v.w, v.w⟩
/-- `Float3x4 * Float3x4`, math/Matrix.cpp:226-233. -/
def M34.mul (a b : M34) : M34 := ⟨a.as3.mulVec b.c0, a.as3.mulVec b.c1, a.as3.mulVec b.c2, a.mulVec b.c3⟩

/-- `Float4x4(Float3x3, Float3)`, math/Matrix.cpp:238-243. -/
def M4.of3 (m : M3) (pos : R3) : M4 :=
  ⟨⟨m.c0.x, m.c0.y, m.c0.z, 0⟩, ⟨m.c1.x, m.c1.y, m.c1.z, 0⟩, ⟨m.c2.x, m.c2.y, m.c2.z, 0⟩, ⟨pos.x, pos.y, pos.z, 1⟩⟩
/-- `Float4x4::toFloat3x3`, math/Matrix.cpp:245-247. -/
def M4.to3 (m : M4) : M3 := ⟨m.c0.vec, m.c1.vec, m.c2.vec⟩
/-- `Float4x4::toFloat3x4`, math/Matrix.cpp:249-251. -/
def M4.to34 (m : M4) : M34 := ⟨m.c0.vec, m.c1.vec, m.c2.vec, m.c3.vec⟩
/-- `Float4x4::identity`, math/Matrix.cpp:253-255. -/
def M4.identity : M4 := ⟨⟨1, 0, 0, 0⟩, ⟨0, 1, 0, 0⟩, ⟨0, 0, 1, 0⟩, ⟨0, 0, 0, 1⟩⟩
/-- `Float4x4::makeScale`, math/Matrix.cpp:257-259. -/
def M4.makeScale (a : R3) : M4 := ⟨⟨a.x, 0, 0, 0⟩, ⟨0, a.y, 0, 0⟩, ⟨0, 0, a.z, 0⟩, ⟨0, 0, 0, 1⟩⟩
/-- `Float4x4::makeTranslation`, math/Matrix.cpp:265-267. -/
def M4.makeTranslation (pos : R3) : M4 := ⟨⟨1, 0, 0, 0⟩, ⟨0, 1, 0, 0⟩, ⟨0, 0, 1, 0⟩, ⟨pos.x, pos.y, pos.z, 1⟩⟩
/-- `Float4x4::fromQuaternion`, math/Matrix.cpp:269-277. -/
def M4.fromQuaternion (q : Quat) (pos : R3) : M4 :=
  ⟨⟨1 - 2 * q.y * q.y - 2 * q.z * q.z, 2 * q.x * q.y + 2 * q.z * q.w, 2 * q.x * q.z - 2 * q.y * q.w, 0⟩,
   ⟨2 * q.x * q.y - 2 * q.z * q.w, 1 - 2 * q.x * q.x - 2 * q.z * q.z, 2 * q.y * q.z + 2 * q.x * q.w, 0⟩,
   ⟨2 * q.x * q.z + 2 * q.y * q.w, 2 * q.y * q.z - 2 * q.x * q.w, 1 - 2 * q.x * q.x - 2 * q.y * q.y, 0⟩,
   ⟨pos.x, pos.y, pos.z, 1⟩⟩
/-- `Rect`, math/Vector.h:1190: a `Box<Float2>`, math/Box.h:10-15. -/
structure Rect where
  mins : R2
  maxs : R2
/-- `rectFromFov`, math/Vector.cpp:24-27, with `expand`, math/Box.h:110-112. -/
def rectFromFov (fovY aspect : ℝ) : Rect :=
  let halfTanY := Real.tan (fovY / 2)
  ⟨⟨0 - halfTanY * aspect, 0 - halfTanY⟩, ⟨0 + halfTanY * aspect, 0 + halfTanY⟩⟩
/-- `Float4x4::makeProjection`, math/Matrix.cpp:279-293; what is not assigned is 0. -/
def M4.makeProjection (frustum : Rect) (zNear zFar : ℝ) : Option M4 :=
  if zNear > 0 ∧ zFar > 0 then
    let ooXDenom := 1 / (frustum.maxs.x - frustum.mins.x)
    let ooYDenom := 1 / (frustum.maxs.y - frustum.mins.y)
    let ooZDenom := 1 / (zNear - zFar)
    some ⟨⟨2 * ooXDenom, 0, 0, 0⟩, ⟨0, 2 * ooYDenom, 0, 0⟩,
      ⟨(frustum.mins.x + frustum.maxs.x) * ooXDenom, (frustum.mins.y + frustum.maxs.y) * ooXDenom,
        (zNear + zFar) * ooZDenom, -1⟩,
      ⟨0, 0, (2 * zNear * zFar) * ooZDenom, 0⟩⟩
  else none
/-- `Float4x4::makeOrtho`, math/Matrix.cpp:295-308, with `mid`, math/Box.h:127-129. -/
def M4.makeOrtho (rect : Rect) (zNear zFar : ℝ) : M4 :=
  let tow := 2 / (rect.maxs.x - rect.mins.x)
  let toh := 2 / (rect.maxs.y - rect.mins.y)
  let ooZRange := 1 / (zNear - zFar)
  ⟨⟨tow, 0, 0, 0⟩, ⟨0, toh, 0, 0⟩, ⟨0, 0, 2 * ooZRange, 0⟩,
    ⟨-((rect.mins.x + rect.maxs.x) * 0.5) * tow, -((rect.mins.y + rect.maxs.y) * 0.5) * toh,
      (zNear + zFar) * ooZRange, 1⟩⟩
/-- `Float4x4::transposed`, math/Matrix.cpp:310-319. -/
def M4.transposed (m : M4) : M4 :=
  ⟨⟨m.c0.x, m.c1.x, m.c2.x, m.c3.x⟩, ⟨m.c0.y, m.c1.y, m.c2.y, m.c3.y⟩, ⟨m.c0.z, m.c1.z, m.c2.z, m.c3.z⟩,
   ⟨m.c0.w, m.c1.w, m.c2.w, m.c3.w⟩⟩
/-- `Float4x4 * Float4`, math/Matrix.cpp:342-354. -/
def M4.mulVec (m : M4) (v : V4) : V4 :=
  ⟨m.c0.x * v.x + m.c1.x * v.y + m.c2.x * v.z + m.c3.x * v.w, m.c0.y * v.x + m.c1.y * v.y + m.c2.y * v.z + m.c3.y * v.w,
   m.c0.z * v.x + m.c1.z * v.y + m.c2.z * v.z + m.c3.z * v.w, m.c0.w * v.x + m.c1.w * v.y + m.c2.w * v.z + m.c3.w * v.w⟩
/-- `Float4x4::invertedOrtho`, math/Matrix.cpp:321-329. -/
def M4.invertedOrtho (m : M4) : M4 :=
  let r := m.transposed
  let r : M4 := { r with c0 := { r.c0 with w := 0 } }
  let r : M4 := { r with c1 := { r.c1 with w := 0 } }
  let r : M4 := { r with c2 := { r.c2 with w := 0 } }
  let r : M4 := { r with c3 := r.mulVec (neg4 m.c3) }
  { r with c3 := { r.c3 with w := 1 } }
/-- `Float4x4 * Float4x4`, math/Matrix.cpp:356-362. -/
def M4.mul (a b : M4) : M4 := ⟨a.mulVec b.c0, a.mulVec b.c1, a.mulVec b.c2, a.mulVec b.c3⟩
/-- `Float3x4 * Float4x4`, math/Matrix.cpp:364-370. -/
def M34.mul4 (a : M34) (b : M4) : M4 := ⟨a.mulVec4 b.c0, a.mulVec4 b.c1, a.mulVec4 b.c2, a.mulVec4 b.c3⟩
/-- `Float4x4 * Float3x4`, math/Matrix.cpp:372-379. -/
def M4.mul34 (a : M4) (b : M34) : M4 :=
  ⟨a.mulVec ⟨b.c0.x, b.c0.y, b.c0.z, 0⟩, a.mulVec ⟨b.c1.x, b.c1.y, b.c1.z, 0⟩, a.mulVec ⟨b.c2.x, b.c2.y, b.c2.z, 0⟩,
   a.mulVec ⟨b.c3.x, b.c3.y, b.c3.z, 1⟩⟩

/-- `quaternionFromOrtho`, math/Quaternion.cpp:34-62: `m[c][r]` is row `r` of column `c`.  The 3x3 and the 4x4
matrix, math/Quaternion.cpp:64-72, have the same first three rows and columns. -/
def fromOrtho (m : M3) : Option Quat :=
  let t := 1 + m.c0.x + m.c1.y + m.c2.z
  if t ≥ 0.5 then
    let w := √t * 0.5
    let f := 0.25 / w
    some ⟨(m.c1.z - m.c2.y) * f, (m.c2.x - m.c0.z) * f, (m.c0.y - m.c1.x) * f, w⟩
  else
    let t := 1 + m.c0.x - m.c1.y - m.c2.z
    if t ≥ 0.5 then
      let wco := m.c1.z - m.c2.y
      let x := √t * ((if wco ≥ 0 then 1 else 0) - 0.5)
      let f := 0.25 / x
      some ⟨x, (m.c0.y + m.c1.x) * f, (m.c2.x + m.c0.z) * f, wco * f⟩
    else
      let t := 1 - m.c0.x + m.c1.y - m.c2.z
      if t ≥ 0.5 then
        let wco := m.c2.x - m.c0.z
        let y := √t * ((if wco ≥ 0 then 1 else 0) - 0.5)
        let f := 0.25 / y
        some ⟨(m.c0.y + m.c1.x) * f, y, (m.c1.z + m.c2.y) * f, wco * f⟩
      else
        let t := 1 - m.c0.x - m.c1.y + m.c2.z
        if t ≥ 0.5 then
          let wco := m.c0.y - m.c1.x
          let z := √t * ((if wco ≥ 0 then 1 else 0) - 0.5)
          let f := 0.25 / z
          some ⟨(m.c2.x + m.c0.z) * f, (m.c1.z + m.c2.y) * f, z, wco * f⟩
        else none

/-! ## Rotation and translation -/

/-- `struct QuatPos`, math/QuatPos.h:75-99. -/
@[ext] structure QuatPos where
  quat : Quat
  pos : R3

/-- `explicit QuatPos(const Quaternion&)`, math/QuatPos.h:93-94: the position keeps what was in memory. -/
def QuatPos.ofQuat (memory : R3) (q : Quat) : QuatPos := ⟨q, memory⟩
/-- `QuatPos::inverted`, math/QuatPos.cpp:10-13. -/
def QuatPos.inverted (a : QuatPos) : QuatPos :=
  let qi := qInverted a.quat
  ⟨qi, qRot qi (neg3 a.pos)⟩
/-- `QuatPos::identity`, math/QuatPos.cpp:15-17. -/
def QuatPos.identity : QuatPos := ⟨⟨0, 0, 0, 1⟩, ⟨0, 0, 0⟩⟩
/-- `QuatPos::makeTranslation`, math/QuatPos.cpp:19-21. -/
def QuatPos.makeTranslation (pos : R3) : QuatPos := ⟨⟨0, 0, 0, 1⟩, pos⟩
/-- `QuatPos::fromOrtho(Float3x4)`, math/QuatPos.cpp:27-29. -/
def QuatPos.fromOrtho (m : M34) : Option QuatPos := (Xform.fromOrtho m.as3).map fun q => ⟨q, m.c3⟩
/-- `QuatPos::fromOrtho(Float4x4)`, math/QuatPos.cpp:31-33. -/
def QuatPos.fromOrtho4 (m : M4) : Option QuatPos := (Xform.fromOrtho m.to3).map fun q => ⟨q, m.c3.vec⟩
/-- `QuatPos * Float3`, math/QuatPos.h:138-140. -/
def QuatPos.mulVec (a : QuatPos) (v : R3) : R3 := add3 (qRot a.quat v) a.pos
/-- `QuatPos * QuatPos`, math/QuatPos.h:146-148. -/
def QuatPos.mul (a b : QuatPos) : QuatPos := ⟨qMul a.quat b.quat, add3 (qRot a.quat b.pos) a.pos⟩
/-- `QuatPos * Quaternion`, math/QuatPos.h:149-151. -/
def QuatPos.mulQuat (a : QuatPos) (b : Quat) : QuatPos := ⟨qMul a.quat b, a.pos⟩
/-- `Quaternion * QuatPos`, math/QuatPos.h:152-154. -/
def qMulQuatPos (a : Quat) (b : QuatPos) : QuatPos := ⟨qMul a b.quat, qRot a b.pos⟩
/-- `mix(QuatPos, QuatPos, float)`, math/QuatPos.h:223-228. -/
def QuatPos.mix (lo hi : QuatPos) (f : ℝ) : QuatPos := ⟨qMix lo.quat hi.quat f, mix3 lo.pos hi.pos f⟩

/-- `struct QuatPosScale`, math/QuatPos.h:170-184. -/
@[ext] structure QuatPosScale where
  quat : Quat
  pos : R3
  scale : R3

/-- `QuatPosScale::identity`, math/QuatPos.h:186-188. -/
def QuatPosScale.identity : QuatPosScale := ⟨qIdentity, ⟨0, 0, 0⟩, ⟨1, 1, 1⟩⟩
/-- `QuatPosScale::makeTranslation`, math/QuatPos.h:190-192. -/
def QuatPosScale.makeTranslation (pos : R3) : QuatPosScale := ⟨⟨0, 0, 0, 1⟩, pos, ⟨1, 1, 1⟩⟩
/-- `QuatPosScale::makeScale`, math/QuatPos.h:194-196. -/
def QuatPosScale.makeScale (scale : R3) : QuatPosScale := ⟨⟨0, 0, 0, 1⟩, ⟨0, 0, 0⟩, scale⟩
/-- `QuatPos * QuatPosScale`, math/QuatPos.h:198-200. -/
def QuatPosScale.after (a : QuatPos) (b : QuatPosScale) : QuatPosScale :=
  ⟨qMul a.quat b.quat, add3 (qRot a.quat b.pos) a.pos, b.scale⟩
/-- `QuatPosScale * Float3`, math/QuatPos.h:202-204. -/
def QuatPosScale.mulVec (a : QuatPosScale) (p : R3) : R3 := add3 (qRot a.quat (times3 p a.scale)) a.pos
/-- `QuatPosScale::toFloat4x4`, math/QuatPos.h:206-208. -/
def QuatPosScale.toM4 (a : QuatPosScale) : M4 := (M4.fromQuaternion a.quat a.pos).mul (M4.makeScale a.scale)
/-- `QuatPosScale::toFloat3x4`, math/QuatPos.h:210-212. -/
def QuatPosScale.toM34 (a : QuatPosScale) : M34 := (M34.fromQuaternion a.quat a.pos).mul (M34.makeScale a.scale)

/-- `struct ScalePos2`, math/QuatPos.h:15-23. -/
@[ext] structure ScalePos2 where
  scale : R2
  pos : R2

/-- `ScalePos2::identity`, math/QuatPos.h:25-27. -/
def ScalePos2.identity : ScalePos2 := ⟨⟨1, 1⟩, ⟨0, 0⟩⟩
/-- `ScalePos2::makeScale`, math/QuatPos.h:29-31. -/
def ScalePos2.makeScale (scale : R2) : ScalePos2 := ⟨scale, ⟨0, 0⟩⟩
/-- `ScalePos2::makeTranslation`, math/QuatPos.h:33-35. -/
def ScalePos2.makeTranslation (pos : R2) : ScalePos2 := ⟨⟨0, 0⟩, pos⟩
/-- `ScalePos2::mapToRect`, math/QuatPos.h:37-39, with `size`, math/Box.h:89-91. -/
def ScalePos2.mapToRect (r : Rect) : ScalePos2 := ⟨⟨r.maxs.x - r.mins.x, r.maxs.y - r.mins.y⟩, r.mins⟩
/-- `ScalePos2 * ScalePos2`, math/QuatPos.h:41-43. -/
def ScalePos2.mul (a b : ScalePos2) : ScalePos2 :=
  ⟨⟨a.scale.x * b.scale.x, a.scale.y * b.scale.y⟩, ⟨a.scale.x * b.pos.x + a.pos.x, a.scale.y * b.pos.y + a.pos.y⟩⟩
/-- `ScalePos2 * Float2`, math/QuatPos.h:45-47. -/
def ScalePos2.mulVec (a : ScalePos2) (p : R2) : R2 := ⟨a.scale.x * p.x + a.pos.x, a.scale.y * p.y + a.pos.y⟩
/-- `ScalePos2::inverted`, math/QuatPos.h:49-52. -/
def ScalePos2.inverted (a : ScalePos2) : ScalePos2 :=
  let oo : R2 := ⟨1 / a.scale.x, 1 / a.scale.y⟩
  ⟨oo, ⟨-a.pos.x * oo.x, -a.pos.y * oo.y⟩⟩
/-- `ScalePos2 * Rect`, math/QuatPos.h:59-61. -/
def ScalePos2.mulRect (a : ScalePos2) (r : Rect) : Rect := ⟨a.mulVec r.mins, a.mulVec r.maxs⟩

/-! ## Directions to matrices -/

/-- `lookAt`, math/Extra.h:14-25. -/
def lookAt (direction : R3) : M4 :=
  let fwd := normalized3 direction
  let up : R3 := ⟨0, 0, 1⟩
  let right := normalized3 (cross fwd up)
  let up := cross right fwd
  let m : M4 := ⟨⟨right.x, right.y, right.z, 0⟩, ⟨up.x, up.y, up.z, 0⟩, ⟨-fwd.x, -fwd.y, -fwd.z, 0⟩, ⟨0, 0, 0, 1⟩⟩
  m.transposed

/-- `notCollinear`, math/Extra.h:27-29. -/
def notCollinear (u : R3) : R3 := if u.z * u.z < 0.9 then ⟨0, 0, 1⟩ else ⟨0, -1, 0⟩
/-- `anyPerp`, math/Extra.h:31-33. -/
def anyPerp (u : R3) : R3 := cross u (notCollinear u)

/-- The three columns `right`, `fwd`, `up` of `makeBasis`, math/Extra.h:37-48. -/
def basisOf (fwd up : R3) : M3 :=
  let right := cross fwd up
  let l2 := length2 right
  let right := if l2 < 1e-6 then cross fwd (if fwd.z * fwd.z < 0.9 then ⟨0, 0, 1⟩ else ⟨0, -1, 0⟩) else right
  let l2 := if l2 < 1e-6 then length2 right else l2
  let right : R3 := ⟨right.x / √l2, right.y / √l2, right.z / √l2⟩
  ⟨right, fwd, cross right fwd⟩

open Classical in
/-- `makeBasis(unitFwdTo, upTo, fwdFrom, upFrom)`, math/Extra.h:35-50. -/
def makeBasis (fwdTo upTo : R3) (fwdFrom upFrom : Nat) : Option M3 := do
  let m := basisOf fwdTo upTo
  if |length m.c2 - 1| < 0.001 then
    let x ← axisCross fwdFrom upFrom
    let inv ← (AxisRot.mk x fwdFrom upFrom).inverted
    let n ← (inv.toMat : Option (V3 (V3 ℝ)))
    some (m.mul ⟨n.x, n.y, n.z⟩)
  else none

/-- `makeBasis(unitFwd, fwdFrom)`, math/Extra.h:52-56. -/
def makeBasis1 (fwd : R3) (fwdFrom : Nat) : Option M3 :=
  let upFrom := fwdFrom + 2
  let upFrom := upFrom - (if upFrom ≥ 6 then 6 else 0)
  makeBasis fwd (notCollinear fwd) fwdFrom upFrom

/-- `approach(T, T, float)` for vectors, math/Extra.h:59-64. -/
def approach (a b : R3) (step : ℝ) : R3 :=
  let delta := sub3 b a
  let len := length delta
  if len < step then b else add3 a (scale3 delta (step / len))

/-! ## Curves -/

/-- `interpolateCubic`, math/Interpolate.h:10-15, for numbers; vectors are treated by coordinates. -/
def interpolateCubic (p0 p1 p2 p3 t : ℝ) : ℝ :=
  let omt := 1 - t
  p0 * (omt * omt * omt) + p1 * (3 * omt * omt * t) + p2 * (3 * omt * t * t) + p3 * (t * t * t)

/-- `derivativeCubic`, math/Interpolate.h:17-26. -/
def derivativeCubic (p0 p1 p2 p3 t : ℝ) : ℝ :=
  let q0 := p1 - p0
  let q1 := p2 - p1
  let q2 := p3 - p2
  let r0 := mix q0 q1 t
  let r1 := mix q1 q2 t
  mix r0 r1 t

/-- `applySimpleCubic`, math/Interpolate.h:28-30. -/
def applySimpleCubic (t : ℝ) : ℝ := (3 - 2 * t) * t * t

end Verif.Xform
