import Verif.Geom.Spec
import Mathlib.Tactic.IntervalCases

/-!
# Axis directions, axis rotations and boxes: C77

The theorems about directions alone are proved by going through all of them, which is the whole domain; those
about vectors and boxes hold for all coordinates.
-/

namespace Verif.Geom

theorem V3.ext' {K : Type} {a b : V3 K} (h1 : a.x = b.x) (h2 : a.y = b.y) (h3 : a.z = b.z) : a = b := by
  cases a; cases b; simp_all

theorem V2.ext' {K : Type} {a b : V2 K} (h1 : a.x = b.x) (h2 : a.y = b.y) : a = b := by
  cases a; cases b; simp_all

theorem gives_some {α : Type} {o : Option α} {P : α → Prop} (h : Gives o P) : ∃ a, o = some a ∧ P a := by
  cases o with
  | none => exact h.elim
  | some a => exact ⟨a, rfl, h⟩

/-! ## Directions -/

/-- **C77.** Scalar products of directions. -/
theorem C77_dot : ∀ a < 6, ∀ b < 6, axisDot a b = dotOf (unit a) (unit b) ∧
    (isPerp a b = true ↔ dotOf (unit a) (unit b) = 0) := by decide

example : axisDot 2 3 = -1 := by decide

/-- **C77.** Vector products of directions: right where the directions are perpendicular; where they are not, the
product is not a direction, and the assertion fails. -/
theorem C77_cross : ∀ a < 6, ∀ b < 6,
    (dotOf (unit a) (unit b) = 0 →
      Gives (axisCross a b) fun c => c < 6 ∧ unit c = crossOf (unit a) (unit b)) ∧
    (dotOf (unit a) (unit b) ≠ 0 → axisCross a b = none ∧ crossOf (unit a) (unit b) = ⟨0, 0, 0⟩) := by decide

example : axisCross 4 0 = some 2 := by decide
example : axisCross 4 5 = none := by decide

/-- **C77.** The opposite direction, the positive direction of the same axis, the sign, and the product with a
sign. -/
theorem C77_signs : ∀ a < 6,
    unit (axisNegate a) = ⟨-(unit a).x, -(unit a).y, -(unit a).z⟩ ∧ axisNegate a < 6 ∧
    axisAbs a < 6 ∧
    unit a = ⟨axisSgn a * (unit (axisAbs a)).x, axisSgn a * (unit (axisAbs a)).y, axisSgn a * (unit (axisAbs a)).z⟩ ∧
    unit (axisAbs a) = ⟨(unit a).x.natAbs, (unit a).y.natAbs, (unit a).z.natAbs⟩ ∧
    mulSign a 1 = some a ∧ mulSign a (-1) = some (axisNegate a) := by decide

/-- **C77.** A direction is the vector it stands for. -/
theorem C77_vector {K : Type} [CommRing K] {a : Axis3} (ha : a < 6) : axisToVec (K := K) a = some (cast3 K (unit a)) := by
  interval_cases a <;> simp [axisToVec, cast3, unit]

/-- **C77.** The scalar product of a direction and a vector. -/
theorem C77_dot_vector {K : Type} [CommRing K] {a : Axis3} (ha : a < 6) (v : V3 K) :
    axisDotVec a v = some (dotOf (cast3 K (unit a)) v) := by
  interval_cases a <;> simp [axisDotVec, V3.at, cast3, unit, dotOf]

example : axisDotVec 3 (⟨5, 7, 9⟩ : V3 Int) = some (-7) := by decide

/-! ## The plane -/

/-- **C77.** A direction in the plane, applied to a vector, turns it by as many quarter turns. -/
theorem C77_plane_turn {K : Type} [CommRing K] {a : Axis2} (ha : a < 4) (v : V2 K) :
    axis2Rot a v = turns a v ∧ axis2ToVec (K := K) a = some (turns a ⟨1, 0⟩) := by
  interval_cases a <;> constructor <;>
    simp [axis2Rot, axis2Sgn, turns, quarter, axis2ToVec]

/-- **C77.** Turns add up, and `negate` gives the turn back. -/
theorem C77_plane_group {K : Type} [CommRing K] {a b : Axis2} (ha : a < 4) (hb : b < 4) (v : V2 K) :
    axis2Rot a (axis2Rot b v) = axis2Rot ((a + b) % 4) v ∧ axis2Negate a < 4 ∧
    axis2Rot (axis2Negate a) (axis2Rot a v) = v := by
  interval_cases a <;> interval_cases b <;> simp [axis2Rot, axis2Sgn, axis2Negate]

/-- **C77, what fails.** `negate` does not give the opposite direction, as it does in space: the directions of
the first axis stay. -/
theorem C77_plane_negate_wrong :
    (∀ a < 4, (unit2 (axis2Negate a) = ⟨-(unit2 a).x, -(unit2 a).y⟩ ↔ a % 2 = 1)) ∧
    axis2Negate 0 = 0 ∧ axis2Negate 2 = 2 := by decide

/-- **C77.** Directions in the plane as directions in space and back; a direction out of the plane fails an
assertion. -/
theorem C77_plane_space : (∀ a < 4, ∃ b, b < 6 ∧ toAxis3 a = some b ∧ toAxis2 b = some a ∧
      unit b = ⟨(unit2 a).x, (unit2 a).y, 0⟩) ∧ toAxis2 4 = none ∧ toAxis2 5 = none := by
  refine ⟨?_, rfl, rfl⟩
  intro a ha
  interval_cases a
  · exact ⟨0, by decide⟩
  · exact ⟨2, by decide⟩
  · exact ⟨1, by decide⟩
  · exact ⟨3, by decide⟩

/-! ## Rotations -/

theorem mk_valid {a b c : Nat} (h : (⟨a, b, c⟩ : AxisRot).isValid = true) : a < 6 ∧ b < 6 ∧ c < 6 := by
  simp only [AxisRot.isValid, axisValid, Bool.and_eq_true, decide_eq_true_eq] at h
  exact ⟨h.1.1, h.1.2, h.2⟩

/-- The checks of the code are the right ones. -/
theorem C77_checks (r : AxisRot) : Proper r ↔ r.isValid = true ∧ r.isOrtho = true := by
  obtain ⟨a, b, c⟩ := r
  constructor
  · rintro ⟨h1, h2, h3, h⟩
    have key : ∀ a < 6, ∀ b < 6, ∀ c < 6, Proper ⟨a, b, c⟩ →
        (⟨a, b, c⟩ : AxisRot).isValid = true ∧ (⟨a, b, c⟩ : AxisRot).isOrtho = true := by decide
    exact key a h1 b h2 c h3 ⟨h1, h2, h3, h⟩
  · rintro ⟨h1, h2⟩
    have key : ∀ a < 6, ∀ b < 6, ∀ c < 6, (⟨a, b, c⟩ : AxisRot).isOrtho = true → Proper ⟨a, b, c⟩ := by decide
    obtain ⟨ha, hb, hc⟩ := mk_valid h1
    exact key a ha b hb c hc h2

/-- All proper rotations. -/
def allProper : List AxisRot :=
  (((List.range 6).flatMap fun a => (List.range 6).flatMap fun b => (List.range 6).map fun c =>
    (⟨a, b, c⟩ : AxisRot))).filter fun r => decide (Proper r)

/-- What holds for all proper rotations, by going through them. -/
theorem proper_all {P : AxisRot → Prop} (h : ∀ r ∈ allProper, P r) {r : AxisRot} (hr : Proper r) : P r := by
  apply h
  have ⟨h1, h2, h3, _⟩ := hr
  simp only [allProper, List.mem_filter, List.mem_flatMap, List.mem_map, List.mem_range, decide_eq_true_eq]
  exact ⟨⟨r.c0, h1, r.c1, h2, r.c2, h3, rfl⟩, hr⟩

/-- **C77.** A rotation applied to a vector is the matrix of the images of the axes applied to it. -/
theorem C77_rot_vector {K : Type} [CommRing K] {r : AxisRot} (hr : Proper r) (v : V3 K) :
    r.mulVec v = some (Acts r v) := by
  have ho := ((C77_checks r).1 hr).2
  obtain ⟨a, b, c⟩ := r
  obtain ⟨h1, h2, h3, _⟩ := hr
  dsimp only at h1 h2 h3
  interval_cases a <;> interval_cases b <;> (try exact absurd ho (by decide)) <;>
    interval_cases c <;> (try exact absurd ho (by decide)) <;>
    simp [AxisRot.mulVec, AxisRot.isOrtho, isPerp, V3.put, axisSgn, Acts, apply3, cast3, unit]

example : Proper ⟨3, 0, 4⟩ := by decide
example : (⟨3, 0, 4⟩ : AxisRot).mulVec (⟨1, 2, 3⟩ : V3 Int) = some ⟨2, -1, 3⟩ := by decide

/-- **C77.** A rotation applied to a direction. -/
theorem C77_rot_axis {r : AxisRot} (hr : Proper r) : ∀ a < 6, ∃ b, r.mulAxis a = some b ∧ b < 6 ∧
    unit b = Acts r (unit a) := by
  have key : ∀ r ∈ allProper, ∀ x < 6, Gives (r.mulAxis x) fun y => y < 6 ∧ unit y = Acts r (unit x) := by
    decide +kernel
  intro x hx
  exact gives_some (proper_all (P := fun r => ∀ x < 6, Gives (r.mulAxis x) fun y =>
      y < 6 ∧ unit y = Acts r (unit x)) key hr x hx)

/-- **C77.** The product of two rotations is one, and it does what one after the other does. -/
theorem C77_rot_product {K : Type} [CommRing K] {r s : AxisRot} (hr : Proper r) (hs : Proper s) :
    ∃ t, r.mul s = some t ∧ Proper t ∧ ∀ v : V3 K, Acts t v = Acts r (Acts s v) := by
  obtain ⟨s1, s2, s3, s4, s5, s6⟩ := hs
  obtain ⟨a, ea, la, ua⟩ := C77_rot_axis hr s.c0 s1
  obtain ⟨b, eb, lb, ub⟩ := C77_rot_axis hr s.c1 s2
  obtain ⟨c, ec, lc, uc⟩ := C77_rot_axis hr s.c2 s3
  have hd : ∀ x < 6, ∀ y < 6, dotOf (Acts r (unit x)) (Acts r (unit y)) = dotOf (unit x) (unit y) :=
    proper_all (P := fun r => ∀ x < 6, ∀ y < 6, dotOf (Acts r (unit x)) (Acts r (unit y)) = dotOf (unit x) (unit y))
      (by decide +kernel) hr
  refine ⟨⟨a, b, c⟩, ?_, ⟨la, lb, lc, ?_, ?_, ?_⟩, ?_⟩
  · unfold AxisRot.mul
    rw [ea, eb, ec]; rfl
  · dsimp only; rw [ua, ub, hd _ s1 _ s2]; exact s4
  · dsimp only; rw [ub, uc, hd _ s2 _ s3]; exact s5
  · dsimp only; rw [uc, ua, hd _ s3 _ s1]; exact s6
  · intro v
    apply V3.ext' <;> simp [Acts, apply3, ua, ub, uc, cast3] <;> ring

example : (⟨3, 0, 4⟩ : AxisRot).mul ⟨0, 4, 3⟩ = some ⟨3, 4, 1⟩ := by decide

/-- **C77.** The inverse of a rotation is a rotation, on both sides, for vectors and for rotations. -/
theorem C77_rot_inverse {K : Type} [CommRing K] {r : AxisRot} (hr : Proper r) :
    ∃ t, r.inverted = some t ∧ Proper t ∧ r.mul t = some AxisRot.identity ∧ t.mul r = some AxisRot.identity ∧
      (∀ v : V3 K, Acts t (Acts r v) = v) ∧ (∀ v : V3 K, Acts r (Acts t v) = v) := by
  have key : ∀ r ∈ allProper, Gives r.inverted fun t => Proper t ∧ r.mul t = some AxisRot.identity ∧
      t.mul r = some AxisRot.identity := by decide +kernel
  obtain ⟨t, ht, h1, h2, h3⟩ := gives_some (proper_all (P := fun r => Gives r.inverted fun t =>
      Proper t ∧ r.mul t = some AxisRot.identity ∧ t.mul r = some AxisRot.identity) key hr)
  have hid : ∀ v : V3 K, Acts AxisRot.identity v = v := by
    intro v; apply V3.ext' <;> simp [Acts, AxisRot.identity, apply3, cast3, unit]
  refine ⟨t, ht, h1, h2, h3, ?_, ?_⟩
  · obtain ⟨u, eu, _, hu⟩ := C77_rot_product (K := K) h1 hr
    rw [h3] at eu
    cases eu
    intro v; rw [← hu, hid]
  · obtain ⟨u, eu, _, hu⟩ := C77_rot_product (K := K) hr h1
    rw [h2] at eu
    cases eu
    intro v; rw [← hu, hid]

example : (⟨3, 0, 4⟩ : AxisRot).inverted = some ⟨2, 1, 4⟩ := by decide

/-- **C77.** The identity changes nothing. -/
theorem C77_rot_identity {K : Type} [CommRing K] (v : V3 K) {r : AxisRot} (hr : Proper r) :
    Acts AxisRot.identity v = v ∧ Proper AxisRot.identity ∧ r.mul AxisRot.identity = some r ∧
    AxisRot.identity.mul r = some r := by
  refine ⟨?_, by decide, ?_⟩
  · apply V3.ext' <;> simp [Acts, AxisRot.identity, apply3, cast3, unit]
  · exact proper_all (P := fun r => r.mul AxisRot.identity = some r ∧ AxisRot.identity.mul r = some r)
      (by decide +kernel) hr

/-- **C77.** Right-handed are the rotations whose determinant is 1; the determinant of the others is -1. -/
theorem C77_rot_handed {r : AxisRot} (hr : Proper r) :
    ∃ b, r.isRightHanded = some b ∧ detOf (unit r.c0) (unit r.c1) (unit r.c2) = if b then 1 else -1 := by
  exact gives_some (proper_all (P := fun r => Gives r.isRightHanded fun b =>
      detOf (unit r.c0) (unit r.c1) (unit r.c2) = if b then 1 else -1) (by decide +kernel) hr)

example : (⟨3, 0, 4⟩ : AxisRot).isRightHanded = some true := by decide
example : (⟨2, 0, 4⟩ : AxisRot).isRightHanded = some false := by decide

/-- **C77.** The matrix of a rotation. -/
theorem C77_rot_matrix {K : Type} [CommRing K] {r : AxisRot} (hr : Proper r) :
    r.toMat = some (⟨Acts r ⟨1, 0, 0⟩, Acts r ⟨0, 1, 0⟩, Acts r ⟨0, 0, 1⟩⟩ : V3 (V3 K)) := by
  obtain ⟨h1, h2, h3, _⟩ := hr
  unfold AxisRot.toMat
  rw [C77_vector h1, C77_vector h2, C77_vector h3]
  simp [Acts, apply3]

/-- **C77.** A rotation made from the images of two axes is right-handed, if they are perpendicular. -/
theorem C77_rot_two : ∀ x < 6, ∀ y < 6, dotOf (unit x) (unit y) = 0 →
    ∃ z, AxisRot.ofTwo x y = some ⟨x, y, z⟩ ∧ Proper ⟨x, y, z⟩ ∧
      (⟨x, y, z⟩ : AxisRot).isRightHanded = some true := by
  intro x hx y hy h
  interval_cases x <;> interval_cases y <;> first | exact absurd h (by decide) | exact ⟨_, rfl, by decide⟩

/-- **C77.** A basis made from one image, for any of the axes, is right-handed, and does not depend on what was in
memory before. -/
theorem C77_rot_basis (junk : AxisRot) : ∀ v < 6, ∀ i < 3,
    ∃ r, AxisRot.makeBasis junk v i = some r ∧ r.col i = some v ∧ Proper r ∧ r.isRightHanded = some true := by
  intro v hv i hi
  have key : ∀ v < 6, ∀ i < 3, Gives (AxisRot.makeBasis ⟨0, 0, 0⟩ v i) fun r =>
      r.col i = some v ∧ Proper r ∧ r.isRightHanded = some true := by decide +kernel
  have same : AxisRot.makeBasis junk v i = AxisRot.makeBasis ⟨0, 0, 0⟩ v i := by
    interval_cases i <;> simp [AxisRot.makeBasis, AxisRot.put]
  rw [same]
  exact gives_some (key v hv i hi)

/-- **C77.** A turn of the plane as a rotation of space. -/
theorem C77_rot_plane {K : Type} [CommRing K] {a : Axis2} (ha : a < 4) (v : V3 K) :
    ∃ r, AxisRot.fromRot2D a = some r ∧ Proper r ∧ r.isRightHanded = some true ∧ Acts r v = axis2Rot3 a v ∧
      r.mulVec v = some (axis2Rot3 a v) := by
  have key : ∀ r : AxisRot, Proper r → Acts r v = axis2Rot3 a v → r.mulVec v = some (axis2Rot3 a v) := by
    intro r h e
    rw [C77_rot_vector h, e]
  interval_cases a
  · exact ⟨⟨0, 2, 4⟩, rfl, by decide, by decide, by simp [Acts, apply3, cast3, unit, axis2Rot3, axis2Rot, axis2Sgn],
      key _ (by decide) (by simp [Acts, apply3, cast3, unit, axis2Rot3, axis2Rot, axis2Sgn])⟩
  · exact ⟨⟨2, 1, 4⟩, rfl, by decide, by decide, by simp [Acts, apply3, cast3, unit, axis2Rot3, axis2Rot, axis2Sgn],
      key _ (by decide) (by simp [Acts, apply3, cast3, unit, axis2Rot3, axis2Rot, axis2Sgn])⟩
  · exact ⟨⟨1, 3, 4⟩, rfl, by decide, by decide, by simp [Acts, apply3, cast3, unit, axis2Rot3, axis2Rot, axis2Sgn],
      key _ (by decide) (by simp [Acts, apply3, cast3, unit, axis2Rot3, axis2Rot, axis2Sgn])⟩
  · exact ⟨⟨3, 0, 4⟩, rfl, by decide, by decide, by simp [Acts, apply3, cast3, unit, axis2Rot3, axis2Rot, axis2Sgn],
      key _ (by decide) (by simp [Acts, apply3, cast3, unit, axis2Rot3, axis2Rot, axis2Sgn])⟩

/-- **C77.** `forEach` calls the callback with every rotation and reflection, all 48, once each. -/
theorem C77_rot_each : ∃ l, AxisRot.forEach = some l ∧ l.Nodup ∧ l.length = 48 ∧ ∀ r, r ∈ l ↔ Proper r := by
  refine ⟨_, rfl, by decide +kernel, by decide +kernel, fun r => ⟨?_, ?_⟩⟩
  · revert r
    decide +kernel
  · exact proper_all (by decide +kernel)

theorem lt_mk (a b c d e f : Nat) : AxisRot.lt ⟨a, b, c⟩ ⟨d, e, f⟩ = true ↔
    a < d ∨ a = d ∧ (b < e ∨ b = e ∧ c < f) := by
  unfold AxisRot.lt
  by_cases h1 : a = d
  · by_cases h2 : b = e
    · simp [h1, h2]
    · simp [h1, h2]
  · simp [h1]

theorem order_facts (a b c d e f g h i : Nat) :
    ¬ (a < a ∨ a = a ∧ (b < b ∨ b = b ∧ c < c)) ∧
    ((a < d ∨ a = d ∧ (b < e ∨ b = e ∧ c < f)) → (d < g ∨ d = g ∧ (e < h ∨ e = h ∧ f < i)) →
      (a < g ∨ a = g ∧ (b < h ∨ b = h ∧ c < i))) ∧
    ((a < d ∨ a = d ∧ (b < e ∨ b = e ∧ c < f)) ∨ (a = d ∧ b = e ∧ c = f) ∨
      (d < a ∨ d = a ∧ (e < b ∨ e = b ∧ f < c))) ∧
    ((a < d ∨ a = d ∧ (b < e ∨ b = e ∧ c < f)) → ¬ (d < a ∨ d = a ∧ (e < b ∨ e = b ∧ f < c))) := by
  refine ⟨?_, ?_, ?_, ?_⟩ <;> omega

/-- **C77.** `<` is a strict total order on rotations, and `==` is equality. -/
theorem C77_rot_order (r s t : AxisRot) :
    (r.eq s = true ↔ r = s) ∧ r.lt r = false ∧ (r.lt s = true → s.lt t = true → r.lt t = true) ∧
    (r.lt s = true ∨ r = s ∨ s.lt r = true) ∧ (r.lt s = true → s.lt r = false) := by
  obtain ⟨a, b, c⟩ := r
  obtain ⟨d, e, f⟩ := s
  obtain ⟨g, h, i⟩ := t
  simp only [← Bool.not_eq_true, lt_mk]
  simp only [AxisRot.eq, AxisRot.mk.injEq, Bool.and_eq_true, beq_iff_eq, and_assoc]
  exact ⟨trivial, by simp, (order_facts a b c d e f g h i).2⟩

/-! ## With a translation -/

/-- What a rotation and a translation do to a vector. -/
def Moves {K : Type} [CommRing K] (a : AxisRotPos K) (v : V3 K) : V3 K :=
  ⟨(Acts a.rot v).x + a.pos.x, (Acts a.rot v).y + a.pos.y, (Acts a.rot v).z + a.pos.z⟩

theorem acts_add {K : Type} [CommRing K] (r : AxisRot) (v w : V3 K) :
    Acts r (v.add w) = (Acts r v).add (Acts r w) := by
  apply V3.ext' <;> simp [Acts, apply3, V3.add] <;> ring

theorem acts_neg {K : Type} [CommRing K] (r : AxisRot) (v : V3 K) : Acts r v.neg = (Acts r v).neg := by
  apply V3.ext' <;> simp [Acts, apply3, V3.neg] <;> ring

/-- **C77.** Applied to a vector, and one after the other. -/
theorem C77_pos_product {K : Type} [CommRing K] {a b : AxisRotPos K} (ha : Proper a.rot) (hb : Proper b.rot) :
    (∀ v, a.mulVec v = some (Moves a v)) ∧
    ∃ c, a.mul b = some c ∧ Proper c.rot ∧ ∀ v, Moves c v = Moves a (Moves b v) := by
  constructor
  · intro v
    unfold AxisRotPos.mulVec
    rw [C77_rot_vector ha]; rfl
  · obtain ⟨t, h1, h2, h3⟩ := C77_rot_product (K := K) ha hb
    refine ⟨⟨t, (Acts a.rot b.pos).add a.pos⟩, ?_, h2, ?_⟩
    · unfold AxisRotPos.mul
      rw [h1, C77_rot_vector ha]; rfl
    · intro v
      have := acts_add a.rot (Acts b.rot v) b.pos
      apply V3.ext'
      · simp only [Moves, h3, V3.add]
        have := congrArg V3.x this
        simp only [V3.add] at this
        rw [this, add_assoc]
      · simp only [Moves, h3, V3.add]
        have := congrArg V3.y this
        simp only [V3.add] at this
        rw [this, add_assoc]
      · simp only [Moves, h3, V3.add]
        have := congrArg V3.z this
        simp only [V3.add] at this
        rw [this, add_assoc]

/-- **C77.** Products with a rotation alone are products with that rotation and no translation. -/
theorem C77_pos_rot {K : Type} [CommRing K] (a : AxisRotPos K) {r : AxisRot} (hr : Proper r) (ha : Proper a.rot) :
    a.mulRot r = a.mul ⟨r, ⟨0, 0, 0⟩⟩ ∧ r.mulPos a = AxisRotPos.mul ⟨r, ⟨0, 0, 0⟩⟩ a := by
  obtain ⟨t, h1, -, -⟩ := C77_rot_product (K := K) ha hr
  obtain ⟨u, g1, -, -⟩ := C77_rot_product (K := K) hr ha
  constructor
  · unfold AxisRotPos.mulRot AxisRotPos.mul
    rw [h1, C77_rot_vector ha]
    simp [Acts, apply3, V3.add]
  · unfold AxisRot.mulPos AxisRotPos.mul
    rw [g1, C77_rot_vector hr]
    simp [V3.add]

/-- **C77.** The inverse, on both sides. -/
theorem C77_pos_inverse {K : Type} [CommRing K] {a : AxisRotPos K} (ha : Proper a.rot) :
    ∃ b, a.inverted = some b ∧ Proper b.rot ∧ (∀ v, Moves b (Moves a v) = v) ∧ (∀ v, Moves a (Moves b v) = v) ∧
      a.mul b = some AxisRotPos.identity ∧ b.mul a = some AxisRotPos.identity := by
  obtain ⟨t, h1, h2, h3, h4, h5, h6⟩ := C77_rot_inverse (K := K) ha
  have e : a.inverted = some ⟨t, Acts t a.pos.neg⟩ := by
    unfold AxisRotPos.inverted
    rw [h1]
    show Option.bind (t.mulVec a.pos.neg) _ = _
    rw [C77_rot_vector h2]; rfl
  have k1 : ∀ v, (Acts t (V3.add (Acts a.rot v) a.pos)).add (Acts t a.pos.neg) = v := by
    intro v
    rw [acts_add, h5, acts_neg]
    apply V3.ext' <;> simp [V3.add, V3.neg]
  have k2 : ∀ v, (Acts a.rot (V3.add (Acts t v) (Acts t a.pos.neg))).add a.pos = v := by
    intro v
    rw [acts_add, h6, h6]
    apply V3.ext' <;> simp [V3.add, V3.neg]
  refine ⟨_, e, h2, k1, k2, ?_, ?_⟩
  · unfold AxisRotPos.mul
    dsimp only
    rw [h3, C77_rot_vector ha, h6]
    simp [V3.add, V3.neg, AxisRotPos.identity]
  · unfold AxisRotPos.mul
    dsimp only
    rw [h4, C77_rot_vector h2, acts_neg]
    simp [V3.add, V3.neg, AxisRotPos.identity]

example : AxisRotPos.inverted (⟨⟨3, 0, 4⟩, ⟨1, 2, 3⟩⟩ : AxisRotPos Int) = some ⟨⟨2, 1, 4⟩, ⟨2, -1, -3⟩⟩ := by decide

/-- **C77.** The identity, and a translation alone. -/
theorem C77_pos_identity {K : Type} [CommRing K] (p v : V3 K) :
    Moves AxisRotPos.identity v = v ∧ Moves (AxisRotPos.makeTranslation p) v = v.add p := by
  constructor <;> apply V3.ext' <;>
    simp [Moves, AxisRotPos.identity, AxisRotPos.makeTranslation, Acts, AxisRot.identity, apply3, cast3, unit, V3.add]

/-- **C77, what fails.** The matrix of a rotation with a translation has the columns of the rotation, but forgets
the translation: it leaves the origin where it is. -/
theorem C77_pos_matrix_wrong {K : Type} [CommRing K] {a : AxisRotPos K} (ha : Proper a.rot) :
    a.toMat = some (⟨Acts a.rot ⟨1, 0, 0⟩, Acts a.rot ⟨0, 1, 0⟩, Acts a.rot ⟨0, 0, 1⟩⟩, ⟨0, 0, 0⟩) ∧
    Moves a ⟨0, 0, 0⟩ = a.pos := by
  constructor
  · unfold AxisRotPos.toMat
    rw [C77_rot_matrix ha]; rfl
  · apply V3.ext' <;> simp [Moves, Acts, apply3]

example : AxisRotPos.toMat (AxisRotPos.makeTranslation (⟨1, 2, 3⟩ : V3 Int)) =
    some ((⟨⟨1, 0, 0⟩, ⟨0, 1, 0⟩, ⟨0, 0, 1⟩⟩, ⟨0, 0, 0⟩) : V3 (V3 Int) × V3 Int) := by decide

/-! ## Reflections of the plane -/

/-- **C77.** The eight matrices are the eight rotations and reflections of the plane that take axes to axes, each
once, rotations first; and as rotations of space they agree.  The four reflections fail an assertion there. -/
theorem C77_reflections :
    reflectXform.Nodup ∧ reflectXform.length = 8 ∧
    (∀ m, m ∈ reflectXform ↔ ∃ a < 4, ∃ b < 4, m = (unit2 a, unit2 b) ∧
      (unit2 a).x * (unit2 b).x + (unit2 a).y * (unit2 b).y = 0) ∧
    (∀ i < 4, ∃ m r, reflectXform[i]? = some m ∧ reflToAxisRot i = some r ∧ Proper r ∧
      m.1.x * m.2.y - m.1.y * m.2.x = 1 ∧
      unit r.c0 = ⟨m.1.x, m.1.y, 0⟩ ∧ unit r.c1 = ⟨m.2.x, m.2.y, 0⟩ ∧ unit r.c2 = ⟨0, 0, 1⟩) ∧
    ∀ i < 8, 4 ≤ i → reflToAxisRot i = none := by
  refine ⟨by decide, by decide, fun m => ⟨?_, ?_⟩, ?_, by decide⟩
  · intro h
    have key : ∀ m ∈ reflectXform, ∃ a : Fin 4, ∃ b : Fin 4, m = (unit2 a, unit2 b) ∧
      (unit2 a).x * (unit2 b).x + (unit2 a).y * (unit2 b).y = 0 := by decide
    obtain ⟨a, b, h⟩ := key m h
    exact ⟨a, a.2, b, b.2, h⟩
  · rintro ⟨a, ha, b, hb, rfl, h⟩
    interval_cases a <;> interval_cases b <;> first | exact absurd h (by decide) | decide
  · intro i hi
    interval_cases i <;> exact ⟨_, _, rfl, rfl, by decide⟩

/-! ## Boxes -/

theorem contains_iff (b : Box) (p : V2 Int) : b.contains p = true ↔ InBox b p := by
  simp [Box.contains, InBox]; omega

/-- **C77.** A point is in a box as the definition says, and a box is empty if no point is in it. -/
theorem C77_box_points (b : Box) : (∀ p, b.contains p = true ↔ InBox b p) ∧
    (b.isEmpty = true ↔ ∀ p, ¬ InBox b p) := by
  refine ⟨contains_iff b, ?_⟩
  constructor
  · intro h p hp
    simp [Box.isEmpty] at h
    unfold InBox at hp
    omega
  · intro h
    have := h b.mins
    unfold InBox at this
    simp [Box.isEmpty]
    omega

/-- **C77.** The intersection contains the points that are in both boxes; two boxes intersect if there is such a
point. -/
theorem C77_box_intersect (a b : Box) : (∀ p, InBox (a.intersect b) p ↔ InBox a p ∧ InBox b p) ∧
    (a.intersects b = true ↔ ∃ p, InBox a p ∧ InBox b p) := by
  have h : ∀ p, InBox (a.intersect b) p ↔ InBox a p ∧ InBox b p := by
    intro p
    simp only [InBox, Box.intersect, V2.max, V2.min]
    omega
  refine ⟨h, ?_⟩
  have h2 := (C77_box_points (a.intersect b)).2
  unfold Box.intersects
  constructor
  · intro hi
    by_contra hc
    have : (a.intersect b).isEmpty = true := h2.2 fun p hp => hc ⟨p, (h p).1 hp⟩
    simp [this] at hi
  · rintro ⟨p, hp⟩
    cases he : (a.intersect b).isEmpty with
    | false => rfl
    | true => exact (h2.1 he p ((h p).2 hp)).elim

example : (Box.mk ⟨0, 0⟩ ⟨4, 4⟩).intersects ⟨⟨3, 3⟩, ⟨5, 5⟩⟩ = true := by decide
example : (Box.mk ⟨0, 0⟩ ⟨4, 4⟩).intersects ⟨⟨4, 0⟩, ⟨5, 5⟩⟩ = false := by decide

/-- **C77.** A box that is not empty is contained in another if all its points are. -/
theorem C77_box_contains_partial {a b : Box} (hb : b.isEmpty = false) :
    a.containsBox b = true ↔ ∀ p, InBox b p → InBox a p := by
  simp [Box.isEmpty] at hb
  simp only [Box.containsBox, Bool.and_eq_true, decide_eq_true_eq]
  constructor
  · intro h p hp
    unfold InBox at hp ⊢
    omega
  · intro h
    have h1 := h b.mins
    have h2 := h ⟨b.maxs.x - 1, b.maxs.y - 1⟩
    unfold InBox at h1 h2
    simp only at h1 h2
    omega

/-- **C77, what fails.** The empty box need not be contained. -/
theorem C77_box_contains_empty : (Box.mk ⟨0, 0⟩ ⟨4, 4⟩).containsBox ⟨⟨9, 9⟩, ⟨9, 9⟩⟩ = false ∧
    ∀ p, ¬ InBox ⟨⟨9, 9⟩, ⟨9, 9⟩⟩ p := ⟨by decide, fun p h => by unfold InBox at h; simp only at h; omega⟩

/-- **C77.** The union of two boxes that are not empty is the smallest box that contains both; the empty box adds
nothing to a box of 32-bit coordinates. -/
theorem C77_box_union_partial (a b : Box) : (a.union b).containsBox a = true ∧ (a.union b).containsBox b = true ∧
    (∀ c : Box, c.containsBox a = true → c.containsBox b = true → c.containsBox (a.union b) = true) ∧
    ((a.mins.x ≤ 2147483647 ∧ a.mins.y ≤ 2147483647 ∧ -2147483648 ≤ a.maxs.x ∧ -2147483648 ≤ a.maxs.y) →
      Box.empty.union a = a ∧ a.union Box.empty = a) ∧ Box.empty.isEmpty = true := by
  refine ⟨?_, ?_, ?_, ?_, by decide⟩
  · simp [Box.containsBox, Box.union, V2.min, V2.max]
  · simp [Box.containsBox, Box.union, V2.min, V2.max]
  · intro c h1 h2
    simp [Box.containsBox, Box.union, V2.min, V2.max] at *
    omega
  · rintro ⟨h1, h2, h3, h4⟩
    obtain ⟨⟨x, y⟩, ⟨z, w⟩⟩ := a
    simp only [Box.union, Box.empty, V2.min, V2.max, Box.mk.injEq, V2.mk.injEq] at *
    omega

/-- **C77, what fails.** The union of an empty box and another one can contain points of neither that no smallest
box would, the union with a point need not contain the point, and the "full" box is empty. -/
theorem C77_box_wrong :
    (InBox (Box.union ⟨⟨9, 9⟩, ⟨9, 9⟩⟩ ⟨⟨0, 0⟩, ⟨1, 1⟩⟩) ⟨8, 8⟩ ∧ (Box.mk ⟨9, 9⟩ ⟨9, 9⟩).isEmpty = true) ∧
    ¬ InBox (Box.unionPoint ⟨⟨0, 0⟩, ⟨1, 1⟩⟩ ⟨3, 3⟩) ⟨3, 3⟩ ∧
    (∀ p : V2 Int, ¬ InBox (Box.ofPoints p p) p) ∧
    Box.full.isEmpty = true := by
  refine ⟨⟨by unfold InBox; decide, by decide⟩, by unfold InBox; decide, ?_, by decide⟩
  intro p h
  simp only [InBox, Box.ofPoints, V2.min, V2.max] at h
  omega

/-- **C77.** A point made part of a box: it lies between its bounds, the upper ones included, and so do all points
of the box. -/
theorem C77_box_point_partial (a : Box) (p : V2 Int) :
    (a.unionPoint p).containsBox a = true ∧ (a.unionPoint p).containsBox ⟨p, p⟩ = true ∧
    ∀ c : Box, c.containsBox a = true → c.containsBox ⟨p, p⟩ = true → c.containsBox (a.unionPoint p) = true := by
  refine ⟨?_, ?_, ?_⟩
  · simp [Box.containsBox, Box.unionPoint, V2.min, V2.max]
  · simp [Box.containsBox, Box.unionPoint, V2.min, V2.max]
  · intro c h1 h2
    simp [Box.containsBox, Box.unionPoint, V2.min, V2.max] at *
    omega

/-- **C77.** A box with its bounds in either order, put in order, and the box of two points. -/
theorem C77_box_solid (a : Box) : a.makeSolid = Box.ofPoints a.mins a.maxs ∧
    (a.makeSolid.mins.x ≤ a.makeSolid.maxs.x ∧ a.makeSolid.mins.y ≤ a.makeSolid.maxs.y) ∧
    (a.mins.x ≤ a.maxs.x → a.mins.y ≤ a.maxs.y → a.makeSolid = a) ∧ a.makeSolid.makeSolid = a.makeSolid := by
  obtain ⟨⟨x, y⟩, ⟨z, w⟩⟩ := a
  refine ⟨rfl, ?_, ?_, ?_⟩
  · simp only [Box.makeSolid, V2.min, V2.max]; omega
  · intro h1 h2
    simp only [Box.makeSolid, V2.min, V2.max, Box.mk.injEq, V2.mk.injEq] at *
    omega
  · simp only [Box.makeSolid, V2.min, V2.max, Box.mk.injEq, V2.mk.injEq]
    omega

/-- **C77.** The points of a box made larger are those near a point of the box. -/
theorem C77_box_expand (a : Box) (d : V2 Int) (p : V2 Int) (hd : 0 ≤ d.x ∧ 0 ≤ d.y) (ha : a.isEmpty = false) :
    InBox (a.expand d) p ↔ ∃ q, InBox a q ∧ (p.x - q.x).natAbs ≤ d.x.natAbs ∧ (p.y - q.y).natAbs ≤ d.y.natAbs := by
  simp [Box.isEmpty] at ha
  unfold InBox Box.expand
  dsimp only
  constructor
  · intro h
    refine ⟨⟨max a.mins.x (min p.x (a.maxs.x - 1)), max a.mins.y (min p.y (a.maxs.y - 1))⟩, ?_⟩
    dsimp only
    omega
  · rintro ⟨q, h1, h2⟩
    omega

end Verif.Geom
