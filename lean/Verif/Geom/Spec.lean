import Verif.Geom.Model

/-!
# Vectors and matrices as mathematics has them

What the small numbers of the code stand for, and the operations on vectors they have to agree with.
-/

namespace Verif.Geom

/-- No assertion fails, and the result is as it should be. -/
def Gives {α : Type} (o : Option α) (P : α → Prop) : Prop :=
  match o with
  | some a => P a
  | none => False

instance {α : Type} (o : Option α) (P : α → Prop) [DecidablePred P] : Decidable (Gives o P) :=
  match o with
  | some a => inferInstanceAs (Decidable (P a))
  | none => inferInstanceAs (Decidable False)

/-- The vector a direction stands for. -/
def unit : Nat → V3 Int
  | 0 => ⟨1, 0, 0⟩
  | 1 => ⟨-1, 0, 0⟩
  | 2 => ⟨0, 1, 0⟩
  | 3 => ⟨0, -1, 0⟩
  | 4 => ⟨0, 0, 1⟩
  | _ => ⟨0, 0, -1⟩

/-- The vector a direction in the plane stands for. -/
def unit2 : Nat → V2 Int
  | 0 => ⟨1, 0⟩
  | 1 => ⟨0, 1⟩
  | 2 => ⟨-1, 0⟩
  | _ => ⟨0, -1⟩

/-- The scalar product. -/
def dotOf {K : Type} [CommRing K] (a b : V3 K) : K := a.x * b.x + a.y * b.y + a.z * b.z

/-- The vector product. -/
def crossOf {K : Type} [CommRing K] (a b : V3 K) : V3 K :=
  ⟨a.y * b.z - a.z * b.y, a.z * b.x - a.x * b.z, a.x * b.y - a.y * b.x⟩

/-- The determinant of the matrix with these columns. -/
def detOf {K : Type} [CommRing K] (a b c : V3 K) : K := dotOf (crossOf a b) c

/-- Integers as elements of a ring. -/
def cast3 (K : Type) [CommRing K] (a : V3 Int) : V3 K := ⟨(a.x : K), (a.y : K), (a.z : K)⟩

/-- The matrix with the columns `a`, `b`, `c`, applied to `v`. -/
def apply3 {K : Type} [CommRing K] (a b c v : V3 K) : V3 K :=
  ⟨a.x * v.x + b.x * v.y + c.x * v.z, a.y * v.x + b.y * v.y + c.y * v.z, a.z * v.x + b.z * v.y + c.z * v.z⟩

/-- What an axis rotation does to a vector: its matrix has the images of the axes as columns. -/
def Acts {K : Type} [CommRing K] (r : AxisRot) (v : V3 K) : V3 K :=
  apply3 (cast3 K (unit r.c0)) (cast3 K (unit r.c1)) (cast3 K (unit r.c2)) v

/-- An axis rotation (or reflection): three directions, perpendicular to each other. -/
def Proper (r : AxisRot) : Prop :=
  r.c0 < 6 ∧ r.c1 < 6 ∧ r.c2 < 6 ∧ dotOf (unit r.c0) (unit r.c1) = 0 ∧ dotOf (unit r.c1) (unit r.c2) = 0 ∧
    dotOf (unit r.c2) (unit r.c0) = 0

instance (r : AxisRot) : Decidable (Proper r) := by unfold Proper; infer_instance

/-- A quarter turn of the plane, from x to y. -/
def quarter {K : Type} [CommRing K] (v : V2 K) : V2 K := ⟨-v.y, v.x⟩

/-- `n` quarter turns. -/
def turns {K : Type} [CommRing K] : Nat → V2 K → V2 K
  | 0, v => v
  | n + 1, v => quarter (turns n v)

/-- The points of a box: as the code has it, those on the lower bounds but not those on the upper ones. -/
def InBox (b : Box) (p : V2 Int) : Prop :=
  b.mins.x ≤ p.x ∧ p.x < b.maxs.x ∧ b.mins.y ≤ p.y ∧ p.y < b.maxs.y

end Verif.Geom
