import Mathlib.Algebra.Ring.Int.Defs
import Mathlib.Data.Int.Cast.Basic
import Mathlib.Tactic.Ring

/-!
# Axis directions, axis rotations and boxes

Paths are relative to repos/plywood/src; math/ = math/math/ply-math/.

Directions along an axis are kept as in the code, as small numbers on which the operations are bit operations.
The coordinates of vectors are elements of any commutative ring: rounding is not modelled (the operations here
only copy and negate coordinates, except for the sum in `AxisRotPos`).  A failed `PLY_ASSERT` and an access
outside an array are `none`.
-/

namespace Verif.Geom

/-! ## Vectors -/

/-- `Float2`, math/Vector.h:21-26, `Int2`, math/IntVector.h:16-18. -/
@[ext] structure V2 (K : Type) where
  x : K
  y : K
deriving DecidableEq, Repr

/-- `Float3`, math/Vector.h:379-385. -/
@[ext] structure V3 (K : Type) where
  x : K
  y : K
  z : K
deriving DecidableEq, Repr

/-- The coordinate at an index of the array of floats a `Float3` is read as, math/AxisVector.h:49-54: `none` outside. -/
def V3.at {K : Type} (v : V3 K) : Nat → Option K
  | 0 => some v.x
  | 1 => some v.y
  | 2 => some v.z
  | _ => none

/-- Writing to an index of the array of floats a `Float3` is read as, math/AxisVector.h:194-201: `none` outside. -/
def V3.put {K : Type} (v : V3 K) (i : Nat) (k : K) : Option (V3 K) :=
  match i with
  | 0 => some { v with x := k }
  | 1 => some { v with y := k }
  | 2 => some { v with z := k }
  | _ => none

/-! ## Directions in space -/

/-- `enum class Axis3 : u8`, math/AxisVector.h:15: `XPos`, `XNeg`, `YPos`, `YNeg`, `ZPos`, `ZNeg` are 0 to 5. -/
abbrev Axis3 := Nat

/-- `isValid(Axis3)`, math/AxisVector.h:17-19. -/
def axisValid (v : Axis3) : Bool := v < 6

/-- `abs(Axis3)`, math/AxisVector.h:21-23. -/
def axisAbs (v : Axis3) : Axis3 := v &&& 6

/-- `sgn(Axis3)`, math/AxisVector.h:25-27. -/
def axisSgn (v : Axis3) : Int := 1 - ((v &&& 1 : Nat) : Int) * 2

/-- `isPerp`, math/AxisVector.h:29-31. -/
def isPerp (a b : Axis3) : Bool := ((a ^^^ b) &&& 6) != 0

/-- `cross(Axis3, Axis3)`, math/AxisVector.h:33-40.  `(diff & ~1) != 0` holds for all numbers but 0 and 1. -/
def axisCross (a b : Axis3) : Option Axis3 :=
  let diff : Int := (b : Int) - ((a &&& 6 : Nat) : Int)
  if diff = 0 ∨ diff = 1 then none
  else
    let diff := diff + (if diff < 0 then 1 else 0) * 6
    some (6 ^^^ a ^^^ b ^^^ (diff.toNat >>> 2))

/-- `dot(Axis3, Axis3)`, math/AxisVector.h:42-47: `sgn & mask`, where `mask` is 0 or -1. -/
def axisDot (a b : Axis3) : Int :=
  let x := a ^^^ b
  if (x &&& 6) != 0 then 0 else 1 - ((x &&& 1 : Nat) : Int) * 2

/-- `dot(Axis3, const Float3&)`, math/AxisVector.h:49-55. -/
def axisDotVec {K : Type} [CommRing K] (a : Axis3) (v : V3 K) : Option K :=
  (v.at (a >>> 1)).map fun k => k * ((1 - ((a &&& 1 : Nat) : Int) * 2 : Int) : K)

/-- `negate(Axis3)`, math/AxisVector.h:57-59. -/
def axisNegate (a : Axis3) : Axis3 := a ^^^ 1

/-- `mulSign`, math/AxisVector.h:61-64. -/
def mulSign (a : Axis3) (sgn : Int) : Option Axis3 :=
  if sgn = 1 ∨ sgn = -1 then some (a ^^^ (if sgn < 0 then 1 else 0)) else none

/-- `toFloat3(Axis3)`, math/AxisVector.h:66-70. -/
def axisToVec {K : Type} [CommRing K] (a : Axis3) : Option (V3 K) :=
  [⟨1, 0, 0⟩, ⟨-1, 0, 0⟩, ⟨0, 1, 0⟩, ⟨0, -1, 0⟩, ⟨0, 0, 1⟩, ⟨0, 0, -1⟩][a]?

/-! ## Directions in the plane -/

/-- `enum class Axis2 : u8`, math/AxisVector.h:75: `XPos`, `YPos`, `XNeg`, `YNeg` are 0 to 3. -/
abbrev Axis2 := Nat

/-- `sgn(Axis2)`, math/AxisVector.h:81-83. -/
def axis2Sgn (a : Axis2) : Int := 1 - ((a >>> 1 : Nat) : Int) * 2

/-- `negate(Axis2)`, math/AxisVector.h:85-87. -/
def axis2Negate (a : Axis2) : Axis2 := (4 - a) &&& 3

/-- `operator*(Axis2, const Float2&)`, math/AxisVector.h:89-98: one coordinate of the result is at the index
`rot & 1`, the other one at the other index. -/
def axis2Rot {K : Type} [CommRing K] (rot : Axis2) (v : V2 K) : V2 K :=
  let p : K := v.x * ((axis2Sgn rot : Int) : K)
  let q : K := v.y * ((axis2Sgn ((rot + 1) &&& 3) : Int) : K)
  if rot &&& 1 = 0 then ⟨p, q⟩ else ⟨q, p⟩

/-- `operator*(Axis2, const Float3&)`, math/AxisVector.h:100-102. -/
def axis2Rot3 {K : Type} [CommRing K] (rot : Axis2) (v : V3 K) : V3 K :=
  let r := axis2Rot rot ⟨v.x, v.y⟩
  ⟨r.x, r.y, v.z⟩

/-- `toFloat3(Axis2)` and `toFloat2`, math/AxisVector.h:104-112; the third coordinate is 0. -/
def axis2ToVec {K : Type} [CommRing K] (a : Axis2) : Option (V2 K) :=
  [⟨1, 0⟩, ⟨0, 1⟩, ⟨-1, 0⟩, ⟨0, -1⟩][a]?

/-- `toAxis3(Axis2)`, math/AxisVector.h:114-118. -/
def toAxis3 (a : Axis2) : Option Axis3 := [0, 2, 1, 3][a]?

/-- `toAxis2(Axis3)`, math/AxisVector.h:120-124. -/
def toAxis2 (a : Axis3) : Option Axis2 := [0, 2, 1, 3][a]?

/-! ## Rotations that take axes to axes -/

/-- `struct AxisRot`, math/AxisVector.h:129-139: the images of the three axes. -/
structure AxisRot where
  c0 : Axis3
  c1 : Axis3
  c2 : Axis3
deriving DecidableEq, Repr

/-- `operator[]`, math/AxisVector.h:177-180, and the access `cols[i]`. -/
def AxisRot.col (r : AxisRot) : Nat → Option Axis3
  | 0 => some r.c0
  | 1 => some r.c1
  | 2 => some r.c2
  | _ => none

/-- The assignment `cols[i] = v`, math/AxisVector.h:150-156, 231. -/
def AxisRot.put (r : AxisRot) (i : Nat) (v : Axis3) : Option AxisRot :=
  match i with
  | 0 => some { r with c0 := v }
  | 1 => some { r with c1 := v }
  | 2 => some { r with c2 := v }
  | _ => none

/-- `AxisRot(xImg, yImg)`, math/AxisVector.h:140-141. -/
def AxisRot.ofTwo (x y : Axis3) : Option AxisRot := (axisCross x y).map fun z => ⟨x, y, z⟩

/-- `identity`, math/AxisVector.h:143-145. -/
def AxisRot.identity : AxisRot := ⟨0, 2, 4⟩

/-- `makeBasis`, math/AxisVector.h:147-158.  `junk` is what the uninitialized result contains at first. -/
def AxisRot.makeBasis (junk : AxisRot) (v : Axis3) (i : Nat) : Option AxisRot := do
  if ¬ i < 3 then none
  let r ← junk.put i v
  let i := i + 1
  let i := i - (if i ≥ 3 then 3 else 0)
  let v2 := v + 2
  let v2 := v2 - (if v2 ≥ 6 then 6 else 0)
  let r ← r.put i v2
  let i := i + 1
  let i := i - (if i ≥ 3 then 3 else 0)
  let z ← axisCross v v2
  r.put i z

/-- `fromRot2D`, math/AxisVector.h:160-162. -/
def AxisRot.fromRot2D (rot : Axis2) : Option AxisRot := do
  let x ← toAxis3 rot
  let y ← toAxis3 ((rot + 1) &&& 3)
  some ⟨x, y, 4⟩

/-- `AxisRot::isValid`, math/AxisVector.h:164-166. -/
def AxisRot.isValid (r : AxisRot) : Bool := axisValid r.c0 && axisValid r.c1 && axisValid r.c2

/-- `isOrtho`, math/AxisVector.h:168-170. -/
def AxisRot.isOrtho (r : AxisRot) : Bool := isPerp r.c0 r.c1 && isPerp r.c1 r.c2 && isPerp r.c2 r.c0

/-- `isRightHanded`, math/AxisVector.h:172-175. -/
def AxisRot.isRightHanded (r : AxisRot) : Option Bool :=
  if r.isOrtho then (axisCross r.c0 r.c1).map fun z => decide (axisDot z r.c2 > 0) else none

/-- `operator*(Axis3)`, math/AxisVector.h:182-185. -/
def AxisRot.mulAxis (r : AxisRot) (v : Axis3) : Option Axis3 := (r.col (v >>> 1)).map fun c => c ^^^ (v &&& 1)

/-- `operator*(Axis2)`, math/AxisVector.h:187-189. -/
def AxisRot.mulAxis2 (r : AxisRot) (v : Axis2) : Option Axis3 := (toAxis3 v).bind r.mulAxis

/-- `operator*(const Float3&)`, math/AxisVector.h:191-202. -/
def AxisRot.mulVec {K : Type} [CommRing K] (r : AxisRot) (v : V3 K) : Option (V3 K) :=
  if r.isOrtho then do
    let w : V3 K := ⟨0, 0, 0⟩
    let w ← w.put (r.c0 >>> 1) (v.x * ((axisSgn r.c0 : Int) : K))
    let w ← w.put (r.c1 >>> 1) (v.y * ((axisSgn r.c1 : Int) : K))
    w.put (r.c2 >>> 1) (v.z * ((axisSgn r.c2 : Int) : K))
  else none

/-- `operator*(AxisRot)`, math/AxisVector.h:204-206. -/
def AxisRot.mul (r s : AxisRot) : Option AxisRot := do
  let a ← r.mulAxis s.c0
  let b ← r.mulAxis s.c1
  let c ← r.mulAxis s.c2
  some ⟨a, b, c⟩

/-- `operator==`, math/AxisVector.h:208-210. -/
def AxisRot.eq (r s : AxisRot) : Bool := r.c0 == s.c0 && r.c1 == s.c1 && r.c2 == s.c2

/-- `operator<`, math/AxisVector.h:216-224. -/
def AxisRot.lt (r s : AxisRot) : Bool :=
  if r.c0 != s.c0 then r.c0 < s.c0 else if r.c1 != s.c1 then r.c1 < s.c1 else r.c2 < s.c2

/-- One turn of the loop of `inverted`, math/AxisVector.h:229-232. -/
def AxisRot.invertStep (r res : AxisRot) (i : Nat) : Option AxisRot := do
  let img ← r.col i
  res.put (img >>> 1) ((i <<< 1) ^^^ (img &&& 1))

/-- `inverted`, math/AxisVector.h:226-234: three turns. -/
def AxisRot.inverted (r : AxisRot) : Option AxisRot :=
  if r.isOrtho then do
    let a ← r.invertStep AxisRot.identity 0
    let b ← r.invertStep a 1
    r.invertStep b 2
  else none

/-- `toFloat3x3`, math/AxisVector.h:236-238: the columns. -/
def AxisRot.toMat {K : Type} [CommRing K] (r : AxisRot) : Option (V3 (V3 K)) := do
  let a ← axisToVec r.c0
  let b ← axisToVec r.c1
  let c ← axisToVec r.c2
  some ⟨a, b, c⟩

/-- The body of the two loops of `forEach`, math/AxisVector.h:249-254: what the callback is called with. -/
def AxisRot.forEachBody (x y : Nat) : Option (List AxisRot) :=
  if (x ^^^ y) &&& 6 ≠ 0 then (axisCross x y).map fun z => [⟨x, y, z⟩, ⟨x, y, axisNegate z⟩] else some []

/-- `forEach`, math/AxisVector.h:245-257: the calls of the callback in order. -/
def AxisRot.forEach : Option (List AxisRot) :=
  (List.range 6).foldlM (fun acc x => (List.range 6).foldlM (fun acc y => do
    let l ← AxisRot.forEachBody x y
    some (acc ++ l)) acc) []

/-! ## With a translation -/

/-- `struct AxisRotPos`, math/AxisVector.h:259-266. -/
structure AxisRotPos (K : Type) where
  rot : AxisRot
  pos : V3 K
deriving DecidableEq, Repr

/-- `Float3` `+`, math/Vector.h:565-567. -/
def V3.add {K : Type} [CommRing K] (a b : V3 K) : V3 K := ⟨a.x + b.x, a.y + b.y, a.z + b.z⟩

/-- `Float3` unary `-`, math/Vector.h:549-551. -/
def V3.neg {K : Type} [CommRing K] (a : V3 K) : V3 K := ⟨-a.x, -a.y, -a.z⟩

/-- `AxisRotPos * AxisRotPos`, math/AxisVector.h:268-270. -/
def AxisRotPos.mul {K : Type} [CommRing K] (a b : AxisRotPos K) : Option (AxisRotPos K) := do
  let r ← a.rot.mul b.rot
  let p ← a.rot.mulVec b.pos
  some ⟨r, p.add a.pos⟩

/-- `AxisRotPos * AxisRot`, math/AxisVector.h:272-274. -/
def AxisRotPos.mulRot {K : Type} (a : AxisRotPos K) (b : AxisRot) : Option (AxisRotPos K) :=
  (a.rot.mul b).map fun r => ⟨r, a.pos⟩

/-- `AxisRot * AxisRotPos`, math/AxisVector.h:276-278. -/
def AxisRot.mulPos {K : Type} [CommRing K] (a : AxisRot) (b : AxisRotPos K) : Option (AxisRotPos K) := do
  let r ← a.mul b.rot
  let p ← a.mulVec b.pos
  some ⟨r, p⟩

/-- `AxisRotPos * Float3`, math/AxisVector.h:280-282. -/
def AxisRotPos.mulVec {K : Type} [CommRing K] (a : AxisRotPos K) (v : V3 K) : Option (V3 K) :=
  (a.rot.mulVec v).map fun w => w.add a.pos

/-- `AxisRotPos::inverted`, math/AxisVector.h:288-291. -/
def AxisRotPos.inverted {K : Type} [CommRing K] (a : AxisRotPos K) : Option (AxisRotPos K) := do
  let r ← a.rot.inverted
  let p ← r.mulVec a.pos.neg
  some ⟨r, p⟩

/-- `AxisRotPos::identity`, math/AxisVector.h:293-295. -/
def AxisRotPos.identity {K : Type} [CommRing K] : AxisRotPos K := ⟨AxisRot.identity, ⟨0, 0, 0⟩⟩

/-- `AxisRotPos::makeTranslation`, math/AxisVector.h:297-299. -/
def AxisRotPos.makeTranslation {K : Type} (pos : V3 K) : AxisRotPos K := ⟨AxisRot.identity, pos⟩

/-- `AxisRotPos::toFloat4x4`, math/AxisVector.h:301-303, with `Float4x4(const Float3x3&)`, math/Matrix.cpp:238-243:
the four columns of the first three rows; the last row is always 0 0 0 1. -/
def AxisRotPos.toMat {K : Type} [CommRing K] (a : AxisRotPos K) : Option (V3 (V3 K) × V3 K) :=
  (a.rot.toMat).map fun m => (m, ⟨0, 0, 0⟩)

/-! ## Reflections of the plane -/

/-- `toAxisRot(Reflection)`, math/AxisVector.h:321-325.  `Reflection` has eight values, 0 to 7,
math/AxisVector.h:309-319. -/
def reflToAxisRot (refl : Nat) : Option AxisRot :=
  if refl < 4 then do
    let x ← toAxis3 refl
    let y ← toAxis3 ((refl + 1) &&& 3)
    some ⟨x, y, 4⟩
  else none

/-- `ReflectXform`, math/AxisVector.cpp:10-12: the two columns of each matrix. -/
def reflectXform : List (V2 Int × V2 Int) :=
  [(⟨1, 0⟩, ⟨0, 1⟩), (⟨0, 1⟩, ⟨-1, 0⟩), (⟨-1, 0⟩, ⟨0, -1⟩), (⟨0, -1⟩, ⟨1, 0⟩),
   (⟨-1, 0⟩, ⟨0, 1⟩), (⟨0, 1⟩, ⟨1, 0⟩), (⟨1, 0⟩, ⟨0, -1⟩), (⟨0, -1⟩, ⟨-1, 0⟩)]

/-! ## Boxes -/

/-- `Box<Int2<s32>>`, that is `IntRect`, math/Box.h:12-14; its coordinates are those of `mins` and `maxs`. -/
structure Box where
  mins : V2 Int
  maxs : V2 Int
deriving DecidableEq, Repr

/-- `contains(const V&)`, math/Box.h:152-154. -/
def Box.contains (b : Box) (p : V2 Int) : Bool :=
  (b.mins.x ≤ p.x && b.mins.y ≤ p.y) && (p.x < b.maxs.x && p.y < b.maxs.y)

/-- `contains(const Box&)`, math/Box.h:156-158. -/
def Box.containsBox (b c : Box) : Bool :=
  (b.mins.x ≤ c.mins.x && b.mins.y ≤ c.mins.y) && (c.maxs.x ≤ b.maxs.x && c.maxs.y ≤ b.maxs.y)

/-- `isEmpty`, math/Box.h:93-95. -/
def Box.isEmpty (b : Box) : Bool := b.maxs.x ≤ b.mins.x || b.maxs.y ≤ b.mins.y

/-- `min(Int2, Int2)`, math/IntVector.h:158-161. -/
def V2.min (a b : V2 Int) : V2 Int := ⟨Min.min a.x b.x, Min.min a.y b.y⟩

/-- `max(Int2, Int2)`, math/IntVector.h:163-166. -/
def V2.max (a b : V2 Int) : V2 Int := ⟨Max.max a.x b.x, Max.max a.y b.y⟩

/-- `intersect`, math/Box.h:192-195. -/
def Box.intersect (a b : Box) : Box := ⟨V2.max a.mins b.mins, V2.min a.maxs b.maxs⟩

/-- `intersects`, math/Box.h:160-162. -/
def Box.intersects (a b : Box) : Bool := !(a.intersect b).isEmpty

/-- `makeUnion(Box, Box)`, math/Box.h:187-190. -/
def Box.union (a b : Box) : Box := ⟨V2.min a.mins b.mins, V2.max a.maxs b.maxs⟩

/-- `makeUnion(Box, V)`, math/Box.h:182-185. -/
def Box.unionPoint (a : Box) (p : V2 Int) : Box := ⟨V2.min a.mins p, V2.max a.maxs p⟩

/-- `makeUnion(V, V)`, math/Box.h:177-180. -/
def Box.ofPoints (p q : V2 Int) : Box := ⟨V2.min p q, V2.max p q⟩

/-- `makeSolid`, math/Box.h:197-200. -/
def Box.makeSolid (a : Box) : Box := ⟨V2.min a.mins a.maxs, V2.max a.mins a.maxs⟩

/-- `Box::empty`, math/Box.h:168-170, for coordinates of 32 bits. -/
def Box.empty : Box := ⟨⟨2147483647, 2147483647⟩, ⟨-2147483648, -2147483648⟩⟩

/-- `Box::full`, math/Box.h:172-174, for coordinates of 32 bits. -/
def Box.full : Box := ⟨⟨-2147483648, -2147483648⟩, ⟨-2147483648, -2147483648⟩⟩

/-- `expand`, math/Box.h:110-112. -/
def Box.expand (b : Box) (d : V2 Int) : Box := ⟨⟨b.mins.x - d.x, b.mins.y - d.y⟩, ⟨b.maxs.x + d.x, b.maxs.y + d.y⟩⟩

end Verif.Geom
