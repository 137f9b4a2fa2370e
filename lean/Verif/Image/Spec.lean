import Verif.Image.Model
/-!
# Images in memory — specification

What a picture is, apart from how the functions go through it: every pixel has its own bytes.
-/
namespace Verif.Image

/-- The address of byte `k` of the pixel in column `x` of row `y`. -/
def At (im : Img) (x y k : Int) : Int := im.data + y * im.stride + x * im.bytespp + k

/-- Byte `k` of pixel `x`, `y` is a byte of the image. -/
def Inside (im : Img) (x y k : Int) : Prop :=
  0 ≤ x ∧ x < im.width ∧ 0 ≤ y ∧ y < im.height ∧ 0 ≤ k ∧ k < im.bytespp

/-- The address is one of a pixel of the image. -/
def Owns (im : Img) (a : Int) : Prop := ∃ x y k, Inside im x y k ∧ a = At im x y k

/-- An image whose pixels are in memory.  Rows may be stored from the top or from the bottom (negative
stride), and there may be other bytes between them. -/
structure Usable (m : Mem) (im : Img) : Prop where
  bpp : im.bytespp = im.fmt.bpp
  wide : 0 < im.width
  tall : 0 ≤ im.height
  apart : im.width * im.bytespp ≤ im.stride.natAbs
  small : im.height * (im.stride.natAbs : Int) < 2147483648
  fits : im.width * (im.bytespp : Int) < 2147483648
  mapped : ∀ a, Owns im a → m a ≠ none

/-- No byte belongs to both images. -/
def Apart (a b : Img) : Prop := ∀ x, Owns a x → ¬ Owns b x

/-- From `m` to `m'` exactly the pixels of `im` have changed, and byte `k` of pixel `x`, `y` is now
`v x y k`. -/
def Draws (im : Img) (v : Int → Int → Int → Option Byte) (m m' : Mem) : Prop :=
  (∀ x y k, Inside im x y k → m' (At im x y k) = v x y k) ∧ ∀ a, ¬ Owns im a → m' a = m a

/-! ## Numbers -/

/-- The number with the given bits (32-bit format of IEEE 754), in units of 2^-150.  `none` = infinite, or not
a number. -/
def floatVal (b : UInt32) : Option Int :=
  let e := b.toNat / 8388608 % 256
  let f := b.toNat % 8388608
  let v : Nat := if e = 0 then 2 * f else (8388608 + f) * 2 ^ e
  if e = 255 then none else if b.toNat < 2147483648 then some v else some (-v)

/-- The number with the given bits (16-bit format of IEEE 754), in units of 2^-150. -/
def halfVal (b : UInt16) : Option Int :=
  let e := b.toNat / 1024 % 32
  let f := b.toNat % 1024
  let v : Nat := if e = 0 then f * 2 ^ 126 else (1024 + f) * 2 ^ (e + 125)
  if e = 31 then none else if b.toNat < 32768 then some v else some (-v)

/-- The least number that the 16-bit format has with full precision, 2^-14. -/
def halfLeast : Int := 2 ^ 136

/-- The first number too great for the 16-bit format, 2^16. -/
def halfBound : Int := 2 ^ 166

/-- `c` is `v` with the digits cut off that the 16-bit format does not have: it has the sign of `v`, and no
number of this format lies between. -/
def CutTo (v : Int) (c : UInt16) : Prop :=
  ∃ h, halfVal c = some h ∧ (0 ≤ v → 0 ≤ h) ∧ (v ≤ 0 → h ≤ 0) ∧ h.natAbs ≤ v.natAbs ∧
    ∀ c' h', halfVal c' = some h' → h'.natAbs ≤ v.natAbs → h'.natAbs ≤ h.natAbs

end Verif.Image
