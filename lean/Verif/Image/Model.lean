/-!
# Images in memory — model

repos/plywood/src/image/image/image/ (here `image/`): Image.h, Image.cpp; and
repos/plywood/src/math/math/ply-math/Half.h (here `math/`).

Memory is a function from addresses to bytes; `none` is an address that is not allocated.  Numbers of pixels
and strides are `s32` in the code: products of them that do not fit are undefined behaviour.  Addresses are
unbounded integers, and alignment is not modelled.  Words are stored with the low byte first
(`PLY_IS_BIG_ENDIAN` = 0).  `none` as a result = undefined behaviour (memory that is not allocated, an `int`
that overflows, `memcpy` between overlapping ranges) or an assertion that fails.
-/
namespace Verif.Image

/-- A byte. -/
abbrev Byte := UInt8

/-- The memory. -/
abbrev Mem := Int → Option Byte

/-- `image::Format`, image/Image.h:11-32. -/
inductive Format where
  | unknown | char | byte | byte2 | rgba | bgra | argb | abgr | float | s16 | u16 | s16_2 | half
  | float2 | half2 | float4 | half4 | d24s8
  deriving DecidableEq, Repr

/-- `Image::FormatToBPP`, image/Image.cpp:11-30. -/
def Format.bpp : Format → Nat
  | .unknown => 0
  | .char => 1
  | .byte => 1
  | .byte2 => 2
  | .rgba => 4
  | .bgra => 4
  | .argb => 4
  | .abgr => 4
  | .float => 4
  | .s16 => 2
  | .u16 => 2
  | .s16_2 => 4
  | .half => 2
  | .float2 => 8
  | .half2 => 4
  | .float4 => 16
  | .half4 => 8
  | .d24s8 => 4

/-- `image::Image`, image/Image.h:50-58. -/
structure Img where
  data : Int
  stride : Int
  width : Int
  height : Int
  bytespp : Nat
  fmt : Format
  deriving DecidableEq, Repr

/-- `IntRect`, math/Box.h:11-15: the corner that belongs to it and the one that does not. -/
structure IRect where
  minx : Int
  miny : Int
  maxx : Int
  maxy : Int
  deriving DecidableEq, Repr

/-- A value of type `s32`, if it is one. -/
def s32 (v : Int) : Option Int := if -2147483648 ≤ v ∧ v < 2147483648 then some v else none

/-- `Image(data, stride, w, h, fmt)`, image/Image.h:61-65. -/
def mkImg (data stride w h : Int) (fmt : Format) : Img :=
  { data, stride, width := w, height := h, bytespp := fmt.bpp, fmt }

/-- `getRect().contains(IntVec2{x, y})`, image/Image.h:120-122, math/Box.h:152-154. -/
def inRect (im : Img) (x y : Int) : Bool := decide (0 ≤ x ∧ 0 ≤ y ∧ x < im.width ∧ y < im.height)

/-- `getPixel`, image/Image.h:124-132. -/
def getPixel (im : Img) (x y : Int) : Option Int :=
  if inRect im x y = true then do
    let r ← s32 (y * im.stride)
    let c ← s32 (x * im.bytespp)
    return im.data + r + c
  else none

/-- `crop`, image/Image.h:214-218, with `Box::contains`, `width` and `height`, math/Box.h:97-103, 156-158. -/
def crop (im : Img) (r : IRect) : Option Img :=
  if 0 ≤ r.minx ∧ 0 ≤ r.miny ∧ r.maxx ≤ im.width ∧ r.maxy ≤ im.height then do
    let oy ← s32 (r.miny * im.stride)
    let ox ← s32 (r.minx * im.bytespp)
    let w ← s32 (r.maxx - r.minx)
    let h ← s32 (r.maxy - r.miny)
    return mkImg (im.data + oy + ox) im.stride w h im.fmt
  else none

/-- `size`, image/Image.h:73-76. -/
def size (im : Img) : Option Int :=
  if im.stride > 0 then do
    let n ← s32 (im.stride * im.height)
    if n ≥ 0 then return n else none
  else none

/-- `toRGBA`, image/Image.h:42-44: the four bytes as a word. -/
def toRGBA (x y z w : Byte) : UInt32 :=
  UInt32.ofNat (x.toNat + 256 * y.toNat + 65536 * z.toNat + 16777216 * w.toNat)

/-- `toABGR`, image/Image.h:45-47. -/
def toABGR (x y z w : Byte) : UInt32 :=
  UInt32.ofNat w.toNat ||| (UInt32.ofNat z.toNat <<< (8 : UInt32)) |||
    (UInt32.ofNat y.toNat <<< (16 : UInt32)) ||| (UInt32.ofNat x.toNat <<< (16 : UInt32))

/-! ## Memory -/

/-- One byte written. -/
def store1 (m : Mem) (a : Int) (b : Byte) : Option Mem :=
  match m a with
  | some _ => some (fun j => if j = a then some b else m j)
  | none => none

/-- Bytes written one after the other. -/
def store (m : Mem) (a : Int) : List Byte → Option Mem
  | [] => some m
  | b :: l =>
    match store1 m a b with
    | some m' => store m' (a + 1) l
    | none => none

/-- `n` bytes read. -/
def load (m : Mem) (a : Int) : Nat → Option (List Byte)
  | 0 => some []
  | n + 1 =>
    match m a with
    | some b => (load m (a + 1) n).map (b :: ·)
    | none => none

/-- `memcpy`: undefined if the ranges overlap. -/
def memcpy (m : Mem) (dst src : Int) (n : Nat) : Option Mem :=
  if n = 0 ∨ dst + n ≤ src ∨ src + n ≤ dst then (load m src n).bind (store m dst) else none

/-- A `u32` from its bytes in memory. -/
def word (m : Mem) (a : Int) : Option UInt32 :=
  match load m a 4 with
  | some [b0, b1, b2, b3] =>
    some (UInt32.ofNat (b0.toNat + 256 * b1.toNat + 65536 * b2.toNat + 16777216 * b3.toNat))
  | _ => none

/-- The bytes of a `u32`. -/
def bytes4 (v : UInt32) : List Byte :=
  [UInt8.ofNat v.toNat, UInt8.ofNat (v.toNat / 256), UInt8.ofNat (v.toNat / 65536),
   UInt8.ofNat (v.toNat / 16777216)]

/-- The bytes of a `u16`. -/
def bytes2 (v : UInt16) : List Byte := [UInt8.ofNat v.toNat, UInt8.ofNat (v.toNat / 256)]

/-! ## Loops -/

/-- `for (s32 y = 0; y < n; y++)`, image/Image.cpp:63, 120, 132, 149, 168, 192: `n` turns are left. -/
def forRows (f : Int → Mem → Option Mem) : Nat → Int → Mem → Option Mem
  | 0, _, m => some m
  | n + 1, y, m =>
    match f y m with
    | some m' => forRows f n (y + 1) m'
    | none => none

/-- `while (dstRow < dstRowEnd) { ...; dstRow += stride; }`, image/Image.cpp:43-57, 74-82, 90-98, 106-114: a
stride that is not positive leads away from the end and out of the memory. -/
def rowLoop (f : Int → Mem → Option Mem) (stride stop : Int) (row : Int) (m : Mem) : Option Mem :=
  if row < stop then
    if stride ≤ 0 then none
    else
      match f row m with
      | some m' => rowLoop f stride stop (row + stride) m'
      | none => none
  else some m
termination_by (stop - row).toNat
decreasing_by omega

/-! ## Operations -/

/-- `OwnImage(w, h, fmt)`, image/Image.h:150-167, when the heap returns the address `a`; the bytes there are
`junk`. -/
def alloc (m : Mem) (a : Int) (junk : Int → Byte) (w h : Int) (fmt : Format) : Option (Mem × Img) := do
  let stride ← s32 (w * fmt.bpp)
  let n ← s32 (stride * h)
  return (fun j => if a ≤ j ∧ j < a + n then some (junk j) else m j, mkImg a stride w h fmt)

/-- `copy`, image/Image.cpp:60-67. -/
def copy (m : Mem) (a : Int) (junk : Int → Byte) (im : Img) : Option (Mem × Img) := do
  let (m1, dst) ← alloc m a junk im.width im.height im.fmt
  let n ← s32 (im.fmt.bpp * im.width)
  let m2 ← forRows (fun y m => do
    let d ← getPixel dst 0 y
    let s ← getPixel im 0 y
    memcpy m d s n.toNat) im.height.toNat 0 m1
  return (m2, dst)

/-- `verticalFlip`, image/Image.cpp:117-125. -/
def verticalFlip (m : Mem) (dst src : Img) : Option Mem :=
  if dst.fmt = src.fmt ∧ src.width = dst.width ∧ src.height = dst.height then
    forRows (fun y m => do
      let d ← getPixel dst 0 y
      let s ← getPixel src 0 (dst.height - 1 - y)
      let n ← s32 (dst.fmt.bpp * dst.width)
      memcpy m d s n.toNat) dst.height.toNat 0 m
  else none

/-- One value written `n` times, image/Image.cpp:75-80, 91-96, 107-112. -/
def fill (v : List Byte) : Nat → Int → Mem → Option Mem
  | 0, _, m => some m
  | n + 1, a, m =>
    match store m a v with
    | some m' => fill v n (a + v.length) m'
    | none => none

/-- What the functions `clear` do after their assertions, image/Image.cpp:72-82, 88-98, 104-114. -/
def clearWith (m : Mem) (im : Img) (v : List Byte) : Option Mem := do
  let n ← s32 (im.height * im.stride)
  rowLoop (fun row m => fill v im.width.toNat row m) im.stride (im.data + n) im.data m

/-- `clear(image, u32)`, image/Image.cpp:69-83. -/
def clear32 (m : Mem) (im : Img) (v : UInt32) : Option Mem :=
  if im.bytespp = 4 then clearWith m im (bytes4 v) else none

/-- `clear(image, float)`, image/Image.cpp:85-99; the value by its bits. -/
def clearFloat (m : Mem) (im : Img) (v : UInt32) : Option Mem :=
  if im.fmt = .float ∧ im.bytespp = 4 then clearWith m im (bytes4 v) else none

/-- `clear(image, Float4)`, image/Image.cpp:101-115; the values by their bits. -/
def clearFloat4 (m : Mem) (im : Img) (x y z w : UInt32) : Option Mem :=
  if im.fmt = .float4 ∧ im.bytespp = 16 then
    clearWith m im (bytes4 x ++ bytes4 y ++ bytes4 z ++ bytes4 w)
  else none

/-- `while (d < dEnd) { *d = *s; d++; s++; }`, image/Image.cpp:136-140. -/
def copyWords : Nat → Int → Int → Mem → Option Mem
  | 0, _, _, m => some m
  | n + 1, d, s, m =>
    match (load m s 4).bind (store m d) with
    | some m' => copyWords n (d + 4) (s + 4) m'
    | none => none

/-- `copy32Bit`, image/Image.cpp:127-142. -/
def copy32Bit (m : Mem) (dst src : Img) : Option Mem :=
  if dst.bytespp = 4 ∧ src.bytespp = 4 ∧ dst.width = src.width ∧ dst.height = src.height then
    forRows (fun y m => do
      let d ← getPixel dst 0 y
      let s ← getPixel src 0 y
      copyWords dst.width.toNat d s m) dst.height.toNat 0 m
  else none

/-- The bits of a 16-bit number from those of a 32-bit one, image/Image.cpp:151-158, 173-180, 197-204,
math/Half.h:15-23. -/
def toHalf (single : UInt32) : UInt16 :=
  let zeroMask : UInt16 := if single + single ≥ 0x71000000 then 0xffff else 0
  let half : UInt32 := ((single >>> (16 : UInt32)) &&& (0x8000 : UInt32)) |||
    (((single >>> (13 : UInt32)) - 0x1c000) &&& (0x7fff : UInt32))
  half.toUInt16 &&& zeroMask

/-- `floatToHalf`, math/Half.h:13-24: the assertion `fabsf(x) < 65000.f` in terms of the bits (numbers of
greater magnitude have greater bits without the sign; 65000 is 0x477de800). -/
def floatToHalf (single : UInt32) : Option UInt16 :=
  if (single &&& (0x7fffffff : UInt32)) < 0x477de800 then some (toHalf single) else none

/-- One number converted, image/Image.cpp:151-158, 173-180, 197-204. -/
def convOne (d s : Int) (m : Mem) : Option Mem :=
  match word m s with
  | some w => store m d (bytes2 (toHalf w))
  | none => none

/-- `while (dst < dstEnd)`, image/Image.cpp:172-183, 196-207. -/
def convRow : Nat → Int → Int → Mem → Option Mem
  | 0, _, _, m => some m
  | n + 1, d, s, m =>
    match convOne d s m with
    | some m' => convRow n (d + 2) (s + 4) m'
    | none => none

/-- `for (s32 x = 0; ...)` of `convertFloatToHalf`, image/Image.cpp:150-159: `n` turns are left. -/
def convPixels (dst src : Img) (y : Int) : Nat → Int → Mem → Option Mem
  | 0, _, m => some m
  | n + 1, x, m =>
    match getPixel src x y, getPixel dst x y with
    | some s, some d =>
      match convOne d s m with
      | some m' => convPixels dst src y n (x + 1) m'
      | none => none
    | _, _ => none

/-- `convertFloatToHalf`, image/Image.cpp:144-161. -/
def convertFloatToHalf (m : Mem) (dst src : Img) : Option Mem :=
  if dst.fmt = .half ∧ dst.bytespp = 2 ∧ src.fmt = .float ∧ src.bytespp = 4 ∧
      dst.width = src.width ∧ dst.height = src.height then
    forRows (fun y m => convPixels dst src y dst.width.toNat 0 m) dst.height.toNat 0 m
  else none

/-- The loops of `convertFloat4ToHalf4` (`k` = 4) and `convertFloat2ToHalf2` (`k` = 2),
image/Image.cpp:168-184, 192-208. -/
def convertMany (m : Mem) (k : Int) (dst src : Img) : Option Mem :=
  forRows (fun y m => do
    let d ← getPixel dst 0 y
    let n ← s32 (dst.width * k)
    let s ← getPixel src 0 y
    convRow n.toNat d s m) dst.height.toNat 0 m

/-- `convertFloat4ToHalf4`, image/Image.cpp:163-185. -/
def convertFloat4ToHalf4 (m : Mem) (dst src : Img) : Option Mem :=
  if dst.fmt = .half4 ∧ dst.bytespp = 8 ∧ src.fmt = .float4 ∧ src.bytespp = 16 ∧
      dst.width = src.width ∧ dst.height = src.height then convertMany m 4 dst src
  else none

/-- `convertFloat2ToHalf2`, image/Image.cpp:187-209. -/
def convertFloat2ToHalf2 (m : Mem) (dst src : Img) : Option Mem :=
  if dst.fmt = .half2 ∧ dst.bytespp = 4 ∧ src.fmt = .float2 ∧ src.bytespp = 8 ∧
      dst.width = src.width ∧ dst.height = src.height then convertMany m 2 dst src
  else none

/-- One pixel of `linearToSRGB`, image/Image.cpp:48-53.  `gamma s` is `u32(roundf(powf(s / 255, 1 / 2.2) * 255))`.
`char` is signed: a byte from 128 on is a negative number, its power is not a number, and the conversion of
that to an integer is undefined. -/
def srgb (gamma : Byte → UInt32) (s : Byte) : Option UInt32 :=
  if s < 128 then
    some ((((0x10101 : UInt32) * gamma s) &&& (0xffffff : UInt32)) |||
      ((255 - UInt32.ofNat s.toNat) <<< (24 : UInt32)))
  else none

/-- The inner loop of `linearToSRGB`, image/Image.cpp:44-55. -/
def srgbRow (gamma : Byte → UInt32) : Nat → Int → Int → Mem → Option Mem
  | 0, _, _, m => some m
  | n + 1, d, s, m =>
    match (m s).bind (srgb gamma) with
    | some v =>
      match store m d (bytes4 v) with
      | some m' => srgbRow gamma n (d + 4) (s + 1) m'
      | none => none
    | none => none

/-- `linearToSRGB`, image/Image.cpp:35-58.  The row of the source follows that of the destination. -/
def linearToSRGB (gamma : Byte → UInt32) (m : Mem) (dst src : Img) : Option Mem := do
  let dw ← s32 (dst.width * 4)
  if dst.stride ≥ dw ∧ src.stride ≥ src.width ∧ dst.width = src.width ∧ dst.height = src.height then
    let n ← s32 (dst.stride * dst.height)
    rowLoop (fun row m =>
      srgbRow gamma dst.width.toNat row
        (src.data + (row - dst.data) / dst.stride * src.stride) m) dst.stride (dst.data + n) dst.data m
  else none

end Verif.Image
