import Verif.Basic
/-!
# Bit tricks — model of platform/ply-platform/Util.h

Unsigned instantiations only (the templates are used with `u32`, `u64`, `uptr`, `u16`).
-/
namespace Verif.Bits
open Verif

/-- `isPowerOf2`, platform/ply-platform/Util.h:24-26, at an unsigned type of `w` bits
(`v - 1` wraps for 0). -/
def isPowerOf2 (w v : Nat) : Bool := (v &&& ((v + 2 ^ w - 1) % 2 ^ w)) == 0

/-- `alignPowerOf2`, platform/ply-platform/Util.h:28-33, at an unsigned type of `w` bits:
`(v + a - 1) & ~(a - 1)` modulo `2^w`; `none` = assertion failure. -/
def alignPowerOf2 (w v a : Nat) : Option Nat :=
  if isPowerOf2 w a then
    some (((v + a + (2 ^ w - 1)) % 2 ^ w) &&& (2 ^ w - 1 - (a + 2 ^ w - 1) % 2 ^ w))
  else none

/-- `isAlignedPowerOf2`, platform/ply-platform/Util.h:35-40. -/
def isAlignedPowerOf2 (w v a : Nat) : Option Bool :=
  if isPowerOf2 w a then some ((v &&& ((a + 2 ^ w - 1) % 2 ^ w)) == 0) else none

/-- One step `v |= v >> s`. -/
def smearStep (v s : Nat) : Nat := v ||| (v >>> s)

/-- `roundUpPowerOf2` for 8-byte unsigned types, platform/ply-platform/Util.h:42-53. -/
def roundUpPowerOf2_64 (v : Nat) : Nat :=
  let v := u64 (v + 2 ^ 64 - 1)
  let v := smearStep v 1
  let v := smearStep v 2
  let v := smearStep v 4
  let v := smearStep v 8
  let v := smearStep v 16
  let v := smearStep v 32
  u64 (v + 1)

/-- `roundUpPowerOf2` for unsigned types of at most 4 bytes, platform/ply-platform/Util.h:55-65,
instantiated at `u32` (for narrower `I` the result is additionally truncated by the final cast). -/
def roundUpPowerOf2_32 (v : Nat) : Nat :=
  let v := u32 (v + 2 ^ 32 - 1)
  let v := smearStep v 1
  let v := smearStep v 2
  let v := smearStep v 4
  let v := smearStep v 8
  let v := smearStep v 16
  u32 (v + 1)

/-- `countSetBits`, platform/ply-platform/Util.h:67-75. -/
def countSetBits (count mask : Nat) : Nat :=
  if _h : mask ≠ 0 then countSetBits (u32 (count + (mask &&& 1))) (mask >>> 1) else count
termination_by mask
decreasing_by rw [Nat.shiftRight_eq_div_pow]; omega

/-- `avalanche(u32)`, platform/ply-platform/Util.h:104-111. -/
def avalanche32 (h : BitVec 32) : BitVec 32 :=
  let h := h ^^^ (h >>> 16)
  let h := h * 0x85ebca6b#32
  let h := h ^^^ (h >>> 13)
  let h := h * 0xc2b2ae35#32
  h ^^^ (h >>> 16)

/-- `deavalanche(u32)`, platform/ply-platform/Util.h:113-120. -/
def deavalanche32 (h : BitVec 32) : BitVec 32 :=
  let h := h ^^^ (h >>> 16)
  let h := h * 0x7ed1b41d#32
  let h := h ^^^ ((h ^^^ (h >>> 13)) >>> 13)
  let h := h * 0xa5cb9243#32
  h ^^^ (h >>> 16)

/-- `avalanche(u64)`, platform/ply-platform/Util.h:123-130. -/
def avalanche64 (h : BitVec 64) : BitVec 64 :=
  let h := h ^^^ (h >>> 33)
  let h := h * 0xff51afd7ed558ccd#64
  let h := h ^^^ (h >>> 33)
  let h := h * 0xc4ceb9fe1a85ec53#64
  h ^^^ (h >>> 33)

/-- `deavalanche(u64)`, platform/ply-platform/Util.h:132-139. -/
def deavalanche64 (h : BitVec 64) : BitVec 64 :=
  let h := h ^^^ (h >>> 33)
  let h := h * 0x9cb4b2f8129337db#64
  let h := h ^^^ (h >>> 33)
  let h := h * 0x4f74430c22a54005#64
  h ^^^ (h >>> 33)

end Verif.Bits
