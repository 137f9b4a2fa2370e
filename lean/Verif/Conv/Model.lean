import Verif.Basic
/-!
# Converting structs — model

Models reflect/ply-reflect/TypeConverter.cpp: `createConversionRecipe` writes a recipe for filling one struct from
several others, member by member; `applyConversionRecipe` follows it.  `none` = an assertion, a forced crash or
undefined behaviour.

Simplified: a recipe is a list of commands, not their bytes, and fits into one block of the stream that it is
written to.  All memory can be read and written; alignment is not looked at.
-/
namespace Verif.Conv
open Verif

/-- Memory, by address. -/
abbrev Mem := Nat → Byte

/-- `TypeDescriptor`, reflect/ply-reflect/TypeDescriptor.h, as far as TypeConverter.cpp tells types apart:
`TypeKey_Float`, `TypeDescriptor_FixedArray` (builtin/TypeDescriptor_FixedArray.h: numItems, stride, itemType),
`TypeDescriptor_Array`, and all others, of which only the size matters. -/
inductive Ty where
  | float
  | fixedArray (numItems stride : Nat) (item : Ty)
  | array (item : Ty)
  | other (size : Nat)
  deriving DecidableEq, Repr

/-- `TypeDescriptor::fixedSize`; for fixed arrays builtin/TypeDescriptor_FixedArray.h (the constructors), for arrays
the size of `details::BaseArray`, rt/container/details/BaseArray.h.  Sizes are not cut to 32 bits. -/
def Ty.fixedSize : Ty → Nat
  | .float => 4
  | .fixedArray n stride _ => n * stride
  | .array _ => 16
  | .other size => size

/-- `TypeDescriptor_Struct::Member`, builtin/TypeDescriptor_Struct.h:26-30. -/
structure Member where
  name : List Byte
  offset : Nat
  ty : Ty
  deriving DecidableEq, Repr

/-- `TypeConverter::Cmd` and the structs that go with it, TypeConverter.cpp:57-101. -/
inductive Cmd where
  | setRootSourceIndex (sourceIndex : Nat)
  | iterateArrayToFixedArray (dstOffset srcOffset dstStride srcStride dstSize : Nat)
  | copy32 (dstOffset srcOffset : Nat)
  | copy32Range (dstOffset srcOffset count : Nat)
  | endScope
  deriving DecidableEq, Repr

/-- `safeDemote<u16>`, platform/ply-platform/Util.h:77-82. -/
def demote (x : Nat) : Option Nat := if x < 65536 then some x else none

/-- The loop of the slow path, TypeConverter.cpp:128-135; offsets are `u32`. -/
def repeatItems (f : Nat → Nat → Option (List Cmd)) (dstStride srcStride : Nat) : Nat → Nat → Nat → Option (List Cmd)
  | 0, _, _ => some []
  | n + 1, d, s =>
    match f d s with
    | none => none
    | some a =>
      match repeatItems f dstStride srcStride n ((d + dstStride) % 4294967296) ((s + srcStride) % 4294967296) with
      | none => none
      | some b => some (a ++ b)

/-- `makeConversionRecipe`, TypeConverter.cpp:103-154; `d` and `s` are the offsets in `WriteContext`. -/
def makeRecipe : Ty → Ty → Nat → Nat → Option (List Cmd)
  | .float, .float, d, s =>
    match demote d, demote s with
    | some d, some s => some [.copy32 d s]
    | _, _ => none
  | .fixedArray n dstStride t, .fixedArray n' srcStride t', d, s =>
    if t = .float ∧ t' = .float ∧ dstStride = 4 ∧ srcStride = 4 then
      match demote d, demote s, demote (min n n') with
      | some d, some s, some c => some [.copy32Range d s c]
      | _, _, _ => none
    else repeatItems (makeRecipe t t') dstStride srcStride (min n n') d s
  | .fixedArray n dstStride t, .array t', d, s =>
    match demote d, demote s, demote dstStride, demote t'.fixedSize, demote n, makeRecipe t t' 0 0 with
    | some d, some s, some ds, some ss, some n, some body =>
      some (.iterateArrayToFixedArray d s ds ss n :: (body ++ [.endScope]))
    | _, _, _, _, _, _ => none
  | _, _, _, _ => none

/-- The search for the member to take, TypeConverter.cpp:159-172: the first struct that has a member of this name, and
its first such member. -/
def findSource (name : List Byte) : List (List Member) → Nat → Option (Nat × Member)
  | [], _ => none
  | ms :: rest, s =>
    match ms.find? (fun m => m.name == name) with
    | some m => some (s, m)
    | none => findSource name rest (s + 1)

/-- `createConversionRecipe`, TypeConverter.cpp:156-175. -/
def createRecipe (srcs : List (List Member)) : List Member → Option (List Cmd)
  | [] => some [.endScope]
  | m :: ms =>
    match findSource m.name srcs 0 with
    | none => none
    | some (s, sm) =>
      match demote s, makeRecipe m.ty sm.ty m.offset sm.offset, createRecipe srcs ms with
      | some s, some r, some rest => some (.setRootSourceIndex s :: (r ++ rest))
      | _, _, _ => none

/-- `*(u32*) dst = *(u32*) src`, TypeConverter.cpp:234-235. -/
def copy4 (mem : Mem) (d s : Nat) : Mem := fun a => if d ≤ a ∧ a < d + 4 then mem (s + (a - d)) else mem a

/-- The loop of `Copy32Range`, TypeConverter.cpp:242-247. -/
def copyRange : Nat → Mem → Nat → Nat → Mem
  | 0, mem, _, _ => mem
  | n + 1, mem, d, s => copyRange n (copy4 mem d s) (d + 4) (s + 4)

/-- A little-endian number of `n` bytes. -/
def readLE (mem : Mem) : Nat → Nat → Nat
  | 0, _ => 0
  | n + 1, a => (mem a).toNat + 256 * readLE mem n (a + 1)

/-- `convert` on a cursor to the next block: there is none, so that it returns at once, TypeConverter.cpp:190-193. -/
def convertNext (mem : Mem) (_dst _src : Nat) : Mem := mem

/-- The loop over the items of an array, TypeConverter.cpp:217-228.  `cursor` is already at the next block
(TypeConverter.cpp:197), not at the commands that follow in `view`. -/
def iterate (dstStride srcStride : Nat) : Nat → Mem → Nat → Nat → Mem
  | 0, mem, _, _ => mem
  | n + 1, mem, d, s => iterate dstStride srcStride n (convertNext mem d s) (d + dstStride) (s + srcStride)

/-- `convert`, TypeConverter.cpp:183-262; `src` is `srcPtr`, `none` = null.  After the last command there are
arbitrary bytes, since `view` goes up to the end of the block and not up to the last byte written
(TypeConverter.cpp:195). -/
def convert (srcPtrs : List Nat) : List Cmd → Mem → Nat → Option Nat → Option Mem
  | [], _, _, _ => none
  | .setRootSourceIndex i :: view, mem, dst, _ =>
    match srcPtrs[i]? with
    | none => none
    | some p => convert srcPtrs view mem dst (some p)
  | .iterateArrayToFixedArray d s ds ss n :: view, mem, dst, src =>
    match src with
    | none => none
    | some p => convert srcPtrs view
        (iterate ds ss (min n (readLE mem 4 (p + s + 8))) mem (dst + d) (readLE mem 8 (p + s))) dst src
  | .copy32 d s :: view, mem, dst, src =>
    match src with
    | none => none
    | some p => convert srcPtrs view (copy4 mem (dst + d) (p + s)) dst src
  | .copy32Range d s n :: view, mem, dst, src =>
    match src with
    | none => none
    | some p => convert srcPtrs view (copyRange n mem (dst + d) (p + s)) dst src
  | .endScope :: _, mem, _, _ => some mem

/-- `applyConversionRecipe`, TypeConverter.cpp:264-267. -/
def applyRecipe (recipe : List Cmd) (mem : Mem) (dst : Nat) (srcPtrs : List Nat) : Option Mem :=
  convert srcPtrs recipe mem dst none

end Verif.Conv
