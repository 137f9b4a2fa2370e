import Verif.Basic
/-!
# Printing and parsing integers — model

rt/io/impl/FormatString.cpp, rt/io/impl/TypeParser.cpp, rt/io/impl/TypeParser.h

The input stream is represented by the list of bytes it still has to deliver (that a buffered
stream read one byte at a time behaves like that list is property C25); the output stream by the
list of bytes written.
-/
namespace Verif.Num
open Verif

/-- `toDigit`, rt/io/impl/FormatString.cpp:15-19 (`'0' = 48, 'A' = 65, 'a' = 97, '?' = 63`; the two
digit tables are consecutive ASCII runs). -/
def toDigit (d : Nat) (capitalize : Bool) : Byte :=
  if d ≤ 35 then
    if d < 10 then UInt8.ofNat (48 + d)
    else if capitalize then UInt8.ofNat (65 + (d - 10)) else UInt8.ofNat (97 + (d - 10))
  else 63

/-- The digit loop of `printString(OutStream*, u64, …)`, rt/io/impl/FormatString.cpp:29-35.  The
buffer is filled from its end; `acc` is its filled part, the structural argument is `digitIndex`.
`none` is the assertion failure of line 32 (buffer full). -/
def printLoop (radix : Nat) (cap : Bool) : (digitIndex : Nat) → (value : Nat) → List Byte →
    Option (List Byte)
  | 0, value, acc => if value > 0 then none else some acc
  | k + 1, value, acc =>
    if value > 0 then
      let quotient := value / radix
      let digit := u32 (value - quotient * radix)
      printLoop radix cap k quotient (toDigit digit cap :: acc)
    else some acc

/-- `printString(OutStream*, u64 value, u32 radix, bool capitalize)`,
rt/io/impl/FormatString.cpp:21-39.  `none` = assertion failure. -/
def printU64 (value radix : Nat) (cap : Bool) : Option (List Byte) :=
  if radix ≥ 2 then
    if value = 0 then some [48] else printLoop radix cap 64 value []
  else none

/-- `printString(OutStream*, s64 value, …)`, rt/io/impl/FormatString.cpp:41-48.  Negating the most
negative value is undefined behaviour (signed overflow): outcome `none`. -/
def printS64 (value : Int) (radix : Nat) (cap : Bool) : Option (List Byte) :=
  if value ≥ 0 then printU64 value.toNat radix cap
  else if value = -(2 ^ 63) then none
  else match printU64 (-value).toNat radix cap with
    | none => none
    | some bs => some (45 :: bs)

/-- `fmt::DigitTable`, rt/io/impl/TypeParser.cpp:13-30, verbatim. -/
def digitTable : List Nat := [
    255, 255, 255, 255, 255, 255, 255, 255, 255, 255, 255, 255, 255, 255, 255, 255,
    255, 255, 255, 255, 255, 255, 255, 255, 255, 255, 255, 255, 255, 255, 255, 255,
    255, 255, 255, 255, 255, 255, 255, 255, 255, 255, 255, 255, 255, 255, 255, 255,
    0, 1, 2, 3, 4, 5, 6, 7, 8, 9, 255, 255, 255, 255, 255, 255,
    255, 10, 11, 12, 13, 14, 15, 16, 17, 18, 19, 20, 21, 22, 23, 24,
    25, 26, 27, 28, 29, 30, 31, 32, 33, 34, 35, 255, 255, 255, 255, 255,
    255, 10, 11, 12, 13, 14, 15, 16, 17, 18, 19, 20, 21, 22, 23, 24,
    25, 26, 27, 28, 29, 30, 31, 32, 33, 34, 35, 255, 255, 255, 255, 255,
    255, 255, 255, 255, 255, 255, 255, 255, 255, 255, 255, 255, 255, 255, 255, 255,
    255, 255, 255, 255, 255, 255, 255, 255, 255, 255, 255, 255, 255, 255, 255, 255,
    255, 255, 255, 255, 255, 255, 255, 255, 255, 255, 255, 255, 255, 255, 255, 255,
    255, 255, 255, 255, 255, 255, 255, 255, 255, 255, 255, 255, 255, 255, 255, 255,
    255, 255, 255, 255, 255, 255, 255, 255, 255, 255, 255, 255, 255, 255, 255, 255,
    255, 255, 255, 255, 255, 255, 255, 255, 255, 255, 255, 255, 255, 255, 255, 255,
    255, 255, 255, 255, 255, 255, 255, 255, 255, 255, 255, 255, 255, 255, 255, 255,
    255, 255, 255, 255, 255, 255, 255, 255, 255, 255, 255, 255, 255, 255, 255, 255]

theorem digitTable_length : digitTable.length = 256 := by decide +kernel

/-- Table lookup `fmt::DigitTable[(u8) c]`, rt/io/impl/TypeParser.cpp:95. -/
def digitOf (c : Byte) : Nat :=
  digitTable[c.toNat]'(by rw [digitTable_length]; exact byte_lt c)

/-- Result of a parse: the value returned, whether `ins->status.parseError` was set, and the
unread input. -/
structure Parsed (α : Type) where
  value : α
  error : Bool
  rest : List Byte
  deriving DecidableEq, Repr

/-- The loop of `TypeParser<u64>::parse`, rt/io/impl/TypeParser.cpp:92-109, as a left-to-right scan
with the loop variables `result`, `anyDigits`, `overflow`; lines 110-114 are the exit. -/
def parseLoop (base : Nat) : (result : Nat) → (anyDigits overflow : Bool) → List Byte → Parsed Nat
  | result, any, ov, [] => if !any || ov then ⟨0, true, []⟩ else ⟨result, false, []⟩
  | result, any, ov, c :: rest =>
    let digit := digitOf c
    if digit ≥ base then
      if !any || ov then ⟨0, true, c :: rest⟩ else ⟨result, false, c :: rest⟩
    else
      let ov' := ov || (result > 0x71c71c71c71c71b && result > (2 ^ 64 - 1 - digit) / base)
      parseLoop base (u64 (result * base + digit)) true ov' rest

/-- `TypeParser<u64>::parse`, rt/io/impl/TypeParser.cpp:85-115.  `none` = assertion on the radix. -/
def parseU64 (base : Nat) (input : List Byte) : Option (Parsed Nat) :=
  if base > 0 ∧ base ≤ 36 then some (parseLoop base 0 false false input) else none

/-- Reinterpret an unsigned value below `2^w` as two's complement (C++ `(s64) x`, `(s32) x`, …). -/
def toSigned (w : Nat) (n : Nat) : Int :=
  if n % 2 ^ w < 2 ^ (w - 1) then (n % 2 ^ w : Nat) else ((n % 2 ^ w : Nat) : Int) - 2 ^ w

/-- `TypeParser<s64>::parse`, rt/io/impl/TypeParser.cpp:117-138.  `none`: radix assertion, or the
signed overflow of line 126 when the unsigned part is `2^63`. -/
def parseS64 (base : Nat) (input : List Byte) : Option (Parsed Int) :=
  let (negate, input') := match input with
    | c :: rest => if c = 45 then (true, rest) else (false, input)
    | [] => (false, input)
  match parseU64 base input' with
  | none => none
  | some p =>
    if negate then
      if toSigned 64 p.value = -(2 ^ 63) then none
      else
        let result := -(toSigned 64 p.value)
        some ⟨result, p.error || decide (result > 0), p.rest⟩
    else
      let result := toSigned 64 p.value
      some ⟨result, p.error || decide (result < 0), p.rest⟩

/-- `TypeParser_Integral<uN, u64>::parse`, rt/io/impl/TypeParser.h:56-70, for `N = w` bits. -/
def parseUN (w base : Nat) (input : List Byte) : Option (Parsed Nat) :=
  match parseU64 base input with
  | none => none
  | some p =>
    let result := p.value % 2 ^ w
    if result ≠ p.value then some ⟨0, true, p.rest⟩ else some ⟨result, p.error, p.rest⟩

/-- `TypeParser_Integral<sN, s64>::parse`, rt/io/impl/TypeParser.h:56-70, for `N = w` bits. -/
def parseSN (w base : Nat) (input : List Byte) : Option (Parsed Int) :=
  match parseS64 base input with
  | none => none
  | some p =>
    let result := toSigned w (p.value % 2 ^ 64).toNat
    if result ≠ p.value then some ⟨0, true, p.rest⟩ else some ⟨result, p.error, p.rest⟩

end Verif.Num
