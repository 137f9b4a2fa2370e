import Verif.Basic
/-!
# Text encodings — model of rt/string/TextEncoding.h and rt/string/TextEncoding.cpp
-/
namespace Verif.Enc
open Verif

/-- `DecodeResult::Status`, rt/string/TextEncoding.h:12-18. -/
inductive Status where
  | truncated
  | invalid
  | valid
  deriving DecidableEq, Repr

/-- `DecodeResult`, rt/string/TextEncoding.h:11-25 (`point` is an `s32`, -1 = no point). -/
structure DecodeResult where
  point : Int
  status : Status
  numBytes : Nat
  deriving DecidableEq, Repr

/-- The default-constructed `DecodeResult`, rt/string/TextEncoding.h:22-24. -/
def DecodeResult.none : DecodeResult := ⟨-1, .truncated, 0⟩

/-- `Enc_Bytes::decodePoint`, rt/string/TextEncoding.h:31-37. -/
def decodeBytes : List Byte → DecodeResult
  | [] => .none
  | b :: _ => ⟨b.toNat, .valid, 1⟩

/-- `Enc_Bytes::encodePoint`, rt/string/TextEncoding.h:51-58.  `cap` is `view.numBytes`; the result
is the list of bytes stored; `none` = assertion failure (buffer too small). -/
def encodeBytes (cap point : Nat) : Option (List Byte) :=
  if cap > 0 then some [if point < 256 then UInt8.ofNat point else 0x95] else none

/-- The result of the "Bad encoding; consume just one byte" exit,
rt/string/TextEncoding.cpp:68-72. -/
def bad (first : Byte) (status : Status) : DecodeResult := ⟨first.toNat, status, 1⟩

/-- Is it a continuation byte: `(b & 0xc0) == 0x80`. -/
def isCont (b : Byte) : Bool := (b.toNat &&& 0xc0) == 0x80

/-- `value = (value << 6) | (*bytes & 0x3f)`, rt/string/TextEncoding.cpp:75,78,81. -/
def consume (value : Nat) (b : Byte) : Nat := (value <<< 6) ||| (b.toNat &&& 0x3f)

/-- `UTF8::decodePointSlowPath`, rt/string/TextEncoding.cpp:13-85.  The pattern matches on the
number of bytes available play the role of the `view.numBytes >= n` tests, so a byte outside the
view is never inspected. -/
def decodeUTF8Slow : List Byte → DecodeResult
  | [] => .none
  | first :: bytes =>
    let sel := (first.toNat >>> 3) &&& 0xf
    if sel = 8 ∨ sel = 9 ∨ sel = 10 ∨ sel = 11 then
      match bytes with
      | b0 :: _ =>
        if isCont b0 then ⟨consume (first.toNat &&& 0x1f) b0, .valid, 2⟩
        else bad first .invalid
      | [] => bad first .truncated
    else if sel = 12 ∨ sel = 13 then
      match bytes with
      | b0 :: b1 :: _ =>
        if isCont b0 && isCont b1 then ⟨consume (consume (first.toNat &&& 0xf) b0) b1, .valid, 3⟩
        else bad first .invalid
      | _ => bad first .truncated
    else if sel = 14 then
      match bytes with
      | b0 :: b1 :: b2 :: _ =>
        if isCont b0 && isCont b1 && isCont b2 then
          ⟨consume (consume (consume (first.toNat &&& 0x7) b0) b1) b2, .valid, 4⟩
        else bad first .invalid
      | _ => bad first .truncated
    else bad first .truncated

/-- `UTF8::decodePoint`, rt/string/TextEncoding.h:67-75. -/
def decodeUTF8 (view : List Byte) : DecodeResult :=
  match view with
  | first :: _ => if first.toNat < 0x80 then ⟨first.toNat, .valid, 1⟩ else decodeUTF8Slow view
  | [] => decodeUTF8Slow view

/-- `UTF8::numBytes`, rt/string/TextEncoding.h:89-98. -/
def numBytesUTF8 (point : Nat) : Nat :=
  if point < 0x80 then 1 else if point < 0x800 then 2 else if point < 0x10000 then 3 else 4

/-- `UTF8::encodePoint`, rt/string/TextEncoding.h:100-130.  `cap` is `view.numBytes`; the result is
the list of bytes stored; `none` = assertion failure (buffer too small). -/
def encodeUTF8 (cap point : Nat) : Option (List Byte) :=
  if point < 0x80 then
    if cap ≥ 1 then some [UInt8.ofNat point] else none
  else if point < 0x800 then
    if cap ≥ 2 then
      some [UInt8.ofNat (0xc0 ||| (point >>> 6)), UInt8.ofNat (0x80 ||| (point &&& 0x3f))]
    else none
  else if point < 0x10000 then
    if cap ≥ 3 then
      some [UInt8.ofNat (0xe0 ||| (point >>> 12)), UInt8.ofNat (0x80 ||| ((point >>> 6) &&& 0x3f)),
        UInt8.ofNat (0x80 ||| (point &&& 0x3f))]
    else none
  else
    if cap ≥ 4 then
      some [UInt8.ofNat (0xf0 ||| (point >>> 18)), UInt8.ofNat (0x80 ||| ((point >>> 12) &&& 0x3f)),
        UInt8.ofNat (0x80 ||| ((point >>> 6) &&& 0x3f)), UInt8.ofNat (0x80 ||| (point &&& 0x3f))]
    else none

/-- `UTF8::backNumBytesSlowPath`, rt/string/TextEncoding.cpp:87-107, on the reversed view
(`tail[-1]` is the head).  In C++ the byte test comes before the length test in lines 92-94, so at
length 1 it reads `tail[-2]` only when `numBytes >= 2` was already established one level up. -/
def backUTF8Slow : List Byte → Nat
  | [] => 0
  | t1 :: t2 :: t3 :: t4 :: _ =>
    if isCont t1 then
      if isCont t2 then
        if isCont t3 then (if t4.toNat &&& 0xf8 = 0xf0 then 4 else 1)
        else (if t3.toNat &&& 0xf0 = 0xe0 then 3 else 1)
      else (if t2.toNat &&& 0xe0 = 0xc0 then 2 else 1)
    else 1
  | [t1, t2, t3] =>
    if isCont t1 then
      if isCont t2 then (if t3.toNat &&& 0xf0 = 0xe0 then 3 else 1)
      else (if t2.toNat &&& 0xe0 = 0xc0 then 2 else 1)
    else 1
  | [t1, t2] =>
    if isCont t1 then (if t2.toNat &&& 0xe0 = 0xc0 then 2 else 1) else 1
  | [_] => 1

/-- `UTF8::backNumBytes`, rt/string/TextEncoding.h:79-87 (view given in order). -/
def backUTF8 (view : List Byte) : Nat :=
  match view.reverse with
  | last :: rest => if last.toNat < 0x80 then 1 else backUTF8Slow (last :: rest)
  | [] => backUTF8Slow []

/-- `UTF16::getUnit`, rt/string/TextEncoding.h:138-144. -/
def getUnit (be : Bool) (b0 b1 : Byte) : Nat :=
  if be then (b0.toNat <<< 8) ||| b1.toNat else b0.toNat ||| (b1.toNat <<< 8)

/-- `UTF16::putUnit`, rt/string/TextEncoding.h:146-154. -/
def putUnit (be : Bool) (u : Nat) : List Byte :=
  if be then [UInt8.ofNat (u >>> 8), UInt8.ofNat u] else [UInt8.ofNat u, UInt8.ofNat (u >>> 8)]

/-- `UTF16::decodePoint`, rt/string/TextEncoding.h:156-176. -/
def decodeUTF16 (be : Bool) : List Byte → DecodeResult
  | [] => .none
  | [_] => .none
  | b0 :: b1 :: more =>
    let first := getUnit be b0 b1
    if first ≥ 0xd800 ∧ first < 0xdc00 then
      match more with
      | b2 :: b3 :: _ =>
        let second := getUnit be b2 b3
        if second ≥ 0xdc00 ∧ second < 0xe000 then
          ⟨((0x10000 + ((first - 0xd800) <<< 10) + (second - 0xdc00) : Nat) : Int), .valid, 4⟩
        else ⟨first, .invalid, 2⟩
      | _ => ⟨first, .truncated, 2⟩
    else if ¬ (first ≥ 0xdc00 ∧ first < 0xe000) then ⟨first, .valid, 2⟩
    else ⟨first, .invalid, 2⟩

/-- `UTF16::backNumBytes`, rt/string/TextEncoding.h:178-190 (view given in order; matched on its
reverse). -/
def backUTF16 (be : Bool) (view : List Byte) : Nat :=
  match view.reverse with
  | [] => 0
  | [_] => 0
  | t1 :: t2 :: t3 :: t4 :: _ =>
    let first := getUnit be t4 t3
    let second := getUnit be t2 t1
    if first ≥ 0xd800 ∧ first < 0xdc00 ∧ second ≥ 0xdc00 ∧ second < 0xe000 then 4 else 2
  | _ => 2

/-- `UTF16::encodePoint`, rt/string/TextEncoding.h:199-215 (`u16(x)` truncates to 16 bits). -/
def encodeUTF16 (be : Bool) (cap point : Nat) : Option (List Byte) :=
  if point < 0x10000 then
    if cap ≥ 2 then some (putUnit be (point % 2 ^ 16)) else none
  else
    if cap ≥ 4 then
      let p := point - 0x10000
      some (putUnit be ((0xd800 + ((p >>> 10) &&& 0x3ff)) % 2 ^ 16) ++
        putUnit be ((0xdc00 + (p &&& 0x3ff)) % 2 ^ 16))
    else none

end Verif.Enc

namespace Verif.Enc
open Verif

/-- `StringView::reversedUTF8`, rt/string/StringView.cpp:120-138.  The loop runs until the output
is full, i.e. as long as source bytes remain; `none` = assertion failure, out-of-range copy or no
termination within `fuel` iterations. -/
def reversedLoop : Nat → List Byte → Option (List Byte)
  | _, [] => some []
  | 0, _ :: _ => none
  | fuel + 1, b :: bs =>
    let view := b :: bs
    let k := backUTF8 view
    if 0 < k ∧ k ≤ view.length then
      (reversedLoop fuel (view.take (view.length - k))).map (view.drop (view.length - k) ++ ·)
    else none

/-- `StringView::reversedUTF8`, rt/string/StringView.cpp:120-138. -/
def reversedUTF8 (view : List Byte) : Option (List Byte) := reversedLoop view.length view

/-- A decoding loop as used all over the code base, e.g. rt/io/text/TextConverter.cpp:112-140 and
rt/io/impl/FormatString.cpp:214-252: decode at the front, step over `numBytes`, repeat until the
view is empty.  `none` = the loop would not make progress. -/
def decodeAll : Nat → List Byte → Option (List DecodeResult)
  | _, [] => some []
  | 0, _ :: _ => none
  | fuel + 1, b :: bs =>
    let r := decodeUTF8 (b :: bs)
    if 0 < r.numBytes ∧ r.numBytes ≤ (b :: bs).length then
      (decodeAll fuel ((b :: bs).drop r.numBytes)).map (r :: ·)
    else none

end Verif.Enc
