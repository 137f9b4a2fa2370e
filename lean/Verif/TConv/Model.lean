import Verif.Enc.Model
/-!
# Text converter — model of rt/io/text/TextConverter.h and rt/io/text/TextConverter.cpp
-/
namespace Verif.TConv
open Verif Verif.Enc

/-- `TextEncoding` (the virtual table entries used by the converter), rt/string/TextEncoding.h:225-237:
`decodePoint` on a view, `encodePoint` on a buffer of `cap` bytes (`none` = assertion failure). -/
structure Encoding where
  dec : List Byte → DecodeResult
  enc : Nat → Nat → Option (List Byte)

/-- `TextEncoding::get<Enc_Bytes>()`, rt/string/TextEncoding.h:30-60, 239-241. -/
def bytesE : Encoding := ⟨decodeBytes, encodeBytes⟩
/-- `TextEncoding::get<UTF8>()`, rt/string/TextEncoding.h:64-131, 243-245. -/
def utf8E : Encoding := ⟨decodeUTF8, encodeUTF8⟩
/-- `TextEncoding::get<UTF16_LE>()` and `get<UTF16_BE>()`, rt/string/TextEncoding.h:137-216, 247-253. -/
def utf16E (be : Bool) : Encoding := ⟨decodeUTF16 be, encodeUTF16 be⟩

/-- The members `srcSmallBuf`, `dstSmallBuf` of a converter, rt/io/text/TextConverter.h:19-37 (only
the `numBytes` live bytes of each four-byte buffer are kept). -/
structure St where
  srcSmall : List Byte
  dstSmall : List Byte
  deriving DecidableEq, Repr

/-- A fresh converter, rt/io/text/TextConverter.h:20-22 and TextConverter.cpp:14-17. -/
def St.init : St := ⟨[], []⟩

/-- State during one call of `convert`, rt/io/text/TextConverter.cpp:19-141: the converter, the room
left in `*dstBuf` (`cap`), the bytes stored through it so far (`out`), the bytes left in `*srcBuf`.
The local `wroteAnything` is true exactly when `out` is not empty: every place that stores bytes
(lines 26-29, 121-124) stores at least one and sets it. -/
structure R where
  srcSmall : List Byte
  dstSmall : List Byte
  cap : Nat
  out : List Byte
  src : List Byte
  deriving DecidableEq, Repr

/-- The lambda `flushDstSmallBuf`, rt/io/text/TextConverter.cpp:23-32, with
`SmallBuffer::popFront`, TextConverter.h:27-31. -/
def flushDst (r : R) : R :=
  let n := min r.dstSmall.length r.cap
  { r with dstSmall := r.dstSmall.drop n, cap := r.cap - n, out := r.out ++ r.dstSmall.take n }

/-- Encoding a point to `dstSmallBuf`, rt/io/text/TextConverter.cpp:72-76 and 127-133: `none` = the
encoder asserts or produces no bytes; otherwise the bytes go through the small buffer. -/
def putSmall (dst : Encoding) (point : Nat) (r : R) : Option R :=
  match dst.enc 4 point with
  | none => none
  | some e => if e.length = 0 then none else some (flushDst { r with dstSmall := e })

/-- "Advance input", rt/io/text/TextConverter.cpp:78-86 (`offsetHead` asserts that it stays inside
the view). -/
def advance (n : Nat) (r : R) : Option R :=
  if n < r.srcSmall.length then some { r with srcSmall := r.srcSmall.drop n }
  else if n - r.srcSmall.length ≤ r.src.length then
    some { r with srcSmall := [], src := r.src.drop (n - r.srcSmall.length) }
  else none

/-- The loop `while (srcSmallBuf.numBytes > 0)`, rt/io/text/TextConverter.cpp:44-90.  `fuel` bounds
the iterations (each consumes at least one byte of the small buffer); the Boolean tells whether
`convert` returned from inside the loop.  `none` = assertion failure. -/
def smallLoop (dst src : Encoding) (flush : Bool) : Nat → R → Option (R × Bool)
  | fuel, r =>
    if r.srcSmall = [] then some (r, false) else
    match fuel with
    | 0 => none
    | fuel + 1 =>
      if r.dstSmall ≠ [] then none else
      if r.srcSmall.length > 4 then none else
      let d := src.dec (r.srcSmall ++ r.src.take (min (4 - r.srcSmall.length) r.src.length))
      if d.status = .truncated ∧ ¬ r.srcSmall.length < 4 then none else
      if d.status = .truncated ∧ ¬ (0 ≤ d.point ↔ 0 < d.numBytes) then none else
      if d.status = .truncated ∧ ¬ (flush = true ∧ 0 ≤ d.point) then some (r, true) else
      if ¬ (0 ≤ d.point ∧ 0 < d.numBytes) then none else
      match putSmall dst d.point.toNat r with
      | none => none
      | some r1 =>
        match advance d.numBytes r1 with
        | none => none
        | some r2 => if r2.cap = 0 then some (r2, true) else smallLoop dst src flush fuel r2

/-- Storing one decoded point in the main loop, rt/io/text/TextConverter.cpp:119-136: directly when
at least four bytes of room are left, through `dstSmallBuf` otherwise. -/
def put (dst : Encoding) (point : Nat) (r : R) : Option R :=
  if 4 ≤ r.cap then
    match dst.enc r.cap point with
    | none => none
    | some e =>
      if e.length = 0 ∨ r.cap < e.length then none
      else some { r with cap := r.cap - e.length, out := r.out ++ e }
  else putSmall dst point r

/-- The loop `while (srcBuf->numBytes > 0)`, rt/io/text/TextConverter.cpp:98-137.  `fuel` bounds the
iterations (each consumes at least one byte).  After a direct store the code does not test whether
the output is full: that test (line 134) belongs to the other branch. -/
def mainLoop (dst src : Encoding) (flush : Bool) : Nat → R → Option R
  | fuel, r =>
    if r.src = [] then some r else
    match fuel with
    | 0 => none
    | fuel + 1 =>
      let d := src.dec r.src
      if d.status = .truncated ∧ flush = false then
        if r.src.length < 4 then some { r with srcSmall := r.src, src := [] } else none
      else if d.status = .truncated ∧ ¬ (0 ≤ d.point ↔ 0 < d.numBytes) then none
      else if d.status = .truncated ∧ d.point < 0 then some r
      else if ¬ (0 ≤ d.point) ∨ r.src.length < d.numBytes then none
      else
        let wide := decide (4 ≤ r.cap)
        match put dst d.point.toNat { r with src := r.src.drop d.numBytes } with
        | none => none
        | some r1 =>
          if wide = false ∧ r1.cap = 0 then some r1 else mainLoop dst src flush fuel r1

/-- The part of `convert` after the small buffers have been emptied,
rt/io/text/TextConverter.cpp:92-141. -/
def convertMain (dst src : Encoding) (flush : Bool) (r : R) : Option R :=
  if r.cap = 0 ∨ r.dstSmall ≠ [] ∨ r.srcSmall ≠ [] then none
  else mainLoop dst src flush r.src.length r

/-- The part of `convert` from the `srcSmallBuf` loop on, rt/io/text/TextConverter.cpp:44-141. -/
def convertRest (dst src : Encoding) (flush : Bool) (r : R) : Option R :=
  match smallLoop dst src flush r.srcSmall.length r with
  | none => none
  | some (r1, true) => some r1
  | some (r1, false) => convertMain dst src flush r1

/-- `TextConverter::convert(dstBuf, srcBuf, flush)`, rt/io/text/TextConverter.cpp:19-141: `cap` is
`dstBuf->numBytes`.  The result holds the new small buffers, the room left, the bytes written and
what is left of `srcBuf`.  `none` = assertion failure or out-of-bounds access. -/
def convert (dst src : Encoding) (st : St) (cap : Nat) (view : List Byte) (flush : Bool) :
    Option R :=
  let r : R := ⟨st.srcSmall, st.dstSmall, cap, [], view⟩
  if cap = 0 then some r else
  let r1 := flushDst r
  if r.dstSmall ≠ [] ∧ r1.cap = 0 then some r1 else
  convertRest dst src flush r1

/-- `TextConverter::writeTo`, rt/io/text/TextConverter.cpp:143-158.  `room` lists the sizes of the
buffers that successive calls of `outs->tryMakeBytesAvailable()` make available (the stream supplies
at least one byte each time); `none` in the inner result = assertion failure.  The stream is taken
not to fail; running out of entries in `room` is reported as `none` too. -/
def writeTo (dst src : Encoding) (flush : Bool) : List Nat → St → List Byte → Option (St × List Byte × List Byte)
  | [], _, _ => none
  | cap :: room, st, view =>
    match convert dst src st cap view flush with
    | none => none
    | some r =>
      if r.out = [] then some (⟨r.srcSmall, r.dstSmall⟩, [], r.src)
      else
        match writeTo dst src flush room ⟨r.srcSmall, r.dstSmall⟩ r.src with
        | none => none
        | some (st', out, rest) => some (st', r.out ++ out, rest)

/-- `TextConverter::convertInternal`, rt/io/text/TextConverter.cpp:189-197: all of the text, with
`flush`, into a memory stream. -/
def convertInternal (dst src : Encoding) (room : List Nat) (text : List Byte) : Option (List Byte) :=
  match writeTo dst src true room .init text with
  | none => none
  | some (_, out, _) => some out

/-- A sequence of `OutPipe_TextConverter_write` calls followed by `OutPipe_TextConverter_flush`,
rt/io/text/TextConverter.cpp:232-243, on a stream that does not fail.  Whatever `writeTo` leaves
unconsumed of a piece is dropped, as in the code.  Each call comes with its own list of output
buffer sizes. -/
def pipe (dst src : Encoding) : List (List Nat × List Byte) → List Nat → St → Option (List Byte)
  | [], room, st =>
    match writeTo dst src true room st [] with
    | none => none
    | some (_, out, _) => some out
  | (caps, piece) :: more, room, st =>
    match writeTo dst src false caps st piece with
    | none => none
    | some (st', out, _) =>
      match pipe dst src more room st' with
      | none => none
      | some out' => some (out ++ out')

/-- `TextConverter::readFrom`, rt/io/text/TextConverter.cpp:160-187.  The input stream is given by the
bytes it has still to deliver (`rest`) and by a function `av` telling, for the `i`-th call of
`tryMakeBytesAvailable(4)`, how many of them are in its buffer and whether it is at end of file
(lines 166-171).  Result: converter, bytes written, bytes still to be delivered, next `i`.
`none` = assertion failure in `convert` or at line 182, or no end within `fuel` iterations. -/
def readFrom (dst src : Encoding) (av : Nat → List Byte → Nat × Bool) :
    Nat → Nat → St → Nat → List Byte → Option (St × List Byte × List Byte × Nat)
  | 0, _, _, _, _ => none
  | fuel + 1, i, st, cap, rest =>
    match convert dst src st cap (rest.take (av i rest).1) (av i rest).2 with
    | none => none
    | some r =>
      if r.out ≠ [] then
        some (⟨r.srcSmall, r.dstSmall⟩, r.out, r.src ++ rest.drop (av i rest).1, i + 1)
      else if (av i rest).2 = true then
        if r.src.length = 0 then
          some (⟨r.srcSmall, r.dstSmall⟩, [], rest.drop (av i rest).1, i + 1)
        else none
      else readFrom dst src av fuel (i + 1) ⟨r.srcSmall, r.dstSmall⟩ r.cap
        (r.src ++ rest.drop (av i rest).1)

/-- A sequence of `InPipe_TextConverter_readSome` calls with buffers of the given sizes,
rt/io/text/TextConverter.cpp:207-210; the result is the list of blocks returned. -/
def reads (dst src : Encoding) (av : Nat → List Byte → Nat × Bool) (fuel : Nat) :
    List Nat → Nat → St → List Byte → Option (List (List Byte))
  | [], _, _, _ => some []
  | cap :: caps, i, st, rest =>
    match readFrom dst src av fuel i st cap rest with
    | none => none
    | some (st', out, rest', i') =>
      match reads dst src av fuel caps i' st' rest' with
      | none => none
      | some outs => some (out :: outs)

end Verif.TConv
