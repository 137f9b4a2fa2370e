import Verif.TConv.Model
/-!
# Text converter — specification

What a conversion should produce, without buffers: read the source from the front one character at a
time, and write each in the destination encoding.
-/
namespace Verif.TConv.Spec
open Verif Verif.Enc

/-- The code points of a text, read from the front.  Reading stops at the end, or where the decoder
finds no point at all (a lone trailing byte of a two-byte unit). -/
def points (dec : List Byte → DecodeResult) : Nat → List Byte → List Nat
  | 0, _ => []
  | fuel + 1, text =>
    if text = [] ∨ (dec text).point < 0 then []
    else (dec text).point.toNat :: points dec fuel (text.drop (dec text).numBytes)

/-- The converted text: the encodings of the points, in order. -/
def converted (dst src : Encoding) (text : List Byte) : List Byte :=
  (points src.dec text.length text).flatMap fun p => (dst.enc 4 p).getD []

/-- What the converter relies on in a source encoding. -/
structure GoodDec (dec : List Byte → DecodeResult) : Prop where
  /-- a point comes with a positive number of bytes inside the view -/
  size : ∀ v, 0 ≤ (dec v).point → 0 < (dec v).numBytes ∧ (dec v).numBytes ≤ v.length ∧
    (dec v).numBytes ≤ 4
  /-- no point means no bytes -/
  nopoint : ∀ v, (dec v).point < 0 → (dec v).numBytes = 0 ∧ (dec v).status = .truncated
  /-- a result that is not "truncated" does not change when more bytes follow -/
  stable : ∀ v w, (dec v).status ≠ .truncated → dec (v ++ w) = dec v
  /-- four bytes are always enough to decide -/
  four : ∀ v w, 4 ≤ v.length → dec (v ++ w) = dec v
  /-- four bytes always contain a point -/
  fourPoint : ∀ v, 4 ≤ v.length → 0 ≤ (dec v).point

/-- What the converter relies on in a destination encoding: one to four bytes per point, and a
buffer of four bytes always suffices. -/
def GoodEnc (enc : Nat → Nat → Option (List Byte)) : Prop :=
  ∀ p, ∃ e : List Byte, 0 < e.length ∧ e.length ≤ 4 ∧ ∀ cap, 4 ≤ cap → enc cap p = some e

/-- No position of the text that the decoder visits looks "truncated" while four or more bytes
follow (in UTF-8: no stray continuation byte and no byte F8..FF where a character should start,
except in the last three bytes). -/
def NoStray (dec : List Byte → DecodeResult) : Nat → List Byte → Prop
  | 0, _ => True
  | fuel + 1, text =>
    text = [] ∨ (dec text).point < 0 ∨
      ((4 ≤ text.length → (dec text).status ≠ .truncated) ∧
        NoStray dec fuel (text.drop (dec text).numBytes))

/-- One call by a client that has `rest` still to convert: it shows the converter the first `n`
bytes and offers `cap` bytes of room; it says `flush` only when it shows everything.  Bytes the
converter leaves in the view are shown again next time. -/
structure Call where
  cap : Nat
  n : Nat
  flush : Bool
  deriving DecidableEq, Repr

/-- What an input stream offers after `tryMakeBytesAvailable(4)`: at least four bytes, or everything
that is left together with the end-of-file indication. -/
def GoodAvail (av : Nat → List Byte → Nat × Bool) : Prop :=
  ∀ i rest, ((av i rest).2 = true → rest.length ≤ (av i rest).1) ∧
    ((av i rest).2 = false → 4 ≤ (av i rest).1 ∧ 4 ≤ rest.length)

/-- The encodings the library provides: single bytes, UTF-8, UTF-16 little and big endian. -/
def encodings : List Encoding := [bytesE, utf8E, utf16E false, utf16E true]

end Verif.TConv.Spec

namespace Verif.TConv
open Verif Verif.Enc Spec

/-- A client of `convert` (rt/io/text/TextConverter.h:45-49) making a sequence of calls as described
at `Spec.Call`; the result is the converter, everything written so far, the source bytes not yet
taken, and the room left over by the last call.  `none` = assertion failure in the converter. -/
def client (dst src : Encoding) : List Call → St → List Byte → Option (St × List Byte × List Byte)
  | [], st, rest => some (st, [], rest)
  | c :: cs, st, rest =>
    match convert dst src st c.cap (rest.take c.n) c.flush with
    | none => none
    | some r =>
      match client dst src cs ⟨r.srcSmall, r.dstSmall⟩ (r.src ++ rest.drop c.n) with
      | none => none
      | some (st', out, rest') => some (st', r.out ++ out, rest')

/-- The calls respect the protocol: `flush` is said only when everything is shown. -/
def okCalls (dst src : Encoding) : List Call → St → List Byte → Prop
  | [], _, _ => True
  | c :: cs, st, rest =>
    (c.flush = true → rest.length ≤ c.n) ∧
    match convert dst src st c.cap (rest.take c.n) c.flush with
    | none => True
    | some r => okCalls dst src cs ⟨r.srcSmall, r.dstSmall⟩ (r.src ++ rest.drop c.n)

end Verif.TConv
