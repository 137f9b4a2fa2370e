import Verif.Basic
/-!
# The 128-bit hash (rt/container/Hash128.h, rt/container/Hash128.cpp)

`u64` is `UInt64`.  Byte counts are natural numbers: fewer than 2^64 bytes in total are assumed.  Words
are read little-endian, unaligned reads are allowed (rt/container/Hash128.cpp:22).  A fault (`none`)
is a read or write outside the message or the buffer.
-/
namespace Verif.Spooky
open Verif

/-- Twelve words: the internal state, or a block of 96 bytes. -/
structure W12 where
  w0 : UInt64
  w1 : UInt64
  w2 : UInt64
  w3 : UInt64
  w4 : UInt64
  w5 : UInt64
  w6 : UInt64
  w7 : UInt64
  w8 : UInt64
  w9 : UInt64
  w10 : UInt64
  w11 : UInt64
deriving DecidableEq, Repr

/-- `SpookyHash::Rot64` (rt/container/Hash128.h:101-103). -/
def rot64 (x : UInt64) (k : UInt64) : UInt64 := (x <<< k) ||| (x >>> (64 - k))

/-- `sc_const` (rt/container/Hash128.h:270). -/
def scConst : UInt64 := 0xdeadbeefdeadbeef

/-- `SpookyHash::Mix` (rt/container/Hash128.h:118-134). -/
def mix (d : W12) (s : W12) : W12 :=
  let s0 := s.w0
  let s1 := s.w1
  let s2 := s.w2
  let s3 := s.w3
  let s4 := s.w4
  let s5 := s.w5
  let s6 := s.w6
  let s7 := s.w7
  let s8 := s.w8
  let s9 := s.w9
  let s10 := s.w10
  let s11 := s.w11
  let s0 := s0 + d.w0; let s2 := s2 ^^^ s10; let s11 := s11 ^^^ s0; let s0 := rot64 s0 11; let s11 := s11 + s1
  let s1 := s1 + d.w1; let s3 := s3 ^^^ s11; let s0 := s0 ^^^ s1; let s1 := rot64 s1 32; let s0 := s0 + s2
  let s2 := s2 + d.w2; let s4 := s4 ^^^ s0; let s1 := s1 ^^^ s2; let s2 := rot64 s2 43; let s1 := s1 + s3
  let s3 := s3 + d.w3; let s5 := s5 ^^^ s1; let s2 := s2 ^^^ s3; let s3 := rot64 s3 31; let s2 := s2 + s4
  let s4 := s4 + d.w4; let s6 := s6 ^^^ s2; let s3 := s3 ^^^ s4; let s4 := rot64 s4 17; let s3 := s3 + s5
  let s5 := s5 + d.w5; let s7 := s7 ^^^ s3; let s4 := s4 ^^^ s5; let s5 := rot64 s5 28; let s4 := s4 + s6
  let s6 := s6 + d.w6; let s8 := s8 ^^^ s4; let s5 := s5 ^^^ s6; let s6 := rot64 s6 39; let s5 := s5 + s7
  let s7 := s7 + d.w7; let s9 := s9 ^^^ s5; let s6 := s6 ^^^ s7; let s7 := rot64 s7 57; let s6 := s6 + s8
  let s8 := s8 + d.w8; let s10 := s10 ^^^ s6; let s7 := s7 ^^^ s8; let s8 := rot64 s8 55; let s7 := s7 + s9
  let s9 := s9 + d.w9; let s11 := s11 ^^^ s7; let s8 := s8 ^^^ s9; let s9 := rot64 s9 54; let s8 := s8 + s10
  let s10 := s10 + d.w10; let s0 := s0 ^^^ s8; let s9 := s9 ^^^ s10; let s10 := rot64 s10 22; let s9 := s9 + s11
  let s11 := s11 + d.w11; let s1 := s1 ^^^ s9; let s10 := s10 ^^^ s11; let s11 := rot64 s11 46; let s10 := s10 + s0
  ⟨s0, s1, s2, s3, s4, s5, s6, s7, s8, s9, s10, s11⟩

/-- `SpookyHash::EndPartial` (rt/container/Hash128.h:152-168). -/
def endPartial (s : W12) : W12 :=
  let s0 := s.w0
  let s1 := s.w1
  let s2 := s.w2
  let s3 := s.w3
  let s4 := s.w4
  let s5 := s.w5
  let s6 := s.w6
  let s7 := s.w7
  let s8 := s.w8
  let s9 := s.w9
  let s10 := s.w10
  let s11 := s.w11
  let s11 := s11 + s1; let s2 := s2 ^^^ s11; let s1 := rot64 s1 44
  let s0 := s0 + s2; let s3 := s3 ^^^ s0; let s2 := rot64 s2 15
  let s1 := s1 + s3; let s4 := s4 ^^^ s1; let s3 := rot64 s3 34
  let s2 := s2 + s4; let s5 := s5 ^^^ s2; let s4 := rot64 s4 21
  let s3 := s3 + s5; let s6 := s6 ^^^ s3; let s5 := rot64 s5 38
  let s4 := s4 + s6; let s7 := s7 ^^^ s4; let s6 := rot64 s6 33
  let s5 := s5 + s7; let s8 := s8 ^^^ s5; let s7 := rot64 s7 10
  let s6 := s6 + s8; let s9 := s9 ^^^ s6; let s8 := rot64 s8 13
  let s7 := s7 + s9; let s10 := s10 ^^^ s7; let s9 := rot64 s9 38
  let s8 := s8 + s10; let s11 := s11 ^^^ s8; let s10 := rot64 s10 53
  let s9 := s9 + s11; let s0 := s0 ^^^ s9; let s11 := rot64 s11 42
  let s10 := s10 + s0; let s1 := s1 ^^^ s10; let s0 := rot64 s0 54
  ⟨s0, s1, s2, s3, s4, s5, s6, s7, s8, s9, s10, s11⟩

/-- `SpookyHash::End` (rt/container/Hash128.h:170-180). -/
def fin (d : W12) (s : W12) : W12 :=
  endPartial (endPartial (endPartial
    ⟨s.w0 + d.w0, s.w1 + d.w1, s.w2 + d.w2, s.w3 + d.w3, s.w4 + d.w4, s.w5 + d.w5, s.w6 + d.w6, s.w7 + d.w7, s.w8 + d.w8, s.w9 + d.w9, s.w10 + d.w10, s.w11 + d.w11⟩))

/-- `SpookyHash::ShortMix` (rt/container/Hash128.h:197-212). -/
def shortMix (h : UInt64 × UInt64 × UInt64 × UInt64) : UInt64 × UInt64 × UInt64 × UInt64 :=
  let h0 := h.1
  let h1 := h.2.1
  let h2 := h.2.2.1
  let h3 := h.2.2.2
  let h2 := rot64 h2 50; let h2 := h2 + h3; let h0 := h0 ^^^ h2
  let h3 := rot64 h3 52; let h3 := h3 + h0; let h1 := h1 ^^^ h3
  let h0 := rot64 h0 30; let h0 := h0 + h1; let h2 := h2 ^^^ h0
  let h1 := rot64 h1 41; let h1 := h1 + h2; let h3 := h3 ^^^ h1
  let h2 := rot64 h2 54; let h2 := h2 + h3; let h0 := h0 ^^^ h2
  let h3 := rot64 h3 48; let h3 := h3 + h0; let h1 := h1 ^^^ h3
  let h0 := rot64 h0 38; let h0 := h0 + h1; let h2 := h2 ^^^ h0
  let h1 := rot64 h1 37; let h1 := h1 + h2; let h3 := h3 ^^^ h1
  let h2 := rot64 h2 62; let h2 := h2 + h3; let h0 := h0 ^^^ h2
  let h3 := rot64 h3 34; let h3 := h3 + h0; let h1 := h1 ^^^ h3
  let h0 := rot64 h0 5; let h0 := h0 + h1; let h2 := h2 ^^^ h0
  let h1 := rot64 h1 36; let h1 := h1 + h2; let h3 := h3 ^^^ h1
  (h0, h1, h2, h3)

/-- `SpookyHash::ShortEnd` (rt/container/Hash128.h:226-240). -/
def shortEnd (h : UInt64 × UInt64 × UInt64 × UInt64) : UInt64 × UInt64 × UInt64 × UInt64 :=
  let h0 := h.1
  let h1 := h.2.1
  let h2 := h.2.2.1
  let h3 := h.2.2.2
  let h3 := h3 ^^^ h2; let h2 := rot64 h2 15; let h3 := h3 + h2
  let h0 := h0 ^^^ h3; let h3 := rot64 h3 52; let h0 := h0 + h3
  let h1 := h1 ^^^ h0; let h0 := rot64 h0 26; let h1 := h1 + h0
  let h2 := h2 ^^^ h1; let h1 := rot64 h1 51; let h2 := h2 + h1
  let h3 := h3 ^^^ h2; let h2 := rot64 h2 28; let h3 := h3 + h2
  let h0 := h0 ^^^ h3; let h3 := rot64 h3 9; let h0 := h0 + h3
  let h1 := h1 ^^^ h0; let h0 := rot64 h0 47; let h1 := h1 + h0
  let h2 := h2 ^^^ h1; let h1 := rot64 h1 54; let h2 := h2 + h1
  let h3 := h3 ^^^ h2; let h2 := rot64 h2 32; let h3 := h3 + h2
  let h0 := h0 ^^^ h3; let h3 := rot64 h3 25; let h0 := h0 + h3
  let h1 := h1 ^^^ h0; let h0 := rot64 h0 63; let h1 := h1 + h0
  (h0, h1, h2, h3)

/-- Little-endian value of bytes (the model's reading of words through `p64`, `p32`). -/
def le : List Byte → Nat
  | [] => 0
  | b :: bs => b.toNat + 256 * le bs

/-- Reading `n` bytes at position `k`. -/
def readLE (m : List Byte) (k n : Nat) : Option UInt64 :=
  if k + n ≤ m.length then some (UInt64.ofNat (le ((m.drop k).take n))) else none

/-- Reading twelve words at the start of `m`. -/
def readBlock (m : List Byte) : Option W12 := do
  let w0 ← readLE m 0 8
  let w1 ← readLE m 8 8
  let w2 ← readLE m 16 8
  let w3 ← readLE m 24 8
  let w4 ← readLE m 32 8
  let w5 ← readLE m 40 8
  let w6 ← readLE m 48 8
  let w7 ← readLE m 56 8
  let w8 ← readLE m 64 8
  let w9 ← readLE m 72 8
  let w10 ← readLE m 80 8
  let w11 ← readLE m 88 8
  return ⟨w0, w1, w2, w3, w4, w5, w6, w7, w8, w9, w10, w11⟩

/-- The loop over complete sets of 32 bytes (rt/container/Hash128.cpp:55-62), `n` rounds. -/
def shortLoop : Nat → (UInt64 × UInt64 × UInt64 × UInt64) → List Byte →
    Option ((UInt64 × UInt64 × UInt64 × UInt64) × List Byte)
  | 0, h, m => some (h, m)
  | n + 1, (a, b, c, d), m => do
    let w0 ← readLE m 0 8
    let w1 ← readLE m 8 8
    let (a, b, c, d) := shortMix (a, b, c + w0, d + w1)
    let w2 ← readLE m 16 8
    let w3 ← readLE m 24 8
    shortLoop n (a + w2, b + w3, c, d) (m.drop 32)

/-- The last 0..15 bytes (rt/container/Hash128.cpp:76-115): what is added to `c` and `d`. -/
def shortTail (remainder : Nat) (m : List Byte) : Option (UInt64 × UInt64) := do
  match remainder with
  | 15 => return (← readLE m 0 8, ((← readLE m 14 1) <<< 48) + ((← readLE m 13 1) <<< 40) +
      ((← readLE m 12 1) <<< 32) + (← readLE m 8 4))
  | 14 => return (← readLE m 0 8, ((← readLE m 13 1) <<< 40) + ((← readLE m 12 1) <<< 32) +
      (← readLE m 8 4))
  | 13 => return (← readLE m 0 8, ((← readLE m 12 1) <<< 32) + (← readLE m 8 4))
  | 12 => return (← readLE m 0 8, ← readLE m 8 4)
  | 11 => return (← readLE m 0 8, ((← readLE m 10 1) <<< 16) + ((← readLE m 9 1) <<< 8) +
      (← readLE m 8 1))
  | 10 => return (← readLE m 0 8, ((← readLE m 9 1) <<< 8) + (← readLE m 8 1))
  | 9 => return (← readLE m 0 8, ← readLE m 8 1)
  | 8 => return (← readLE m 0 8, 0)
  | 7 => return (((← readLE m 6 1) <<< 48) + ((← readLE m 5 1) <<< 40) + ((← readLE m 4 1) <<< 32) +
      (← readLE m 0 4), 0)
  | 6 => return (((← readLE m 5 1) <<< 40) + ((← readLE m 4 1) <<< 32) + (← readLE m 0 4), 0)
  | 5 => return (((← readLE m 4 1) <<< 32) + (← readLE m 0 4), 0)
  | 4 => return (← readLE m 0 4, 0)
  | 3 => return (((← readLE m 2 1) <<< 16) + ((← readLE m 1 1) <<< 8) + (← readLE m 0 1), 0)
  | 2 => return (((← readLE m 1 1) <<< 8) + (← readLE m 0 1), 0)
  | 1 => return (← readLE m 0 1, 0)
  | _ => return (scConst, scConst)

/-- Four words of the short hash. -/
abbrev W4 := UInt64 × UInt64 × UInt64 × UInt64

/-- The part of `SpookyHash::Short` before the last bytes (rt/container/Hash128.cpp:46-72): the four
variables, the bytes left and `remainder`. -/
def shortBody (m : List Byte) (h : W4) : Option (W4 × List Byte × Nat) :=
  if m.length > 15 then
    match shortLoop (m.length / 32) h m with
    | none => none
    | some ((a, b, c, d), rest) =>
      if m.length % 32 ≥ 16 then
        match readLE rest 0 8, readLE rest 8 8 with
        | some w0, some w1 => some (shortMix (a, b, c + w0, d + w1), rest.drop 16, m.length % 32 - 16)
        | _, _ => none
      else some ((a, b, c, d), rest, m.length % 32)
  else some (h, m, m.length % 32)

/-- `SpookyHash::Short` (rt/container/Hash128.cpp:30-119). -/
def short (m : List Byte) (seed1 seed2 : UInt64) : Option (UInt64 × UInt64) :=
  match shortBody m (seed1, seed2, scConst, scConst) with
  | none => none
  | some ((a, b, c, d), rest, remainder) =>
    match shortTail remainder rest with
    | none => none
    | some (tc, td) =>
      let r := shortEnd (a, b, c + tc, d + (UInt64.ofNat m.length <<< 56) + td)
      some (r.1, r.2.1)

/-- The twelve variables at the start (rt/container/Hash128.cpp:138-140, 201-203). -/
def initVars (seed1 seed2 : UInt64) : W12 :=
  ⟨seed1, seed2, scConst, seed1, seed2, scConst, seed1, seed2, scConst, seed1, seed2, scConst⟩

/-- `n` whole blocks (rt/container/Hash128.cpp:145-150, 233-240); gives the variables and the bytes
after them. -/
def mixN : Nat → W12 → List Byte → Option (W12 × List Byte)
  | 0, h, m => some (h, m)
  | n + 1, h, m =>
    match readBlock m with
    | none => none
    | some w => mixN n (mix w h) (m.drop 96)

/-- The last block: the remaining bytes, zeroes, and their number in the last byte
(rt/container/Hash128.cpp:159-163, 301-304). -/
def lastBlock (rest : List Byte) : List Byte :=
  rest ++ List.replicate (95 - rest.length) 0 ++ [UInt8.ofNat rest.length]

/-- `SpookyHash::Hash128` (rt/container/Hash128.cpp:121-169). -/
def hash128 (m : List Byte) (seed1 seed2 : UInt64) : Option (UInt64 × UInt64) :=
  if m.length < 192 then short m seed1 seed2
  else
    match mixN (m.length / 96) (initVars seed1 seed2) m with
    | none => none
    | some (h, rest) =>
      match readBlock (lastBlock rest) with
      | none => none
      | some w => some ((fin w h).w0, (fin w h).w1)

/-- A hasher: `m_data` as 192 bytes, `m_state`, `m_length`, `m_remainder`
(rt/container/Hash128.h:272-275). -/
structure State where
  data : List Byte
  state : W12
  length : Nat
  remainder : Nat
deriving DecidableEq, Repr

/-- `SpookyHash::Init` (rt/container/Hash128.cpp:172-177).  The members not set keep what was in
memory before. -/
def init (junk : State) (seed1 seed2 : UInt64) : State :=
  { junk with
    state := { junk.state with w0 := seed1, w1 := seed2 }
    length := 0
    remainder := 0 }

/-- `memcpy` into `m_data`. -/
def copyInto (data : List Byte) (pos : Nat) (m : List Byte) : Option (List Byte) :=
  if pos + m.length ≤ data.length then some (data.take pos ++ m ++ data.drop (pos + m.length))
  else none

/-- The variables at the start of a long `Update` (rt/container/Hash128.cpp:199-217). -/
def startVars (s : State) : W12 :=
  if s.length < 192 then initVars s.state.w0 s.state.w1 else s.state

/-- Using up what is stuffed away (rt/container/Hash128.cpp:220-231): the variables, `m_data` and the
rest of the message. -/
def useStash (s : State) (h : W12) (m : List Byte) : Option (W12 × List Byte × List Byte) :=
  if s.remainder ≠ 0 then
    let pre := (192 - s.remainder) % 256
    if pre ≤ m.length then
      match copyInto s.data s.remainder (m.take pre) with
      | none => none
      | some data =>
        match readBlock data, readBlock (data.drop 96) with
        | some w, some w' => some (mix w' (mix w h), data, m.drop pre)
        | _, _ => none
    else none
  else some (h, s.data, m)

/-- `SpookyHash::Update` (rt/container/Hash128.cpp:180-266). -/
def update (s : State) (m : List Byte) : Option State :=
  if m.length + s.remainder < 192 then
    match copyInto s.data s.remainder m with
    | none => none
    | some data => some { s with data := data, length := m.length + s.length,
                                 remainder := (m.length + s.remainder) % 256 }
  else
    match useStash s (startVars s) m with
    | none => none
    | some (h, data, m') =>
      match mixN (m'.length / 96) h m' with
      | none => none
      | some (h, rest) =>
        match copyInto data 0 (rest.take (rest.length % 256)) with
        | none => none
        | some data => some { data := data, state := h, length := m.length + s.length,
                              remainder := rest.length % 256 }

/-- Any whole first block of `m_data` (rt/container/Hash128.cpp:294-299): the variables, the offset of
`data` in `m_data` and `remainder`. -/
def firstBlock (s : State) : Option (W12 × Nat × Nat) :=
  if s.remainder ≥ 96 then
    match readBlock s.data with
    | none => none
    | some w => some (mix w s.state, 96, s.remainder - 96)
  else some (s.state, 0, s.remainder)

/-- `SpookyHash::Final` (rt/container/Hash128.cpp:268-311).  It is `const` but writes to `m_data`
through a cast (lines 302-304); the second result is the hasher after it. -/
def final (s : State) : Option ((UInt64 × UInt64) × State) :=
  if s.length < 192 then
    if s.length ≤ s.data.length then
      match short (s.data.take s.length) s.state.w0 s.state.w1 with
      | none => none
      | some r => some (r, s)
    else none
  else
    match firstBlock s with
    | none => none
    | some (h, ofs, remainder) =>
      match copyInto s.data ofs (lastBlock ((s.data.drop ofs).take remainder)) with
      | none => none
      | some data =>
        match readBlock (data.drop ofs) with
        | none => none
        | some w => some (((fin w h).w0, (fin w h).w1), { s with data := data })

/-- `Hash128::Hash128` (rt/container/Hash128.cpp:315-317). -/
def hasherInit (junk : State) : State := init junk 0 0

/-- `Hash128::compute` (rt/container/Hash128.cpp:329-333). -/
def compute (junk : State) (m : List Byte) : Option (UInt64 × UInt64) := do
  let s ← update (hasherInit junk) m
  let r ← final s
  return r.1

end Verif.Spooky
