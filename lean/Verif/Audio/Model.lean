/-!
# Audio: mixing samples

Paths are relative to repos/plywood/src; ap/ = audio/primitives/audio-primitives/.
-/

namespace Verif.Audio

/-- A sample, `s16` (ap/Saturate.h:13). -/
abbrev S16 := BitVec 16

/-- Memory as the functions of ap/Render.cpp:12-62 see it, in cells of two bytes; outside of it access is undefined. -/
abbrev Mem := List S16

/-! ## Formats and buffers -/

/-- `Format`, ap/Format.h:14-28; sample types are `S16` = 0 and `Float` = 1. -/
structure Format where
  numChannels : BitVec 8
  sampleType : BitVec 8
  stride : BitVec 16
deriving DecidableEq, Repr

/-- `Format::Null`, `MonoS16` and `StereoS16`, ap/Format.cpp:11-13. -/
def Format.null : Format := ⟨0, 0, 0⟩
@[inherit_doc Format.null] def Format.monoS16 : Format := ⟨1, 0, 2⟩
@[inherit_doc Format.null] def Format.stereoS16 : Format := ⟨2, 0, 4⟩

/-- `SampleTypeToStride`, ap/Format.cpp:15-16. -/
def sampleTypeToStride : List (BitVec 16) := [2, 4]

/-- The bytes of a format, read as one number by `operator==`, ap/Format.h:30-32 (little endian). -/
def Format.bits (f : Format) : BitVec 32 := f.stride ++ (f.sampleType ++ f.numChannels)

/-- `Format::operator==`, ap/Format.h:30-32. -/
def Format.eq (f g : Format) : Bool := f.bits = g.bits

/-- `Format::encode`, ap/Format.h:34-38 (and `onPostSerialize`, ap/Format.h:44-47): `none` if the assertion fails. -/
def Format.encode (numChannels sampleType : BitVec 8) : Option Format :=
  match sampleTypeToStride[sampleType.toNat]? with
  | none => none
  | some s => some ⟨numChannels, sampleType, s * numChannels.zeroExtend 16⟩

/-- `Buffer`, ap/Buffer.h:22-34.  `samples` is the number of a cell of memory; the sample rate is any number (not NaN). -/
structure Buffer where
  samples : Nat
  numSamples : BitVec 32
  sampleRate : Nat
  format : Format
deriving DecidableEq, Repr

/-- `getSizeBytes`, ap/Buffer.h:37-39. -/
def Buffer.getSizeBytes (b : Buffer) : BitVec 32 := b.numSamples * b.format.stride.zeroExtend 32

/-- `getSubregion`, ap/Buffer.h:53-61.  Simplified: the offset in bytes is even. -/
def Buffer.getSubregion (b : Buffer) (offset length : BitVec 32) : Option Buffer :=
  if offset.toNat ≤ b.numSamples.toNat then
    let start := b.samples + (offset * b.format.stride.zeroExtend 32).toNat / 2
    if length.toInt < 0 then some { b with samples := start, numSamples := b.numSamples - offset }
    else if (offset + length).toNat ≤ b.numSamples.toNat then some { b with samples := start, numSamples := length }
    else none
  else none

/-- `zero`, ap/Buffer.h:64-66, in cells.  Simplified: the size is even. -/
def Buffer.zero (b : Buffer) (m : Mem) : Option Mem :=
  let n := b.getSizeBytes.toNat / 2
  if b.samples + n ≤ m.length then some (m.take b.samples ++ List.replicate n 0 ++ m.drop (b.samples + n)) else none

/-! ## Adding samples -/

/-- `saturatingAdd`, ap/Saturate.h:21-24. -/
def saturatingAdd (a b : S16) : S16 :=
  let sum := a.toInt + b.toInt
  BitVec.ofInt 16 (if sum ≥ 32768 then 32767 else if sum < -32768 then -32768 else sum)

/-- `_mm_adds_epi16` on one lane (documentation of the instruction), ap/Saturate.h:16. -/
def adds16 (a b : BitVec 16) : BitVec 16 :=
  if (a.toInt + b.toInt) > 32767 then 0x7FFF else if (a.toInt + b.toInt) < -32768 then 0x8000 else a + b

/-- `saturatingAdd` on Windows, ap/Saturate.h:13-18: the two lowest lanes hold the argument extended to 32 bits, the others
are zero. -/
def saturatingAddWin (a b : S16) : S16 :=
  let a32 : BitVec 32 := a.signExtend 32
  let b32 : BitVec 32 := b.signExtend 32
  let r : BitVec 32 := adds16 (a32.extractLsb' 16 16) (b32.extractLsb' 16 16) ++
    adds16 (a32.extractLsb' 0 16) (b32.extractLsb' 0 16)
  r.extractLsb' 0 16

/-- An `s32` (ap/Render.cpp:38): `none` if the result is out of range, which is undefined. -/
def s32 (x : Int) : Option Int := if -2147483648 ≤ x ∧ x ≤ 2147483647 then some x else none

/-- `(x * level) >> 16` of signed numbers, passed as `s16`, ap/Render.cpp:38,81; `>>` of negative numbers rounds down. -/
def scale (x level : Int) : Option S16 :=
  match s32 (x * level) with
  | none => none
  | some y => some (BitVec.ofInt 16 (y / 65536))

/-! ## Mixing -/

/-- The number of cells from `samples` to `getEndPtr`, ap/Buffer.h:47-49, ap/Render.cpp:19,21. -/
def Buffer.cells (b : Buffer) : Nat := (b.getSizeBytes.toNat + 1) / 2

/-- The assertions, ap/Render.cpp:13-16,29-32. -/
def matching (dst src : Buffer) : Bool :=
  dst.numSamples = src.numSamples && dst.sampleRate = src.sampleRate && dst.format.eq src.format &&
  dst.format.sampleType = 0

/-- The loop of `mix`, ap/Render.cpp:21-25. -/
def mixLoop : Nat → Mem → Nat → Nat → Option Mem
  | 0, m, _, _ => some m
  | n + 1, m, dst, src =>
    match m[dst]?, m[src]? with
    | some a, some b => mixLoop n (m.set dst (saturatingAdd a b)) (dst + 1) (src + 1)
    | _, _ => none

/-- `mix`, ap/Render.cpp:12-26. -/
def mix (m : Mem) (dst src : Buffer) : Option Mem :=
  if matching dst src then mixLoop dst.cells m dst.samples src.samples else none

/-- The loop of `mixLeveled`, ap/Render.cpp:37-41. -/
def mixLeveledLoop (level16 : Int) : Nat → Mem → Nat → Nat → Option Mem
  | 0, m, _, _ => some m
  | n + 1, m, dst, src =>
    match m[dst]?, m[src]? with
    | some a, some b =>
      match scale b.toInt level16 with
      | none => none
      | some x => mixLeveledLoop level16 n (m.set dst (saturatingAdd a x)) (dst + 1) (src + 1)
    | _, _ => none

/-- `mixLeveled`, ap/Render.cpp:28-42. -/
def mixLeveled (m : Mem) (dst src : Buffer) (level16 : BitVec 32) : Option Mem :=
  if matching dst src then mixLeveledLoop level16.toInt dst.cells m dst.samples src.samples else none

/-- `(*src * (level30 >> 14)) >> 16` of unsigned numbers, passed as `s16`, ap/Render.cpp:54,57. -/
def dynScale (x : S16) (level30 : BitVec 32) : S16 := ((x.signExtend 32 * (level30 >>> 14)) >>> 16).truncate 16

/-- The loop of `mixDynLevel`, ap/Render.cpp:53-61, for a number of stereo samples. -/
def mixDynLoop (step : BitVec 32) : Nat → BitVec 32 → Mem → Nat → Nat → Option Mem
  | 0, _, m, _, _ => some m
  | n + 1, level, m, dst, src =>
    match m[dst]?, m[src]? with
    | some a, some b =>
      let m := m.set dst (saturatingAdd a (dynScale b level))
      match m[dst + 1]?, m[src + 1]? with
      | some a, some b =>
        mixDynLoop step n (level + step) (m.set (dst + 1) (saturatingAdd a (dynScale b level))) (dst + 2) (src + 2)
      | _, _ => none
    | _, _ => none

/-- `mixDynLevel`, ap/Render.cpp:44-62. -/
def mixDynLevel (m : Mem) (dst src : Buffer) (level30 step : BitVec 32) : Option Mem :=
  if dst.numSamples = src.numSamples && dst.sampleRate = src.sampleRate && dst.format.eq src.format &&
    dst.format.eq .stereoS16
  then mixDynLoop step (dst.getSizeBytes.toNat / 4) level30 m dst.samples src.samples else none

/-! ## Changing the pitch -/

/-- `Sample`, ap/Render.cpp:65-68. -/
structure Frame where
  left : S16
  right : S16
deriving DecidableEq, Repr

/-- `(a * (65536 - sf16) + b * sf16) >> 16`, ap/Render.cpp:80,82. -/
def between (a b : S16) (sf : Int) : Option Int :=
  match s32 (65536 - sf) with
  | none => none
  | some g =>
    match s32 (a.toInt * g), s32 (b.toInt * sf) with
    | some x, some y => (s32 (x + y)).map (fun z => z / 65536)
    | _, _ => none

/-- One channel, ap/Render.cpp:80-81. -/
def pitchChannel (d a b : S16) (sf volume : Int) : Option S16 :=
  match between a b sf with
  | none => none
  | some x => (scale x volume).map (saturatingAdd d)

/-- What is at `src[i]`, ap/Render.cpp:79-80: outside of the array it is undefined. -/
def frameAt (src : List Frame) (i : Int) : Option Frame := if i < 0 then none else src[i.toNat]?

/-- The loop of `mixPitchedDirect`, ap/Render.cpp:78-88: the new samples, the number of the sample `src` points to and
`sf16` at its end.  Simplified: `dst` and `src` do not overlap, and pointers may point outside of an array. -/
def pitchLoop (src : List Frame) (step : BitVec 32) (volume : Int) : List Frame → Int → Int → Option (List Frame × Int × Int)
  | [], i, sf => some ([], i, sf)
  | d :: ds, i, sf =>
    if i + 1 < src.length then
      match frameAt src i, frameAt src (i + 1) with
      | some a, some b =>
        match pitchChannel d.left a.left b.left sf volume, pitchChannel d.right a.right b.right sf volume with
        | some l, some r =>
          let sf := (BitVec.ofInt 32 sf + step).toInt
          (pitchLoop src step volume ds (i + sf / 65536) (BitVec.ofInt 32 sf &&& 65535).toInt).map
            (fun (fs, i, sf) => (⟨l, r⟩ :: fs, i, sf))
        | _, _ => none
      | _, _ => none
    else none

/-- `mixPitchedDirect`, ap/Render.cpp:64-94, with the assertions at its end. -/
def mixPitchedDirect (dst src : List Frame) (sf16 srcStep volume16 : BitVec 32) : Option (List Frame) :=
  match pitchLoop src srcStep volume16.toInt dst 0 sf16.toInt with
  | none => none
  | some (fs, i, sf) =>
    if i + (BitVec.ofInt 32 sf - srcStep).toInt / 65536 < src.length - 1 ∧ i ≤ src.length + (srcStep >>> 16).toNat then some fs
    else none

end Verif.Audio
