import Verif.Audio.Model

/-!
# What is asked of mixing
-/

namespace Verif.Audio

/-- A sum limited to the range of samples. -/
def clamp (x : Int) : Int := max (-32768) (min 32767 x)

/-- `n` cells at `d` are mixed with what `f` makes of their number and of the cells at `s`; nothing else is changed. -/
structure Mixed (m m' : Mem) (d s n : Nat) (f : Nat → Int → Int) : Prop where
  length : m'.length = m.length
  inside : ∀ i < n, ∃ a b c : S16, m[d + i]? = some a ∧ m[s + i]? = some b ∧ m'[d + i]? = some c ∧
    c.toInt = clamp (a.toInt + f i b.toInt)
  outside : ∀ j, ¬ (d ≤ j ∧ j < d + n) → m'[j]? = m[j]?

/-- Two stretches of memory that can be mixed one into the other: they lie in memory, and the source is not overwritten
before it is read. -/
structure Apart (m : Mem) (d s n : Nat) : Prop where
  dst : d + n ≤ m.length
  src : s + n ≤ m.length
  order : d ≤ s ∨ s + n ≤ d

/-- The part of a number in units of 1/65536, rounded down. -/
def part (level : Int) (x : Int) : Int := x * level / 65536

/-- A buffer whose size in bytes fits in 32 bits and whose format is as `encode` makes it, with 16-bit samples. -/
structure Sound (b : Buffer) : Prop where
  type : b.format.sampleType = 0
  stride : b.format.stride.toNat = 2 * b.format.numChannels.toNat
  size : b.numSamples.toNat * b.format.stride.toNat < 2 ^ 32

/-- The number of 16-bit samples in a buffer: the channels of each multichannel sample. -/
def Buffer.count (b : Buffer) : Nat := b.numSamples.toNat * b.format.numChannels.toNat

/-- The value between two samples, `f` of 65536 parts of the way, rounded down. -/
def lerp (a b f : Int) : Int := (a * (65536 - f) + b * f) / 65536

/-- The value of a channel at a position in units of 1/65536 of a sample. -/
def valueAt (xs : List Int) (pos : Nat) : Int := lerp (xs.getD (pos / 65536) 0) (xs.getD (pos / 65536 + 1) 0) (pos % 65536 : Nat)

end Verif.Audio
