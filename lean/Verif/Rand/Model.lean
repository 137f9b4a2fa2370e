import Verif.Bits.Model

/-!
# Random numbers

Paths are relative to repos/plywood/src; rt/ = runtime/ply-runtime/.
-/

namespace Verif.Rand

open Verif.Bits (avalanche64)

/-- `class Random`, rt/algorithm/Random.h:14-17: the two words `s[0]` and `s[1]`. -/
@[ext] structure Rng where
  s0 : BitVec 64
  s1 : BitVec 64
deriving DecidableEq, Repr

/-- `rotl`, rt/algorithm/Random.cpp:37-39; `k` is a constant between 1 and 63. -/
def rotl (x : BitVec 64) (k : Nat) : BitVec 64 := (x <<< k) ||| (x >>> (64 - k))

/-- The state that `Random::next64` leaves behind, rt/algorithm/Random.cpp:42-43,46-48. -/
def step (s : Rng) : Rng :=
  let s0 := s.s0
  let s1 := s.s1
  let s1 := s1 ^^^ s0
  ⟨rotl s0 24 ^^^ s1 ^^^ (s1 <<< 16), rotl s1 37⟩

/-- What `Random::next64` returns, rt/algorithm/Random.cpp:42,44,50. -/
def out64 (s : Rng) : BitVec 64 := rotl (s.s0 * 5) 7 * 9

/-- `Random::next64`, rt/algorithm/Random.cpp:41-51. -/
def next64 (s : Rng) : BitVec 64 × Rng := (out64 s, step s)

/-- `Random::next32`, rt/algorithm/Random.h:22-24. -/
def next32 (s : Rng) : BitVec 32 × Rng :=
  let r := next64 s
  (r.1.truncate 32, r.2)

/-- `Random::next16`, rt/algorithm/Random.h:25-27. -/
def next16 (s : Rng) : BitVec 16 × Rng :=
  let r := next64 s
  (r.1.truncate 16, r.2)

/-- `Random::next8`, rt/algorithm/Random.h:28-30. -/
def next8 (s : Rng) : BitVec 8 × Rng :=
  let r := next64 s
  (r.1.truncate 8, r.2)

/-- The conversion of a `u32` to `float` in rt/algorithm/Random.h:32: to the nearest number of 24 bits, of two to the
even one. -/
def toFloat (n : Nat) : Nat :=
  if n < 2 ^ 24 then n
  else
    let e := Nat.log2 n - 23
    let q := n / 2 ^ e
    let r := n % 2 ^ e
    (if 2 ^ (e - 1) < r ∨ (r = 2 ^ (e - 1) ∧ q % 2 = 1) then q + 1 else q) * 2 ^ e

/-- `Random::nextFloat`, rt/algorithm/Random.h:31-33, as a multiple of `2^-32`: the `float` nearest to 4294967295 is
`2^32`, and dividing by it is exact. -/
def nextFloat (s : Rng) : Nat × Rng :=
  let r := next32 s
  (toFloat r.1.toNat, r.2)

/-- `Random::Random(u64)`, rt/algorithm/Random.cpp:30-35. -/
def ofSeed (seed : BitVec 64) : Rng :=
  let s0 := avalanche64 (seed + 1)
  let s1 := avalanche64 (s0 + 1)
  step (step ⟨s0, s1⟩)

/-- The loop of the other constructor, rt/algorithm/Random.cpp:26-27. -/
def skip : Nat → Rng → Rng
  | 0, s => s
  | n + 1, s => skip n (step s)

/-- `Random::Random()`, rt/algorithm/Random.cpp:14-28.  The time and the timer are whatever they are.  Simplified: what
the number of the thread adds (`avalanche(TID::getCurrentThreadID()) << 1`, of 32 or 64 bits by platform) is any word. -/
def ofEnvironment (time timer thread : BitVec 64) : Rng :=
  let t := avalanche64 time
  let s0 := avalanche64 (t ||| 1)
  let t := avalanche64 timer + thread
  let s1 := avalanche64 (t ||| 1)
  skip 10 ⟨s0, s1⟩

end Verif.Rand
