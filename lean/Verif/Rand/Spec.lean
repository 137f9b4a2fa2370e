import Verif.Rand.Model
import Mathlib.Data.Finset.Card
import Mathlib.Data.Finset.Range

/-!
# What is asked of the random numbers

Only calls and what they return.
-/

namespace Verif.Rand

/-- The generator after `n` calls. -/
def after : Nat → Rng → Rng
  | 0, s => s
  | n + 1, s => after n (next64 s).2

/-- What the call after `n` others returns. -/
def drawn (n : Nat) (s : Rng) : BitVec 64 := (next64 (after n s)).1

/-- The generators that a constructor can make. -/
def Made (s : Rng) : Prop := (∃ seed, s = ofSeed seed) ∨ ∃ time timer thread, s = ofEnvironment time timer thread

open Classical in
/-- How many of the first `n` numbers have a property. -/
@[irreducible] noncomputable def howMany (n : Nat) (P : Nat → Prop) : Nat := ((Finset.range n).filter P).card

/-- The length of the sequence before it repeats. -/
def period : Nat := 2 ^ 128 - 1

/-- The whole numbers that a `float` can hold exactly (of any size): 24 bits and a power of two. -/
def IsFloat (m : Nat) : Prop := ∃ q e, q < 2 ^ 24 ∧ m = q * 2 ^ e

/-- How far apart two numbers are. -/
def apart (a b : Nat) : Nat := (a - b) + (b - a)

end Verif.Rand
