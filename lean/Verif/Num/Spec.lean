import Verif.Basic
/-!
# Positional numerals — specification, independent of the model
-/
namespace Verif.Num
open Verif

/-- The value of an ASCII digit or letter as a digit: `0-9`, then `a-z`/`A-Z` for 10-35. -/
def specDigit (c : Byte) : Option Nat :=
  let n := c.toNat
  if 48 ≤ n ∧ n ≤ 57 then some (n - 48)
  else if 65 ≤ n ∧ n ≤ 90 then some (n - 65 + 10)
  else if 97 ≤ n ∧ n ≤ 122 then some (n - 97 + 10)
  else none

/-- Is `c` a digit in the given radix? -/
def isDigit (base : Nat) (c : Byte) : Bool :=
  match specDigit c with
  | some d => d < base
  | none => false

/-- The number denoted by a digit string read from the left, starting from `acc`. -/
def numeral (base : Nat) (acc : Nat) : List Byte → Nat
  | [] => acc
  | c :: rest =>
    match specDigit c with
    | some d => numeral base (acc * base + d) rest
    | none => numeral base acc rest

/-- The longest prefix of the input consisting of digits. -/
def digitsOf (base : Nat) (input : List Byte) : List Byte := input.takeWhile (isDigit base)

/-- What follows the longest prefix of digits. -/
def afterDigits (base : Nat) (input : List Byte) : List Byte := input.dropWhile (isDigit base)

end Verif.Num
