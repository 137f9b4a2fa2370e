import Verif.Num.Spec
/-!
# Numbers with fraction and exponent — specification
-/
namespace Verif.Num
open Verif

/-- A number as written: sign, digits before the point, digits behind it (if there is a point), and the
exponent: its letter, its sign and its digits. -/
structure Written where
  minus : Bool
  whole : List Byte
  frac : Option (List Byte)
  exp : Option (Byte × Option Bool × List Byte)

/-- The sign of an exponent as written: none, `+` or `-`. -/
def Written.signText : Option Bool → List Byte
  | none => []
  | some false => [43]
  | some true => [45]

/-- The point and the digits behind it. -/
def Written.fracText : Option (List Byte) → List Byte
  | none => []
  | some ds => 46 :: ds

/-- The exponent. -/
def Written.expText : Option (Byte × Option Bool × List Byte) → List Byte
  | none => []
  | some (e, s, ds) => e :: (signText s ++ ds)

/-- The text. -/
def Written.text (n : Written) : List Byte :=
  (if n.minus then [45] else []) ++ n.whole ++ fracText n.frac ++ expText n.exp

/-- What a digit string behind the point adds. -/
def Written.fracValue (base : Nat) : Option (List Byte) → Rat
  | none => 0
  | some ds => (numeral base 0 ds : Rat) / (base : Rat) ^ ds.length

/-- What the exponent multiplies by. -/
def Written.expValue (base : Nat) : Option (Byte × Option Bool × List Byte) → Rat
  | none => 1
  | some (_, some true, ds) => 1 / (base : Rat) ^ numeral base 0 ds
  | some (_, _, ds) => (base : Rat) ^ numeral base 0 ds

/-- The number. -/
def Written.value (base : Nat) (n : Written) : Rat :=
  (if n.minus then -1 else 1) * ((numeral base 0 n.whole + fracValue base n.frac) * expValue base n.exp)

/-- Only digits of the radix, and not none. -/
def Digits (base : Nat) (ds : List Byte) : Prop := ∀ c ∈ ds, isDigit base c = true

/-- Well written: there is a digit before the point, and one in the exponent if there is an exponent;
the letter of an exponent is `e` or `E` and no digit of the radix. -/
structure Written.Valid (base : Nat) (n : Written) : Prop where
  whole : Digits base n.whole
  some_digit : n.whole ≠ []
  frac : ∀ ds, n.frac = some ds → Digits base ds
  exp : ∀ e s ds, n.exp = some (e, s, ds) →
    (e = 101 ∨ e = 69) ∧ isDigit base e = false ∧ Digits base ds ∧ ds ≠ []

/-- What follows does not continue the number. -/
def Written.Ends (base : Nat) (n : Written) (rest : List Byte) : Prop :=
  ∀ c t, rest = c :: t →
    isDigit base c = false ∧ (n.exp = none → c ≠ 101 ∧ c ≠ 69 ∧ (n.frac = none → c ≠ 46))

/-- Arithmetic without rounding. -/
structure Exact (rnd : Rat → Rat) (pow : Rat → Rat → Rat) : Prop where
  rnd : ∀ x, rnd x = x
  pow : ∀ b k : Nat, pow b k = (b : Rat) ^ k ∧ pow b (-(k : Rat)) = 1 / (b : Rat) ^ k

/-- Arithmetic with a 53 bit mantissa keeps the integers up to 2^53. -/
def KeepsIntegers (rnd : Rat → Rat) : Prop := ∀ n : Nat, n ≤ 2 ^ 53 → rnd n = n

end Verif.Num
