import Verif.Num.Model
/-!
# Parsing numbers with fraction and exponent — model

rt/io/impl/TypeParser.cpp.  As in `Verif.Num.Model` the input stream is the list of bytes left.
-/
namespace Verif.Num
open Verif

/-- The arithmetic of `double`, which is not modelled itself: a number is a rational, `rnd` says what
becomes of the result of an operation and of a `u64` when stored in a `double`, `pow` is the function of
the C library.  (Not covered: infinities, and the sign of zero.) -/
structure Arith where
  rnd : Rat → Rat
  pow : Rat → Rat → Rat

/-- `readDoubleComponent`, rt/io/impl/TypeParser.cpp:145-161, with the loop variable `value`: the value,
whether there was a digit, and what is left of the input. -/
def readComp (a : Arith) (base : Nat) : (value : Rat) → (anyDigits : Bool) → List Byte →
    Rat × Bool × List Byte
  | value, any, [] => (value, any, [])
  | value, any, c :: rest =>
    let digit := digitOf c
    if digit ≥ base then (value, any, c :: rest)
    else readComp a base (a.rnd (a.rnd (value * base) + digit)) true rest

/-- The loop over the digits behind the point, rt/io/impl/TypeParser.cpp:179-203, with the loop variables
`value`, `significance`, `numer`, `denom`. -/
def fracLoop (a : Arith) (base : Nat) : (value sig : Rat) → (numer denom : Nat) → List Byte →
    Rat × List Byte
  | value, sig, numer, denom, [] =>
    (a.rnd (value + a.rnd (a.rnd (sig * a.rnd numer) / a.rnd denom)), [])
  | value, sig, numer, denom, c :: rest =>
    let digit := digitOf c
    if digit ≥ base then
      (a.rnd (value + a.rnd (a.rnd (sig * a.rnd numer) / a.rnd denom)), c :: rest)
    else
      let denomWithNextDigit := u64 (denom * base)
      if denomWithNextDigit < denom then
        let ooDenom := a.rnd (1 / a.rnd denom)
        fracLoop a base (a.rnd (value + a.rnd (a.rnd (sig * a.rnd numer) * ooDenom)))
          (a.rnd (sig * ooDenom)) digit base rest
      else fracLoop a base value sig (u64 (numer * base + digit)) denomWithNextDigit rest

/-- The optional minus sign, rt/io/impl/TypeParser.cpp:168-172. -/
def takeMinus : List Byte → Bool × List Byte
  | [] => (false, [])
  | c :: rest => if c = 45 then (true, rest) else (false, c :: rest)

/-- The optional fractional part, rt/io/impl/TypeParser.cpp:178-205. -/
def takeFrac (a : Arith) (base : Nat) (value : Rat) : List Byte → Rat × List Byte
  | [] => (value, [])
  | c :: rest => if c = 46 then fracLoop a base value 1 0 1 rest else (value, c :: rest)

/-- The sign of the exponent, rt/io/impl/TypeParser.cpp:210-218. -/
def takeSign : List Byte → Bool × List Byte
  | [] => (false, [])
  | c :: rest =>
    if c = 43 then (false, rest) else if c = 45 then (true, rest) else (false, c :: rest)

/-- The optional exponent, rt/io/impl/TypeParser.cpp:208-222: the value, `comp.anyDigits` and what is
left of the input. -/
def takeExp (a : Arith) (base : Nat) (value : Rat) (any : Bool) : List Byte → Rat × Bool × List Byte
  | [] => (value, any, [])
  | c :: rest =>
    if any = true ∧ c.toNat ||| 32 = 101 then
      let s := takeSign rest
      let r := readComp a base 0 false s.2
      (a.rnd (value * a.pow base (if s.1 then -r.1 else r.1)), r.2.1, r.2.2)
    else (value, any, c :: rest)

/-- `TypeParser<double>::parse`, rt/io/impl/TypeParser.cpp:163-229.  `none` = assertion on the radix. -/
def parseReal (a : Arith) (base : Nat) (input : List Byte) : Option (Parsed Rat) :=
  if base > 0 ∧ base ≤ 36 then
    let m := takeMinus input
    let w := readComp a base 0 false m.2
    let f := takeFrac a base w.1 w.2.2
    let e := takeExp a base f.1 w.2.1 f.2
    some ⟨if m.1 then -e.1 else e.1, !e.2.1, e.2.2⟩
  else none

end Verif.Num
