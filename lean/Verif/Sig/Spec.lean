import Verif.Sig.Model
/-!
# Signatures — specification
-/
namespace Verif.Sig.Spec
open Verif

/-- The number meant. -/
def value (a : U128) : Nat := a.hi.toNat * 2 ^ 64 + a.lo.toNat

/-- Lower-case hexadecimal digits. -/
def Hex (c : Byte) : Prop := (48 ≤ c ∧ c ≤ 57) ∨ (97 ≤ c ∧ c ≤ 102)

/-- The number a text of hexadecimal digits means. -/
def number (s : List Byte) : Nat := Num.numeral 16 0 s

end Verif.Sig.Spec
