import Verif.Basic
/-!
# UTF-8 structure — specification independent of the model
-/
namespace Verif.Enc
open Verif

/-- Unicode scalar values: code points that are not surrogates. -/
def IsScalar (p : Nat) : Prop := p < 0x110000 ∧ ¬ (0xd800 ≤ p ∧ p < 0xe000)

instance (p : Nat) : Decidable (IsScalar p) := inferInstanceAs (Decidable (_ ∧ _))

/-- Continuation bytes `10xxxxxx`. -/
def Cont (b : Byte) : Prop := 0x80 ≤ b.toNat ∧ b.toNat < 0xc0

instance (b : Byte) : Decidable (Cont b) := inferInstanceAs (Decidable (_ ∧ _))

/-- A byte sequence with the structure of one UTF-8 sequence (lead byte announcing the right number
of continuation bytes), and the number its payload bits spell.  Overlong forms and surrogates are
included: this is the structural definition only. -/
inductive Sequence : List Byte → Nat → Prop where
  | one (a : Byte) : a.toNat < 0x80 → Sequence [a] a.toNat
  | two (a b : Byte) : 0xc0 ≤ a.toNat → a.toNat < 0xe0 → Cont b →
      Sequence [a, b] ((a.toNat - 0xc0) * 64 + (b.toNat - 0x80))
  | three (a b c : Byte) : 0xe0 ≤ a.toNat → a.toNat < 0xf0 → Cont b → Cont c →
      Sequence [a, b, c] (((a.toNat - 0xe0) * 64 + (b.toNat - 0x80)) * 64 + (c.toNat - 0x80))
  | four (a b c d : Byte) : 0xf0 ≤ a.toNat → a.toNat < 0xf8 → Cont b → Cont c → Cont d →
      Sequence [a, b, c, d] ((((a.toNat - 0xf0) * 64 + (b.toNat - 0x80)) * 64 +
        (c.toNat - 0x80)) * 64 + (d.toNat - 0x80))

/-- How many bytes a lead byte announces (`none` for bytes that cannot start a sequence). -/
def announced (a : Byte) : Option Nat :=
  let n := a.toNat
  if n < 0x80 then some 1 else if n < 0xc0 then none else if n < 0xe0 then some 2
  else if n < 0xf0 then some 3 else if n < 0xf8 then some 4 else none

end Verif.Enc
