import Verif.Enc.Spec
import Verif.Num.Spec
/-!
# What escaped text means — specifications independent of the model
-/
namespace Verif.Esc
open Verif Verif.Enc

/-- No overlong spelling of an ASCII character occurs anywhere in `s`: whenever a structurally
complete multi-byte UTF-8 sequence occurs in `s`, it spells a number ≥ 0x80. -/
def NoOverlongAscii (s : List Byte) : Prop :=
  ∀ t q p, t <:+ s → Sequence q p → q <+: t → 2 ≤ q.length → 0x80 ≤ p

/-- `Resolves o s`: replacing the four predefined entities `&lt;` `&gt;` `&quot;` `&amp;` in `o`
by the characters they stand for gives `s`; a bare `<`, `>`, `"` or `&` is not allowed in `o`. -/
inductive Resolves : List Byte → List Byte → Prop where
  | nil : Resolves [] []
  | lt {o s} : Resolves o s → Resolves (38 :: 108 :: 116 :: 59 :: o) (60 :: s)
  | gt {o s} : Resolves o s → Resolves (38 :: 103 :: 116 :: 59 :: o) (62 :: s)
  | quot {o s} : Resolves o s → Resolves (38 :: 113 :: 117 :: 111 :: 116 :: 59 :: o) (34 :: s)
  | amp {o s} : Resolves o s → Resolves (38 :: 97 :: 109 :: 112 :: 59 :: o) (38 :: s)
  | other {o s} (c : Byte) : c ≠ 38 → c ≠ 60 → c ≠ 62 → c ≠ 34 → Resolves o s →
      Resolves (c :: o) (c :: s)

/-- Upper-case hexadecimal digit. -/
def upperHex (c : Byte) : Option Nat :=
  if 48 ≤ c.toNat ∧ c.toNat ≤ 57 then some (c.toNat - 48)
  else if 65 ≤ c.toNat ∧ c.toNat ≤ 70 then some (c.toNat - 55)
  else none

/-- RFC 3986 unreserved characters. -/
def Unreserved (c : Byte) : Prop :=
  (65 ≤ c.toNat ∧ c.toNat ≤ 90) ∨ (97 ≤ c.toNat ∧ c.toNat ≤ 122) ∨ (48 ≤ c.toNat ∧ c.toNat ≤ 57) ∨
    c.toNat = 45 ∨ c.toNat = 46 ∨ c.toNat = 95 ∨ c.toNat = 126

instance (c : Byte) : Decidable (Unreserved c) := by unfold Unreserved; infer_instance

/-- Strict percent-decoding: unreserved characters stand for themselves, `%XX` with upper-case hex
digits for a byte, anything else is an error. -/
def pctDecode : List Byte → Option (List Byte)
  | [] => some []
  | c :: rest =>
    if c = 37 then
      match rest with
      | h :: l :: rest' =>
        match upperHex h, upperHex l, pctDecode rest' with
        | some a, some b, some out => some (UInt8.ofNat (a * 16 + b) :: out)
        | _, _, _ => none
      | _ => none
    else if Unreserved c then (pctDecode rest).map (c :: ·)
    else none

/-- Expect CR LF. -/
def crlf : List Byte → Option (List Byte)
  | a :: b :: rest => if a = 13 ∧ b = 10 then some rest else none
  | _ => none

/-- A receiver of the chunked transfer coding (RFC 7230 §4.1, without extensions and trailers):
`size-in-hex CRLF data CRLF … 0 CRLF CRLF`; returns the body and the bytes after it. -/
def dechunk : Nat → List Byte → Option (List Byte × List Byte)
  | 0, _ => none
  | fuel + 1, wire =>
    let digits := Num.digitsOf 16 wire
    let size := Num.numeral 16 0 digits
    if digits = [] then none
    else match crlf (Num.afterDigits 16 wire) with
      | none => none
      | some r =>
        if size = 0 then (crlf r).map (fun r' => ([], r'))
        else if r.length < size then none
        else match crlf (r.drop size) with
          | none => none
          | some r' => (dechunk fuel r').map (fun (body, rest) => (r.take size ++ body, rest))

/-- How the Microsoft C runtime reads one argument from the command line: state "inside quotes" and
number of pending backslashes; returns the argument and what follows it. -/
def crtArg : Bool → Nat → List Byte → List Byte × List Byte
  | _, n, [] => (List.replicate n 92, [])
  | q, n, c :: cs =>
    if c = 92 then crtArg q (n + 1) cs
    else if c = 34 then
      if n % 2 = 1 then
        let r := crtArg q 0 cs
        (List.replicate (n / 2) 92 ++ (34 :: r.1), r.2)
      else
        match cs with
        | d :: ds =>
          if q = true ∧ d = 34 then
            let r := crtArg q 0 ds
            (List.replicate (n / 2) 92 ++ (34 :: r.1), r.2)
          else
            let r := crtArg (!q) 0 (d :: ds)
            (List.replicate (n / 2) 92 ++ r.1, r.2)
        | [] => (List.replicate (n / 2) 92, [])
    else if (c = 32 ∨ c = 9) ∧ q = false then (List.replicate n 92, c :: cs)
    else
      let r := crtArg q 0 cs
      (List.replicate n 92 ++ (c :: r.1), r.2)

/-- A format template: literal bytes and holes. -/
inductive Piece where
  | lit (c : Byte)
  | hole
  deriving DecidableEq, Repr

/-- How a template is written down: braces are doubled, a hole is `{}`. -/
def render : List Piece → List Byte
  | [] => []
  | .lit c :: ps => (if c = 123 then [123, 123] else if c = 125 then [125, 125] else [c]) ++ render ps
  | .hole :: ps => [123, 125] ++ render ps

/-- Filling the holes with the arguments in order; defined only if the numbers agree. -/
def fill : List Piece → List (List Byte) → Option (List Byte)
  | [], [] => some []
  | [], _ :: _ => none
  | .lit c :: ps, args => (fill ps args).map (c :: ·)
  | .hole :: _, [] => none
  | .hole :: ps, a :: args => (fill ps args).map (a ++ ·)

/-- `rest` is what follows the first occurrence of `special` in `input`. -/
def AfterFirst (special input rest : List Byte) : Prop :=
  ∃ pre, input = pre ++ special ++ rest ∧
    ∀ pre' rest', input = pre' ++ special ++ rest' → pre.length ≤ pre'.length

end Verif.Esc
