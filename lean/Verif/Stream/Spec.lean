import Verif.Basic
/-!
# What the streams should do

Independent of the model: an input stream is a position in a byte string, an output stream an
accumulating byte string, and the newline filter a function on whole texts.
-/
namespace Verif.Stream.Spec
open Verif

/-! ## Reading -/

/-- Requests a user can make of an input stream. `rewind i` goes back to the `i`-th position
remembered by `mark`. -/
inductive InOp where
  | readByte
  | peek
  | read (n : Nat)
  | skip (n : Nat)
  | mark
  | rewind (i : Nat)
deriving DecidableEq, Repr

/-- Observable results.  `bytes ok bs`: the destination's first `bs.length` bytes were set to
`bs`. -/
inductive InRes where
  | byte (b : Byte)
  | peeked (b : Option Byte)
  | bytes (ok : Bool) (bs : List Byte)
  | flag (ok : Bool)
  | done
deriving DecidableEq, Repr

/-- The whole data, the read position, the end-of-file flag and the remembered positions. -/
structure InState where
  data : List Byte
  pos : Nat
  eof : Bool
  marks : List Nat
deriving DecidableEq, Repr

/-- The reference semantics of the requests. -/
def step (t : InState) : InOp → InRes × InState
  | .readByte =>
    match t.data.drop t.pos with
    | [] => (.byte 0, { t with eof := true })
    | b :: _ => (.byte b, { t with pos := t.pos + 1 })
  | .peek =>
    match t.data.drop t.pos with
    | [] => (.peeked none, { t with eof := true })
    | b :: _ => (.peeked (some b), t)
  | .read n =>
    if t.eof then (.bytes false [], t)
    else if n ≤ t.data.length - t.pos then
      (.bytes true ((t.data.drop t.pos).take n), { t with pos := t.pos + n })
    else
      (.bytes false (t.data.drop t.pos ++ List.replicate (n - (t.data.length - t.pos)) 0),
        { t with pos := t.data.length, eof := true })
  | .skip n =>
    if t.eof then (.flag false, t)
    else if n ≤ t.data.length - t.pos then (.flag true, { t with pos := t.pos + n })
    else (.flag false, { t with pos := t.data.length, eof := true })
  | .mark => (.done, { t with marks := t.marks ++ [t.pos] })
  | .rewind i =>
    match t.marks[i]? with
    | none => (.done, t)
    | some p => (.done, { t with pos := p, eof := false })

/-- Results of a sequence of requests. -/
def run (t : InState) : List InOp → List InRes × InState
  | [] => ([], t)
  | op :: ops =>
    let r := step t op
    let rs := run r.2 ops
    (r.1 :: rs.1, rs.2)

/-! ## Writing -/

/-- Requests a user can make of an output stream. `reserve n bs` makes at least `n` bytes available
and stores `bs` (at most `n` bytes) there. -/
inductive OutOp where
  | writeByte (b : Byte)
  | write (bs : List Byte)
  | reserve (n : Nat) (bs : List Byte)
  | flush
deriving DecidableEq, Repr

/-- The bytes a request adds to the stream. -/
def OutOp.bytes : OutOp → List Byte
  | .writeByte b => [b]
  | .write bs => bs
  | .reserve _ bs => bs
  | .flush => []

/-- Everything a sequence of requests adds. -/
def written (ops : List OutOp) : List Byte := (ops.map OutOp.bytes).flatten

/-- What the code demands of a request: buffers below 2 GiB, no more stored than reserved. -/
def OutOp.Legal : OutOp → Prop
  | .writeByte _ => True
  | .write bs => bs.length < 2 ^ 31
  | .reserve n bs => bs.length ≤ n
  | .flush => True

/-! ## Newlines -/

/-- The newline filter on a whole text: carriage returns disappear, and line feeds become CR LF if
asked for. -/
def newlines (crlf : Bool) (s : List Byte) : List Byte :=
  (s.filter (fun c => c ≠ 13)).flatMap (fun c => if c = 10 ∧ crlf = true then [13, 10] else [c])

end Verif.Stream.Spec
