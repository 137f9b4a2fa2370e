import Verif.Basic
/-!
# Template tags (rt/io/text/LiquidTags.cpp)

The `ViewInStream` is the list of bytes left; what the function does to the output stream and the handler
is a list of events.
-/
namespace Verif.Liquid
open Verif

/-- `outs->writeByte(b)`, or `tagHandler(raw, content)`. -/
inductive Ev where
  | byte (b : Byte)
  | tag (raw content : List Byte)
deriving DecidableEq, Repr

/-- The loop over the inside of a tag (rt/io/text/LiquidTags.cpp:43-67): the content and the bytes left;
`none` is the early `return` at line 50.  A `%` that is not followed by `>` is written with its follower,
and the follower is not consumed. -/
def inside : List Byte → List Byte → Option (List Byte × List Byte)
  | [], acc => some (acc, [])
  | b :: rest, acc =>
    if b = 37 then
      match rest with
      | [] => none
      | b2 :: rest2 => if b2 = 62 then some (acc, rest2) else inside (b2 :: rest2) (acc ++ [b, b2])
    else inside rest (acc ++ [b])

theorem inside_length {src acc c r : List Byte} (h : inside src acc = some (c, r)) : r.length ≤ src.length := by
  induction src generalizing acc with
  | nil => simp [inside] at h; simp [h]
  | cons b rest ih =>
    unfold inside at h
    split at h
    · split at h
      · exact absurd h (by simp)
      · split at h
        · simp at h; rw [← h.2]; simp; omega
        · have := ih h; simp at *; omega
    · have := ih h; simp; omega

/-- `extractLiquidTags` (rt/io/text/LiquidTags.cpp:11-86).  Returning at the end of the input is going on
with no bytes.  The loop for the inside of a tag ends in the same way when the input ends (line 64), so
`inside []` gives what was read; it is not entered with no bytes (line 37). -/
def extract (src : List Byte) : List Ev :=
  match src with
  | [] => []
  | b :: rest =>
    if b = 60 then
      match rest with
      | [] => [.byte b]
      | b2 :: rest2 =>
        if b2 = 37 then
          if rest2 = [] then []
          else
            match h : inside rest2 [] with
            | none => []
            | some (content, left) =>
              .tag ((b :: b2 :: rest2).take (rest2.length + 2 - left.length)) content :: extract left
        else .byte b :: .byte b2 :: extract rest2
    else .byte b :: extract rest
termination_by src.length
decreasing_by
  · have := inside_length h; simp; omega
  · simp; omega
  · simp

end Verif.Liquid
