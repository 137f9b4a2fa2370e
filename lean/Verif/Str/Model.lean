import Verif.Basic
import Verif.Num.Model
/-!
# String views — model of rt/string/StringView.h and rt/string/StringView.cpp

A `StringView` is the list of bytes it refers to; its length is a `u32`, so theorems about lengths
assume fewer than `2^32` bytes where it matters.
-/
namespace Verif.Str
open Verif

/-- `isWhite`, rt/string/StringView.h:24-26 (space, tab, CR, LF). -/
def isWhite (c : Byte) : Bool := c == 32 || c == 9 || c == 13 || c == 10

/-- `isAsciiLetter`, rt/string/StringView.h:28-30.  `char` is signed on the supported compilers, but
the bounds are positive so the comparison is the same on unsigned bytes. -/
def isAsciiLetter (c : Byte) : Bool :=
  (65 ≤ c.toNat && c.toNat ≤ 90) || (97 ≤ c.toNat && c.toNat ≤ 122)

/-- `isDecimalDigit`, rt/string/StringView.h:32-34. -/
def isDecimalDigit (c : Byte) : Bool := 48 ≤ c.toNat && c.toNat ≤ 57

/-- The loop of `compare`, rt/string/StringView.cpp:157-170: `some diff` if a difference is found in
the first `min(a.numBytes, b.numBytes)` bytes. -/
def compareLoop : List Byte → List Byte → Option Int
  | x :: xs, y :: ys =>
    let diff : Int := (x.toNat : Int) - y.toNat
    if diff ≠ 0 then some diff else compareLoop xs ys
  | _, _ => none

/-- `compare`, rt/string/StringView.cpp:157-170.  The final `a.numBytes - b.numBytes` is a `u32`
subtraction converted to `s32`. -/
def compare (a b : List Byte) : Int :=
  match compareLoop a b with
  | some diff => diff
  | none => Num.toSigned 32 ((a.length + 2 ^ 32 - b.length) % 2 ^ 32)

/-- `StringView::startsWith`, rt/string/StringView.cpp:13-17 (`memcmp == 0` is equality of the
ranges). -/
def startsWith (s other : List Byte) : Bool :=
  if other.length > s.length then false else s.take other.length == other

/-- `StringView::endsWith`, rt/string/StringView.cpp:19-23. -/
def endsWith (s other : List Byte) : Bool :=
  if other.length > s.length then false else s.drop (s.length - other.length) == other

/-- First loop of `trim`, rt/string/StringView.cpp:28-32. -/
def trimLeft (m : Byte → Bool) : List Byte → List Byte
  | [] => []
  | c :: cs => if m c then trimLeft m cs else c :: cs

/-- Second loop of `trim`, rt/string/StringView.cpp:33-37; it looks at `end[-1]`, i.e. walks the
reversed range. -/
def trimRight (m : Byte → Bool) (s : List Byte) : List Byte := (trimLeft m s.reverse).reverse

/-- `StringView::trim`, rt/string/StringView.cpp:25-39; `ltrim`/`rtrim` (StringView.h:339-344) pass
one of the flags as false. -/
def trim (m : Byte → Bool) (left right : Bool) (s : List Byte) : List Byte :=
  let s1 := if left then trimLeft m s else s
  if right then trimRight m s1 else s1

/-- The loop of `splitByte`, rt/string/StringView.cpp:41-63.  The state is `none` while
`splitStart == nullptr`, else the bytes from `splitStart` up to `cur`. -/
def splitLoop (sep : Byte) : Option (List Byte) → List Byte → List (List Byte)
  | none, [] => []
  | some w, [] => [w]
  | st, c :: cs =>
    if c = sep then
      match st with
      | some w => w :: splitLoop sep none cs
      | none => splitLoop sep none cs
    else
      match st with
      | none => splitLoop sep (some [c]) cs
      | some w => splitLoop sep (some (w ++ [c])) cs

/-- `StringView::splitByte`, rt/string/StringView.cpp:41-63. -/
def splitByte (sep : Byte) (s : List Byte) : List (List Byte) := splitLoop sep none s

/-- The loop of `join`, rt/string/StringView.cpp:107-118 (`first` flag; the `MemOutStream` is the
list of bytes written). -/
def joinLoop (sep : List Byte) : Bool → List (List Byte) → List Byte
  | _, [] => []
  | first, comp :: comps => (if first then [] else sep) ++ comp ++ joinLoop sep false comps

/-- `StringView::join`, rt/string/StringView.cpp:107-118. -/
def join (sep : List Byte) (comps : List (List Byte)) : List Byte := joinLoop sep true comps

/-- `StringView::findByte`, rt/string/StringView.h:264-284; loop from `i = startPos`, `-1` if none. -/
def findLoop (m : Byte → Bool) : Nat → List Byte → Int
  | _, [] => -1
  | i, c :: cs => if m c then i else findLoop m (i + 1) cs

/-- `StringView::findByte`, rt/string/StringView.h:264-284. -/
def findByte (m : Byte → Bool) (startPos : Nat) (s : List Byte) : Int :=
  findLoop m startPos (s.drop startPos)

/-- Loop of `StringView::rfindByte`, rt/string/StringView.h:292-308, from index `i` downwards;
argument is `i + 1`.  Reading outside the view is outcome `none`. -/
def rfindLoop (m : Byte → Bool) (s : List Byte) : Nat → Option Int
  | 0 => some (-1)
  | i + 1 =>
    match s[i]? with
    | none => none
    | some c => if m c then some i else rfindLoop m s i

/-- `StringView::rfindByte(f)`, rt/string/StringView.h:312-315, with the default start
`numBytes - 1` (for an empty view this wraps to -1 and the loop does not run).  Views of less than
`2^31` bytes. -/
def rfindByte (m : Byte → Bool) (s : List Byte) : Option Int := rfindLoop m s s.length

/-- `StringView::subStr(start, numBytes)`, rt/string/StringView.h:219-223.  Outcome: assertion
failure (`none`), or the pair (start, length) of the resulting view.  The sum in the second
assertion is a `u32` sum. -/
def subStr (viewLen start len : Nat) : Option (Nat × Nat) :=
  if start ≤ viewLen ∧ u32 (start + len) ≤ viewLen then some (start, len) else none

/-- `StringView::upperAsc`, rt/string/StringView.cpp:65-75. -/
def upperAsc (s : List Byte) : List Byte :=
  s.map fun c => if 97 ≤ c.toNat ∧ c.toNat ≤ 122 then UInt8.ofNat (c.toNat - 32) else c

/-- `StringView::lowerAsc`, rt/string/StringView.cpp:77-87. -/
def lowerAsc (s : List Byte) : List Byte :=
  s.map fun c => if 65 ≤ c.toNat ∧ c.toNat ≤ 90 then UInt8.ofNat (c.toNat + 32) else c

/-- `operator+`, rt/string/StringView.cpp:172-177.  The buffer has `u32(a.numBytes + b.numBytes)`
bytes; copying more than that is a heap overflow (`none`). -/
def concat (a b : List Byte) : Option (List Byte) :=
  if a.length + b.length ≤ u32 (a.length + b.length) then some (a ++ b) else none

/-- The copy loop of `operator*`, rt/string/StringView.cpp:182-185. -/
def repeatLoop (s : List Byte) : Nat → List Byte
  | 0 => []
  | n + 1 => s ++ repeatLoop s n

/-- `operator*`, rt/string/StringView.cpp:179-187; `none` = heap overflow. -/
def times (s : List Byte) (count : Nat) : Option (List Byte) :=
  if s.length * count ≤ u32 (s.length * count) then some (repeatLoop s count) else none

end Verif.Str
