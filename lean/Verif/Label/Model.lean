import Verif.Basic
/-!
# Label encoder and label map — model

rt/string/details/LabelEncoder.h, rt/string/Label.h, rt/string/Label.cpp, rt/container/BigPool.h
-/
namespace Verif.Label
open Verif

/-- `LabelEncoder::decodeValue`, rt/string/details/LabelEncoder.h:12-23.
`value` is the loop variable; the list is what the pointer points at.  Reading past the end of
the list (undefined behaviour in C++) is the outcome `none`.  Returns value and advanced pointer. -/
def decodeLoop (value : Nat) : List Byte → Option (Nat × List Byte)
  | [] => none
  | c :: rest =>
    let v := u32 (value + (c.toNat &&& 127))
    if c.toNat >>> 7 = 0 then some (v, rest) else decodeLoop (u32 (v <<< 7)) rest

/-- `LabelEncoder::decodeValue`, rt/string/details/LabelEncoder.h:12-23 (entry, `value = 0`). -/
def decodeValue (bytes : List Byte) : Option (Nat × List Byte) := decodeLoop 0 bytes

/-- `LabelEncoder::getEncLen`, rt/string/details/LabelEncoder.h:25-32 (do-while loop). -/
def getEncLen (value : Nat) : Nat :=
  if h : value >>> 7 > 0 then getEncLen (value >>> 7) + 1 else 1
termination_by value
decreasing_by
  simp only [Nat.shiftRight_eq_div_pow] at *
  omega

/-- The loop of `LabelEncoder::encodeValue`, rt/string/details/LabelEncoder.h:36-42.  The loop
counter `groups` is `shift / 7`: `shift` starts at `(getEncLen(value) - 1) * 7` and goes down by 7.
Result: the bytes stored through `ptr`, in order. -/
def encodeLoop (value : Nat) : (groups : Nat) → List Byte
  | 0 => [UInt8.ofNat (((value >>> 0) &&& 127) ||| (0 <<< 7))]
  | g + 1 =>
    UInt8.ofNat (((value >>> ((g + 1) * 7)) &&& 127) ||| (1 <<< 7)) :: encodeLoop value g

/-- `LabelEncoder::encodeValue`, rt/string/details/LabelEncoder.h:34-43. -/
def encodeValue (value : Nat) : List Byte := encodeLoop value (getEncLen value - 1)

/-! ## The label map -/

/-- `BaseBigPool::DefaultNumReservedBytes`, rt/container/BigPool.h:18. -/
def reservedBytes : Nat := 1024 * 1024 * 1024

/-- `LabelMap`, rt/string/Label.h:35-59: the byte pool and the set of ids stored in the hash map
`strToIndex`.  Simplified: the hash table is represented by the list of its items; that the table
itself behaves like such a set is the subject of the HashMap model. -/
structure LabelMap where
  pool : List Byte
  ids : List Nat

/-- `LabelMap::LabelMap`, rt/string/Label.cpp:13-15. -/
def LabelMap.empty : LabelMap := { pool := [0], ids := [] }

/-- `LabelMap::view` (rt/string/Label.cpp:44-50) and the identical body of `Traits::match`
(rt/string/Label.h:41-45): `BigPool::get` asserts the index is in range
(rt/container/BigPool.h:48-51), the length is decoded, and a view of that many bytes is formed
(reading past the pool is `none`). -/
def LabelMap.view (m : LabelMap) (idx : Nat) : Option (List Byte) :=
  if idx < m.pool.length then
    match decodeValue (m.pool.drop idx) with
    | none => none
    | some (n, rest) => if n ≤ rest.length then some (rest.take n) else none
  else none

/-- `Traits::match`, rt/string/Label.h:41-45. -/
def LabelMap.matches (m : LabelMap) (s : List Byte) (id : Nat) : Bool := m.view id == some s

/-- `LabelMap::find`, rt/string/Label.cpp:35-42; the null label is 0 (rt/string/Label.h:16). -/
def LabelMap.find (m : LabelMap) (s : List Byte) : Nat :=
  match m.ids.find? (m.matches s) with
  | some id => id
  | none => 0

/-- `LabelMap::insertOrFind`, rt/string/Label.cpp:17-33.  `none` when the byte pool's reserved
address range (1 GiB) would be exceeded, in which case the C++ commits unreserved pages. -/
def LabelMap.insertOrFind (m : LabelMap) (s : List Byte) : Option (Nat × LabelMap) :=
  match m.ids.find? (m.matches s) with
  | some id => some (id, m)
  | none =>
    let numEntryBytes := getEncLen s.length + s.length
    let resultID := m.pool.length
    if m.pool.length + numEntryBytes ≤ reservedBytes then
      some (resultID, { pool := m.pool ++ (encodeValue s.length ++ s), ids := resultID :: m.ids })
    else none

end Verif.Label
