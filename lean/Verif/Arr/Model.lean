import Verif.Basic
import Verif.Bits.Model
/-!
# Growable arrays (rt/container/Array.h, rt/container/details/BaseArray.cpp), filtering and searching

The memory block is a list of cells: `none` is raw memory, `some x` a constructed item.  Constructing
over a constructed item (it would leak), destructing or relocating over the wrong thing, and any
access outside the block are faults (`none` as the result).  Failing assertions are faults too.
Heap exhaustion is not modelled.
-/
namespace Verif.Arr
open Verif

variable {α : Type _}

/-- The members of `Array` (rt/container/Array.h:32-34); `allocated` is the number of cells. -/
structure Arr (α : Type _) where
  cells : List (Option α)
  num : Nat
deriving DecidableEq, Repr

/-- `Array()` (rt/container/Array.h:64-65). -/
def Arr.empty : Arr α := ⟨[], 0⟩

/-- `subst::destructArray` (rt/container/Subst.h:168-180). -/
def destructRange (cells : List (Option α)) (pos count : Nat) : Option (List (Option α)) :=
  if pos + count ≤ cells.length ∧ ((cells.drop pos).take count).all (·.isSome) = true then
    some (cells.take pos ++ List.replicate count none ++ cells.drop (pos + count))
  else none

/-- `subst::constructArray` and `constructArrayFrom` (rt/container/Subst.h:152-199): construct
`vals` in raw memory. -/
def constructRange (cells : List (Option α)) (pos : Nat) (vals : List α) :
    Option (List (Option α)) :=
  if pos + vals.length ≤ cells.length ∧
      ((cells.drop pos).take vals.length).all (·.isNone) = true then
    some (cells.take pos ++ vals.map some ++ cells.drop (pos + vals.length))
  else none

/-- `memmove`/`memcpy` of whole items: the items move from `src` to `dst`; what is left behind is
raw memory.  Used at rt/container/Array.h:449-451, 465-467, 483-484 and 490-492. -/
def relocate (cells : List (Option α)) (dst src count : Nat) : Option (List (Option α)) :=
  if src + count ≤ cells.length ∧ dst + count ≤ cells.length then
    let block := (cells.drop src).take count
    let vac := cells.take src ++ List.replicate count none ++ cells.drop (src + count)
    if ((vac.drop dst).take count).all (·.isNone) = true then
      some (vac.take dst ++ block ++ vac.drop (dst + count))
    else none
  else none

/-- `PLY_HEAP.realloc` to room for `n` items; cutting off a constructed item is a fault. -/
def reallocCells (cells : List (Option α)) (n : Nat) : Option (List (Option α)) :=
  if (cells.drop n).all (·.isNone) = true then
    some (cells.take n ++ List.replicate (n - cells.length) none)
  else none

/-- `BaseArray::reserve` (rt/container/details/BaseArray.cpp:28-33). -/
def reserve (n : Nat) (s : Arr α) : Option (Arr α) :=
  let n := u32 n
  if n > s.cells.length then
    (reallocCells s.cells (Bits.roundUpPowerOf2_32 n)).map ({ s with cells := · })
  else some s

/-- `BaseArray::truncate` (rt/container/details/BaseArray.cpp:39-42). -/
def truncate (s : Arr α) : Option (Arr α) :=
  (reallocCells s.cells s.num).map ({ s with cells := · })

/-- `Array::append` (rt/container/Array.h:354-382). -/
def append (x : α) (s : Arr α) : Option (Arr α) :=
  match (if s.num ≥ s.cells.length then reserve (s.num + 1) s else some s) with
  | none => none
  | some s =>
    (constructRange s.cells s.num [x]).map fun c => { cells := c, num := u32 (s.num + 1) }

/-- `Array::extend`, `moveExtend` (rt/container/Array.h:405-417, 426-432). -/
def extend (xs : List α) (s : Arr α) : Option (Arr α) :=
  match reserve (s.num + xs.length) s with
  | none => none
  | some s =>
    (constructRange s.cells s.num xs).map fun c => { cells := c, num := u32 (s.num + xs.length) }

/-- `Array::resize` (rt/container/Array.h:329-338); `d` is the default-constructed item. -/
def resize (d : α) (n : Nat) (s : Arr α) : Option (Arr α) :=
  match (if n < s.num then (destructRange s.cells n (s.num - n)).map ({ s with cells := · })
      else some s) with
  | none => none
  | some s =>
    match reserve n s with
    | none => none
    | some s =>
      if n > s.num then
        (constructRange s.cells s.num (List.replicate (n - s.num) d)).map fun c => ⟨c, n⟩
      else some { s with num := n }

/-- `Array::pop` (rt/container/Array.h:437-440). -/
def pop (d : α) (count : Nat) (s : Arr α) : Option (Arr α) :=
  if count ≤ s.num then resize d (s.num - count) s else none

/-- `Array::insert` (rt/container/Array.h:446-455). -/
def insert (d : α) (pos count : Nat) (s : Arr α) : Option (Arr α) :=
  if pos ≤ s.num then
    match reserve (s.num + count) s with
    | none => none
    | some s =>
      match relocate s.cells (pos + count) pos (s.num - pos) with
      | none => none
      | some c =>
        (constructRange c pos (List.replicate count d)).map fun c => ⟨c, u32 (s.num + count)⟩
  else none

/-- `Array::erase` (rt/container/Array.h:462-469). -/
def erase (pos count : Nat) (s : Arr α) : Option (Arr α) :=
  if u32 (pos + count) ≤ s.num then
    match destructRange s.cells pos count with
    | none => none
    | some c =>
      (relocate c pos (pos + count) (s.num - (pos + count))).map fun c => ⟨c, s.num - count⟩
  else none

/-- `Array::eraseQuick(pos)` (rt/container/Array.h:480-486). -/
def eraseQuick1 (pos : Nat) (s : Arr α) : Option (Arr α) :=
  if pos < s.num then
    match destructRange s.cells pos 1 with
    | none => none
    | some c => (relocate c pos (s.num - 1) 1).map fun c => ⟨c, s.num - 1⟩
  else none

/-- `Array::eraseQuick(pos, count)` (rt/container/Array.h:487-494). -/
def eraseQuick (pos count : Nat) (s : Arr α) : Option (Arr α) :=
  if u32 (pos + count) ≤ s.num then
    match destructRange s.cells pos count with
    | none => none
    | some c => (relocate c pos (s.num - count) count).map fun c => ⟨c, s.num - count⟩
  else none

/-- `Array::clear` (rt/container/Array.h:306-312); also the destructor (126-131). -/
def clear (s : Arr α) : Option (Arr α) :=
  (destructRange s.cells 0 s.num).map fun _ => Arr.empty

/-- Subscript (rt/container/Array.h:206-213). -/
def get (i : Nat) (s : Arr α) : Option α :=
  if i < s.num then
    match s.cells[i]? with
    | some (some x) => some x
    | _ => none
  else none

/-- Assignment from a braced list (rt/container/Array.h:166-171) with `BaseArray::realloc`
(rt/container/details/BaseArray.cpp:18-22). -/
def assignList (xs : List α) (s : Arr α) : Option (Arr α) :=
  (destructRange s.cells 0 s.num).bind fun c =>
    (reallocCells c (Bits.roundUpPowerOf2_32 xs.length)).bind fun c =>
      (constructRange c 0 xs).map fun c => ⟨c, xs.length⟩

/-- Items constructed by reading constructed cells. -/
def readAll : List (Option α) → Option (List α)
  | [] => some []
  | none :: _ => none
  | some x :: rest => (readAll rest).map (x :: ·)

/-- Copy construction (rt/container/Array.h:74-77) into fresh memory, reading the items of `src`. -/
def copyConstruct (src : List (Option α)) (num : Nat) : Option (Arr α) :=
  match readAll (src.take num) with
  | none => none
  | some xs =>
    (constructRange (List.replicate (Bits.roundUpPowerOf2_32 num) none) 0 xs).map fun c => ⟨c, num⟩

/-- Copy assignment (rt/container/Array.h:141-146): `this` is overwritten by placement new before
the items of `other` are read, so when `other` is `this`, the fresh memory is read. -/
def copyAssign (s other : Arr α) (same : Bool) : Option (Arr α) :=
  let src := if same then List.replicate (Bits.roundUpPowerOf2_32 s.num) none else other.cells
  match copyConstruct src (if same then s.num else other.num) with
  | none => none
  | some r => (destructRange s.cells 0 s.num).map fun _ => r

/-- `filter` (rt/algorithm/Filter.h:11-20).  `fuel` bounds the rounds (the model's own device). -/
def filterLoop (p : α → Bool) : Nat → Nat → Arr α → Option (Arr α)
  | 0, _, _ => none
  | fuel + 1, i, s =>
    if i < s.num then
      match get i s with
      | none => none
      | some x =>
        if p x then filterLoop p fuel (i + 1) s
        else
          match eraseQuick1 i s with
          | none => none
          | some s => filterLoop p fuel i s
    else some s

/-- `filter` with enough rounds for all items. -/
def filter (p : α → Bool) (s : Arr α) : Option (Arr α) := filterLoop p (s.num + 1) 0 s

/-- `find` (rt/algorithm/Find.h:15-31): the index as a `u32` converted to `s32`, or -1. -/
def find (p : α → Bool) (v : List α) : Int :=
  match go v 0 with
  | some i => if i < 2 ^ 31 then (i : Int) else (i : Int) - 2 ^ 32
  | none => -1
where
  /-- The loop. -/
  go : List α → Nat → Option Nat
    | [], _ => none
    | x :: xs, i => if p x then some i else go xs (i + 1)

/-- The loop of `rfind` (rt/algorithm/Find.h:41-45); the argument is `i + 1`. -/
def rfindLoop (p : α → Bool) (v : List α) : Nat → Option Int
  | 0 => some (-1)
  | i + 1 =>
    match v[i]? with
    | none => none
    | some x => if p x then some (i : Int) else rfindLoop p v i

/-- `rfind` (rt/algorithm/Find.h:39-55).  The initial `safeDemote<s32>(numItems - 1)`, on an unsigned
difference, asserts that the difference is below 2^31. -/
def rfind (p : α → Bool) (v : List α) : Option Int :=
  if u32 (v.length + 2 ^ 32 - 1) < 2 ^ 31 then rfindLoop p v v.length else none

/-- `operator==` on views (rt/container/ArrayView.h:273-282). -/
def viewEq (eq : α → α → Bool) (a b : List α) : Bool :=
  if a.length ≠ b.length then false else (List.zip a b).all fun (x, y) => eq x y

end Verif.Arr
