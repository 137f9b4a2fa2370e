import Verif.Basic
/-!
# In-place sort (rt/algorithm/Sort.h)

A view is a list; an access outside it is `none`.  Items are only compared and swapped, so a view's
contents are all there is to its state.  The comparison is a pure function.
-/
namespace Verif.Sort
open Verif

variable {α : Type _}

/-- `std::swap(view[i], view[j])` (rt/algorithm/Sort.h:41). -/
def swap (v : List α) (i j : Nat) : Option (List α) :=
  match v[i]?, v[j]? with
  | some a, some b => some ((v.set i b).set j a)
  | _, _ => none

/-- First inner loop (rt/algorithm/Sort.h:26-28): advance `lo` while its item is less than the
pivot's. -/
def scanUp (less : α → α → Bool) (v : List α) (pivot hi lo : Nat) : Option Nat :=
  if lo < hi then
    match v[lo]?, v[pivot]? with
    | some a, some p => if less a p then scanUp less v pivot hi (lo + 1) else some lo
    | _, _ => none
  else some lo
termination_by hi - lo

/-- Second inner loop (rt/algorithm/Sort.h:29-31): retreat `hi` while the pivot's item is less than
its item. -/
def scanDown (less : α → α → Bool) (v : List α) (pivot lo hi : Nat) : Option Nat :=
  if lo < hi then
    match v[hi]?, v[pivot]? with
    | some a, some p => if less p a then scanDown less v pivot lo (hi - 1) else some hi
    | _, _ => none
  else some hi
termination_by hi

/-- The partition loop (rt/algorithm/Sort.h:25-48).  Gives the view, `lo`, `hi` and `pivot` at the
`break`; `none` if an access is out of bounds, an assertion of lines 38-40 fails or `fuel` (the
model's own device) runs out. -/
def partitionLoop (less : α → α → Bool) : Nat → List α → Nat → Nat → Nat →
    Option (List α × Nat × Nat × Nat)
  | 0, _, _, _, _ => none
  | fuel + 1, v, lo, hi, pivot =>
    match scanUp less v pivot hi lo with
    | none => none
    | some lo =>
      match scanDown less v pivot lo hi with
      | none => none
      | some hi =>
        if lo ≥ hi then some (v, lo, hi, pivot)
        else
          match v[lo]?, v[hi]?, v[pivot]? with
          | some a, some b, some p =>
            if less a p ∨ less p b then none
            else
              match swap v lo hi with
              | none => none
              | some v' =>
                let pivot' := if lo = pivot then hi else if hi = pivot then lo else pivot
                partitionLoop less fuel v' (lo + 1) hi pivot'
          | _, _, _ => none

/-- The first loop after the partition (rt/algorithm/Sort.h:52-59): shorten the left part by items
that are not less than the pivot's, until one is less (`some lo`: the part to sort) or at most one
is left (`some 0`: nothing to sort). -/
def trimLeft (less : α → α → Bool) (v : List α) (pivot : Nat) : Nat → Option Nat
  | 0 => some 0
  | lo + 1 =>
    if lo + 1 > 1 then
      match v[lo]?, v[pivot]? with
      | some a, some p => if !less a p then trimLeft less v pivot lo else some (lo + 1)
      | _, _ => none
    else some 0

/-- The second loop after the partition (rt/algorithm/Sort.h:60-67); `some (view length)`: nothing
to sort. -/
def trimRight (less : α → α → Bool) (v : List α) (pivot hi : Nat) : Option Nat :=
  if hi + 1 < v.length then
    match v[hi]?, v[pivot]? with
    | some a, some p => if !less p a then trimRight less v pivot (hi + 1) else some hi
    | _, _ => none
  else some v.length
termination_by v.length - hi

/-- `sort` (rt/algorithm/Sort.h:18-68).  A recursive call works on a part of the view in place.
`fuel` bounds the recursion depth (the model's own device). -/
def sort (less : α → α → Bool) : Nat → List α → Option (List α)
  | 0, _ => none
  | fuel + 1, v =>
    if v.length ≤ 1 then some v
    else
      match partitionLoop less v.length v 0 (v.length - 1) (v.length / 2) with
      | none => none
      | some (v, lo, hi, pivot) =>
        if 2 ^ 31 ≤ hi then none          -- line 49
        else if lo < hi then none         -- line 51
        else
          match trimLeft less v pivot lo with
          | none => none
          | some l =>
            let left := if l = 0 then some v
              else (sort less fuel (v.take l)).map (· ++ v.drop l)
            match left with
            | none => none
            | some v =>
              match trimRight less v pivot hi with
              | none => none
              | some r =>
                if r = v.length then some v
                else (sort less fuel (v.drop r)).map (v.take r ++ ·)

end Verif.Sort
