import Verif.Basic
import Verif.Bits.Model
/-!
# Pools (rt/container/Pool.h, rt/container/Pool.cpp)

The first `m_size` slots of the memory block are a list of cells.  A free slot holds the index of
the next free slot.  A fault (`none`) is a failing assertion, an access outside the block, reading a
link from a slot that holds no link, or constructing or destructing the wrong thing.  Offsets are
32-bit products of index and item size; an offset that wraps is a fault, because it addresses another
slot.  Not modelled: the debug-only reader counter, heap exhaustion, the unused slots beyond
`m_size`.
-/
namespace Verif.Pool
open Verif

variable {α : Type _}

/-- `u32(-1)`, the end of the free list (rt/container/Pool.h:30). -/
def noFree : Nat := 2 ^ 32 - 1

/-- What a slot of the block holds: an uninitialized slot, a link to the next free slot
(rt/container/Pool.h:327), or an item. -/
inductive Cell (α : Type _) where
  | raw
  | free (next : Nat)
  | live (x : α)
deriving DecidableEq, Repr

/-- The members of `BasePool` (rt/container/Pool.h:27-32); `m_size` is the number of cells. -/
structure Pool (α : Type _) where
  cells : List (Cell α)
  allocated : Nat
  firstFree : Nat
  sorted : Bool
  freeListSize : Nat
deriving DecidableEq, Repr

/-- `BasePool::BasePool` (rt/container/Pool.h:28-30, 297-300). -/
def Pool.empty : Pool α := ⟨[], 0, noFree, true, 0⟩

/-- Reading a link: `*(u32*) PLY_PTR_OFFSET(m_items, index * itemSize)` (rt/container/Pool.h:312,
rt/container/Pool.cpp:25). -/
def readLink (isz : Nat) (cells : List (Cell α)) (index : Nat) : Option Nat :=
  if index * isz < 2 ^ 32 then
    match cells[index]? with
    | some (.free next) => some next
    | _ => none
  else none

/-- Writing a link into a slot that holds no item (rt/container/Pool.h:327, rt/container/Pool.cpp:34,
37). -/
def writeLink (isz : Nat) (cells : List (Cell α)) (index next : Nat) : Option (List (Cell α)) :=
  if index * isz < 2 ^ 32 then
    match cells[index]? with
    | some (.live _) => none
    | some _ => some (cells.set index (.free next))
    | none => none
  else none

/-- `BasePool::baseReserve` (rt/container/Pool.h:302-308).  A block whose size in bytes wraps is a
fault. -/
def baseReserve (isz newSize : Nat) (p : Pool α) : Option (Pool α) :=
  let a := Bits.roundUpPowerOf2_32 (max (u32 newSize) 8)
  if a ≠ 0 ∧ isz * a < 2 ^ 32 then some { p with allocated := a } else none

/-- `BasePool::baseAlloc` (rt/container/Pool.h:310-323). -/
def baseAlloc (isz : Nat) (p : Pool α) : Option (Nat × Pool α) :=
  if p.firstFree ≠ noFree then
    match readLink isz p.cells p.firstFree with
    | none => none
    | some nextFree =>
      let p' := { p with firstFree := nextFree, freeListSize := p.freeListSize - 1 }
      if decide (p'.freeListSize = 0) = decide (p'.firstFree = noFree) ∧ 0 < p.freeListSize then
        some (p.firstFree, p')
      else none
  else
    match (if p.cells.length ≥ p.allocated then baseReserve isz (p.cells.length + 1) p
        else some p) with
    | none => none
    | some p => some (p.cells.length, { p with cells := p.cells ++ [.raw] })

/-- `Pool::newItem` (rt/container/Pool.h:380-388). -/
def newItem (isz : Nat) (x : α) (p : Pool α) : Option (Nat × Pool α) :=
  match baseAlloc isz p with
  | none => none
  | some (index, p) =>
    match p.cells[index]? with
    | some (.live _) => none
    | some _ => some (index, { p with cells := p.cells.set index (.live x) })
    | none => none

/-- `Pool::delItem` (rt/container/Pool.h:392-399) with `BasePool::baseFree` (325-332). -/
def delItem (isz index : Nat) (p : Pool α) : Option (Pool α) :=
  match p.cells[index]? with
  | some (.live _) =>
    match writeLink isz (p.cells.set index .raw) index p.firstFree with
    | none => none
    | some cells =>
      if p.freeListSize < 2 ^ 31 - 1 then
        some { p with cells := cells, firstFree := index, sorted := false,
                      freeListSize := p.freeListSize + 1 }
      else none
  | _ => none

/-- `Pool::get` and reading the item (rt/container/Pool.h:403-413). -/
def get (index : Nat) (p : Pool α) : Option α :=
  match p.cells[index]? with
  | some (.live x) => some x
  | _ => none

/-- The loop collecting the free slots (rt/container/Pool.cpp:23-27); `room` is what is left of the
array allocated for them. -/
def collect (isz : Nat) (cells : List (Cell α)) : Nat → Nat → Option (List Nat)
  | room, freeIndex =>
    if freeIndex = noFree then some []
    else
      match room with
      | 0 => none
      | room + 1 =>
        match readLink isz cells freeIndex with
        | none => none
        | some next => (collect isz cells room next).map (freeIndex :: ·)

/-- Part of `sortNats`. -/
def insertNat (x : Nat) : List Nat → List Nat
  | [] => [x]
  | y :: ys => if x ≤ y then x :: y :: ys else y :: insertNat x ys

/-- `std::sort` on indices (rt/container/Pool.cpp:29).  The result of sorting integers does not depend
on the algorithm. -/
def sortNats : List Nat → List Nat
  | [] => []
  | x :: xs => insertNat x (sortNats xs)

/-- Linking the slots in the given order (rt/container/Pool.cpp:30-37). -/
def relink (isz : Nat) : List Nat → List (Cell α) → Option (List (Cell α))
  | [], cells => some cells
  | [last], cells => writeLink isz cells last noFree
  | prev :: next :: rest, cells =>
    match writeLink isz cells prev next with
    | none => none
    | some cells => relink isz (next :: rest) cells

/-- `BasePool::baseSortFreeList` (rt/container/Pool.cpp:12-40). -/
def sortFreeList (isz : Nat) (p : Pool α) : Option (Pool α) :=
  if p.sorted then some p
  else if p.firstFree = noFree then some p
  else
    match collect isz p.cells p.freeListSize p.firstFree with
    | none => none
    | some idx =>
      if idx.length = p.freeListSize then
        match sortNats idx with
        | [] => none
        | first :: rest =>
          (relink isz (first :: rest) p.cells).map fun cells =>
            { p with cells := cells, firstFree := first, sorted := true }
      else none

/-- The loop of `PoolIterator::operator++` (rt/container/Pool.h:499-505): skip free slots.  `fuel`
bounds the rounds (the model's own device). -/
def skipFree (cells : List (Cell α)) : Nat → Nat → Nat → Option (Nat × Nat)
  | 0, _, _ => none
  | fuel + 1, nextFree, index =>
    if index < cells.length then
      if index ≤ nextFree then
        if index < nextFree then some (nextFree, index)
        else
          match cells[index]? with
          | some (.free next) => skipFree cells fuel next (index + 1)
          | _ => none
      else none
    else some (nextFree, index)

/-- A range-for loop over the pool, from an iterator about to look at `index`
(rt/container/Pool.h:425-430, 491-518).  Gives the ids and items visited. -/
def visit (cells : List (Cell α)) : Nat → Nat → Nat → Option (List (Nat × α))
  | 0, _, _ => none
  | fuel + 1, nextFree, index =>
    match skipFree cells (cells.length + 1) nextFree index with
    | none => none
    | some (nextFree, index) =>
      if index < cells.length then
        match cells[index]? with
        | some (.live x) => (visit cells fuel nextFree (index + 1)).map ((index, x) :: ·)
        | _ => none
      else some []

/-- Iterating over the whole pool (rt/container/Pool.h:425-437). -/
def iterate (isz : Nat) (p : Pool α) : Option (List (Nat × α) × Pool α) :=
  match sortFreeList isz p with
  | none => none
  | some p => (visit p.cells (p.cells.length + 1) p.firstFree 0).map (·, p)

/-- The inner loop of `clear` (rt/container/Pool.h:360-363): destruct the items of the slots from
`item` up to `skip`; gives the items destructed. -/
def destructUpTo (cells : List (Cell α)) (item : Nat) : Nat → Option (List α)
  | 0 => some []
  | n + 1 =>
    match cells[item]? with
    | some (.live x) => (destructUpTo cells (item + 1) n).map (x :: ·)
    | _ => none

/-- The loop of `clear` (rt/container/Pool.h:358-368).  `fuel` bounds the rounds. -/
def clearLoop (cells : List (Cell α)) : Nat → Nat → Nat → Option (List α)
  | 0, _, _ => none
  | fuel + 1, item, skipIndex =>
    let skip := if skipIndex = noFree then cells.length else skipIndex
    match destructUpTo cells item (skip - item) with
    | none => none
    | some xs =>
      let item := max item skip
      if item = cells.length then some xs
      else
        match cells[skip]? with
        | some (.free next) => (clearLoop cells fuel (item + 1) next).map (xs ++ ·)
        | _ => none

/-- `Pool::clear` (rt/container/Pool.h:351-371) with `BasePool::baseClear` (334-342); also the
destructor (374-376).  Gives the items destructed. -/
def clear (isz : Nat) (p : Pool α) : Option (List α × Pool α) :=
  match sortFreeList isz p with
  | none => none
  | some p =>
    (clearLoop p.cells (p.cells.length + 1) 0 p.firstFree).map (·, Pool.empty)

end Verif.Pool
