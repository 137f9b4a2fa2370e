import Verif.Bits.Model
/-!
# The hash map

Models `HashMap` (rt/container/HashMap.h, HashMap.cpp), which keeps, for every cell, an 8-bit distance
to the first further cell of the bucket whose home it is, and one from the cell's own item to the next
of that item's bucket.

* The cells, held in groups of four, are one list.  Its length is a power of two, so `idx & m_sizeMask`
  is `idx % size`.
* `idx` is not reduced modulo 2^32: the size divides 2^32, so neither cells nor differences change.
* Items are pairs of a key and a value; `match` compares the key, `construct` stores the key and a
  fixed value (the caller assigns another).  There is no context.
* A failing assertion, undefined behaviour and an endless chain are `none`.
* `insertMulti`, `findNext` and `eraseAndAdvance` are not modelled.
-/
namespace Verif.HMap

/-- `EmptySlot` (rt/container/HashMap.h:19). -/
def emptySlot : Nat := 255

/-- `LinearSearchLimit` (rt/container/HashMap.h:18). -/
def searchLimit : Nat := 128

/-- One cell: its entries in `nextDelta`, `firstDelta`, `hashes` and the items
(rt/container/HashMap.h:145-149, 256-261). -/
structure Cell (K V : Type) where
  next : Nat
  first : Nat
  hash : Nat
  item : Option (K × V)
deriving DecidableEq

/-- `m_cellGroups`, `m_sizeMask`, `m_population` (rt/container/HashMap.h:152-154). -/
structure Table (K V : Type) where
  cells : List (Cell K V)
  pop : Nat
deriving DecidableEq

/-- What a map is made for: the hash function (`Traits::hash`) and the value of a new item. -/
structure Traits (K V : Type) where
  hash : K → Nat
  fresh : V

/-- `prevLink`: the `firstDelta` or the `nextDelta` of a cell (rt/container/HashMap.h:37). -/
inductive Link where
  | first (idx : Nat)
  | next (idx : Nat)
deriving DecidableEq

variable {K V : Type}

/-- The cell at `idx & m_sizeMask`. -/
def cell (cs : List (Cell K V)) (idx : Nat) : Option (Cell K V) := cs[idx % cs.length]?

/-- Writing it. -/
def setCell (cs : List (Cell K V)) (idx : Nat) (c : Cell K V) : List (Cell K V) :=
  cs.set (idx % cs.length) c

/-- The cell a link belongs to. -/
def Link.owner : Link → Nat
  | .first i => i
  | .next i => i

/-- `*prevLink`. -/
def readLink (cs : List (Cell K V)) : Link → Option Nat
  | .first i => (cell cs i).map (·.first)
  | .next i => (cell cs i).map (·.next)

/-- `*prevLink = v`, eight bits wide. -/
def writeLink (cs : List (Cell K V)) (l : Link) (v : Nat) : Option (List (Cell K V)) :=
  match l with
  | .first i => (cell cs i).map fun c => setCell cs i { c with first := v % 256 }
  | .next i => (cell cs i).map fun c => setCell cs i { c with next := v % 256 }

/-- rt/container/HashMap.cpp:45-56, `createTable`. -/
def createTable (size : Nat) : Option (List (Cell K V)) :=
  if size ≥ 4 ∧ Bits.isPowerOf2 32 size then some (List.replicate size ⟨emptySlot, 0, 0, none⟩)
  else none

/-- Where following a chain ends. -/
inductive ChainEnd where
  | found (idx : Nat) (link : Link)
  | last (idx : Nat) (link : Link)

/-- rt/container/HashMap.cpp:160-177, the loop along the chain of a bucket.  A chain of more links than
there are cells never ends. -/
def chain [DecidableEq K] (cs : List (Cell K V)) (key : K) (h : Nat) :
    Nat → Nat → Link → Option ChainEnd
  | 0, _, _ => none
  | fuel + 1, idx, link =>
    match readLink cs link with
    | none => none
    | some delta =>
      if delta = 0 then some (.last idx link)
      else
        match cell cs (idx + delta) with
        | none => none
        | some c =>
          if c.next = emptySlot then none
          else if c.hash = h then
            match c.item with
            | none => none
            | some it =>
              if it.1 = key then some (.found (idx + delta) link)
              else chain cs key h fuel (idx + delta) (.next (idx + delta))
          else chain cs key h fuel (idx + delta) (.next (idx + delta))

/-- rt/container/HashMap.cpp:190-207 and 245-262, linear probing; `some none` is no free cell. -/
def probe (cs : List (Cell K V)) (h : Nat) : Nat → Nat → Option (Option Nat)
  | 0, _ => some none
  | n + 1, idx =>
    match cell cs (idx + 1) with
    | none => none
    | some c =>
      if c.next = emptySlot then some (some (idx + 1))
      else if c.hash = h then none
      else probe cs h n (idx + 1)

/-- Putting an item into an empty cell (rt/container/HashMap.cpp:146-149, 195-201). -/
def place (cs : List (Cell K V)) (idx h : Nat) (it : K × V) : Option (List (Cell K V)) :=
  match cell cs idx with
  | none => none
  | some c => some (setCell cs idx { c with next := 0, hash := h, item := some it })

/-- `FindResult` with the `FindInfo` (rt/container/HashMap.h:27-39). -/
inductive Result where
  | notFound
  | found (idx : Nat) (link : Option Link)
  | inserted (idx : Nat)
  | overflow
deriving DecidableEq

/-- rt/container/HashMap.cpp:127-212, `insertOrFind`, with `AllowFind` and perhaps `AllowInsert`. -/
def insertOrFind [DecidableEq K] (T : Traits K V) (cs : List (Cell K V)) (key : K) (ins : Bool) :
    Option (Result × List (Cell K V)) :=
  let h := T.hash key
  match cell cs h with
  | none => none
  | some c =>
    if ins = true ∧ c.next = emptySlot ∧ c.first = 0 then
      (place cs h h (key, T.fresh)).map fun cs' => (.inserted h, cs')
    else
      let follow : Option (Result × List (Cell K V)) :=
        match chain cs key h (cs.length + 1) h (.first h) with
        | none => none
        | some (.found idx link) => some (.found idx (some link), cs)
        | some (.last idx link) =>
          if ins = false then some (.notFound, cs)
          else if idx - h ≤ cs.length - 1 then
            match probe cs h (min (cs.length - 1 - (idx - h)) searchLimit) idx with
            | none => none
            | some none => some (.overflow, cs)
            | some (some idx') =>
              match place cs idx' h (key, T.fresh) with
              | none => none
              | some cs' => (writeLink cs' link (idx' - idx)).map fun cs'' => (.inserted idx', cs'')
          else none
      if c.next ≠ emptySlot ∧ c.hash = h then
        match c.item with
        | none => none
        | some it => if it.1 = key then some (.found h none, cs) else follow
      else follow

/-- rt/container/HashMap.cpp:231-240, the chain during migration: its end. -/
def chainEnd (cs : List (Cell K V)) : Nat → Nat → Link → Option (Nat × Link)
  | 0, _, _ => none
  | fuel + 1, idx, link =>
    match readLink cs link with
    | none => none
    | some delta =>
      if delta = 0 then some (idx, link)
      else
        match cell cs (idx + delta) with
        | none => none
        | some c =>
          if c.next = emptySlot then none
          else chainEnd cs fuel (idx + delta) (.next (idx + delta))

/-- rt/container/HashMap.cpp:214-270, `insertForMigration`, and the move of the item (line 86). -/
def insertForMigration (cs : List (Cell K V)) (h : Nat) (it : K × V) : Option (List (Cell K V)) :=
  match cell cs h with
  | none => none
  | some c =>
    if c.next = emptySlot then
      if c.first = 0 then place cs h h it else none
    else
      match chainEnd cs (cs.length + 1) h (.first h) with
      | none => none
      | some (idx, link) =>
        match probe cs h (min (cs.length - 1) searchLimit) idx with
        | none => none
        | some none => none
        | some (some idx') =>
          match place cs idx' h it with
          | none => none
          | some cs' => writeLink cs' link (idx' - idx)

/-- The loop of rt/container/HashMap.cpp:79-90. -/
def migrateCells (src : List (Cell K V)) (dst : List (Cell K V)) : Option (List (Cell K V)) :=
  match src with
  | [] => some dst
  | c :: rest =>
    if c.next = emptySlot then migrateCells rest dst
    else
      match c.item with
      | none => none
      | some it =>
        match insertForMigration dst c.hash it with
        | none => none
        | some dst' => migrateCells rest dst'

/-- rt/container/HashMap.cpp:73, the size of the new table. -/
def migrateSize (pop : Nat) : Nat := max 4 (Bits.roundUpPowerOf2_32 (u32 (pop * 2)))

/-- rt/container/HashMap.cpp:72-92, `migrateToNewTable`. -/
def migrate (t : Table K V) : Option (Table K V) :=
  (createTable (migrateSize t.pop)).bind fun dst =>
    (migrateCells t.cells dst).map fun cs => ⟨cs, t.pop⟩

/-- rt/container/HashMap.cpp:332-347, `constructFindWithInsert`: at most `fuel` rounds of its loop. -/
def findWithInsert [DecidableEq K] (T : Traits K V) (key : K) :
    Nat → Table K V → Option (Result × Table K V)
  | 0, _ => none
  | fuel + 1, t =>
    match insertOrFind T t.cells key true with
    | none => none
    | some (.overflow, cs) => (migrate ⟨cs, t.pop⟩).bind fun t' => findWithInsert T key fuel t'
    | some (.inserted idx, cs) => some (.inserted idx, ⟨cs, t.pop + 1⟩)
    | some (r, cs) => some (r, ⟨cs, t.pop⟩)

/-- rt/container/HashMap.cpp:272-327, `erase` of the item at `idx`.  Shuffling the next item into the
cell (lines 315-322) goes through `nextGroup`, which line 302 computes without the size of the items:
undefined behaviour, so `none` (it would be right for the very first group). -/
def eraseCells (cs : List (Cell K V)) (idx : Nat) (link : Option Link) : Option (List (Cell K V)) :=
  match cell cs idx with
  | none => none
  | some c =>
    let cleared := setCell cs idx { c with next := emptySlot, item := none }
    match link with
    | none => if c.next = 0 then some cleared else none
    | some l =>
      match readLink cs l with
      | none => none
      | some d =>
        if d = 0 then none
        else if d > idx ∨ l.owner % cs.length ≠ (idx - d) % cs.length then none
        else if c.next = 0 then writeLink cleared l 0
        else
          let nextIdx := idx + c.next
          let prevIdx := idx - d
          if nextIdx - prevIdx < 256 then writeLink cleared l (nextIdx - prevIdx) else none

/-- rt/container/HashMap.h:337-342, `Cursor::erase`. -/
def erase (t : Table K V) (idx : Nat) (link : Option Link) : Option (Table K V) :=
  match eraseCells t.cells idx link with
  | none => none
  | some cs => if t.pop > 0 then some ⟨cs, t.pop - 1⟩ else none

/-- The item a cursor is at (rt/container/HashMap.h:329-336). -/
def getItem (cs : List (Cell K V)) (idx : Nat) : Option (K × V) :=
  match cell cs idx with
  | none => none
  | some c => c.item

/-- Assigning its value. -/
def setValue (cs : List (Cell K V)) (idx : Nat) (v : V) : Option (List (Cell K V)) :=
  match cell cs idx with
  | none => none
  | some c =>
    match c.item with
    | none => none
    | some it => some (setCell cs idx { c with item := some (it.1, v) })

/-- rt/container/HashMap.h:470-480, `Iterator::next`, from `idx` on (`begin` starts it at 0, lines
589-596): the next cell in use, or the size. -/
def nextUsed (cs : List (Cell K V)) (idx : Nat) : Nat :=
  match h : cs[idx]? with
  | none => cs.length
  | some c => if c.next ≠ emptySlot then idx else nextUsed cs (idx + 1)
termination_by cs.length - idx
decreasing_by have := (List.getElem?_eq_some_iff.1 h).1; omega

theorem le_nextUsed (cs : List (Cell K V)) (idx : Nat) (h : idx ≤ cs.length) : idx ≤ nextUsed cs idx := by
  rw [nextUsed]
  split
  · exact h
  · next hc =>
    split
    · exact Nat.le_refl _
    · have := (List.getElem?_eq_some_iff.1 hc).1
      have := le_nextUsed cs (idx + 1) this
      omega
termination_by cs.length - idx

/-- `for (Item& item : map)` (rt/container/HashMap.h:448-611): the items seen, from cell `idx` on. -/
def iterate (cs : List (Cell K V)) (idx : Nat) : Option (List (K × V)) :=
  if hi : idx < cs.length then
    let i := nextUsed cs idx
    if i < cs.length then
      match getItem cs i with
      | none => none
      | some it => (iterate cs (i + 1)).map (it :: ·)
    else some []
  else some []
termination_by cs.length - idx
decreasing_by have := le_nextUsed cs idx (by omega); omega

end Verif.HMap
