/-!
# Sequences of items in linked blocks — model

repos/plywood/src/runtime/ply-runtime/container/ (here `rt/container/`): Sequence.h, Sequence.cpp,
BlockList.h, BlockList.cpp.

Items have the type `α` and the size `sz` in bytes.  A block holds whole items only, so an address in a
block is given by the number of items before it (`sz` times this number is the offset in bytes).
`startOffset` is always 0: only input streams change it.  Every block of a sequence is referenced exactly
once, by the sequence or by the block before it, so there are no reference counts here.  Blocks are named by
numbers in the order they were allocated; a name that is not in the heap is a block that was freed.
`none` = an assertion fails, or memory is used that was freed.
-/
namespace Verif.Seq

/-- `BlockList::Footer`, rt/container/BlockList.h:24-68, with the items in its used bytes. -/
structure Block (α : Type) where
  cap : Nat
  items : List α := []
  next : Option Nat := none
  prev : Option Nat := none
  fileOffset : Nat := 0
  deriving DecidableEq, Repr

/-- The blocks that are allocated. -/
def Heap (α : Type) := Nat → Option (Block α)

/-- The heap with another block at one place (`none`: freed), rt/container/BlockList.cpp:15-30, 47-57. -/
def Heap.set {α : Type} (h : Heap α) (i : Nat) (b : Option (Block α)) : Heap α :=
  fun j => if j = i then b else h j

/-- `Sequence`, rt/container/Sequence.h:118-119, with the heap, the next name for a block and the items whose
destructors have been called. -/
structure St (α : Type) where
  heap : Heap α
  fresh : Nat
  head : Option Nat
  tail : Nat
  dead : List α := []

/-- `WeakSequenceRef`, rt/container/Sequence.h:27-30: the block and the item. -/
structure Cur where
  block : Nat
  idx : Nat
  deriving DecidableEq, Repr

variable {α : Type}

/-- `BlockList::DefaultBlockSize`, rt/container/BlockList.h:16. -/
def defaultBlockSize : Nat := 2048

/-- `viewUsedBytes().numBytes`, rt/container/BlockList.h:58-60. -/
def Block.used (sz : Nat) (b : Block α) : Nat := sz * b.items.length

/-- `viewUnusedBytes().numBytes`, rt/container/BlockList.h:61-63. -/
def Block.unused (sz : Nat) (b : Block α) : Nat := b.cap - b.used sz

/-- `Sequence()`, rt/container/Sequence.h:128-129; the heap is empty before. -/
def create : St α :=
  { heap := Heap.set (fun _ => none) 0 (some { cap := defaultBlockSize }), fresh := 1, head := some 0, tail := 0 }

/-- `BlockList::appendBlock` with `createBlock`, rt/container/BlockList.cpp:47-57, 67-74, to the tail, and the
assignment to `tailBlock` in `beginWriteInternal`, rt/container/Sequence.cpp:26-29. -/
def appendBlock (sz : Nat) (s : St α) (numBytes : Nat) : Option (St α) :=
  match s.heap s.tail with
  | none => none
  | some b =>
    if b.next.isSome = true ∨ numBytes ≤ 100 then none
    else
      some { s with
        heap := (s.heap.set s.tail (some { b with next := some s.fresh })).set s.fresh
          (some { cap := numBytes, prev := some s.tail, fileOffset := b.fileOffset + b.used sz })
        fresh := s.fresh + 1
        tail := s.fresh }

/-- `beginWriteNoConstruct` and `beginWriteViewNoConstruct`, rt/container/Sequence.h:199-220: the number of
items that can be written. -/
def beginWrite (sz : Nat) (s : St α) : Option (St α × Nat) :=
  match s.heap s.tail with
  | none => none
  | some b =>
    if b.unused sz < sz then
      match appendBlock sz s (max defaultBlockSize sz) with
      | none => none
      | some s' =>
        match s'.heap s'.tail with
        | none => none
        | some b' => some (s', b'.unused sz / sz)
    else some (s, b.unused sz / sz)

/-- `endWrite`, rt/container/Sequence.h:226-229, where the given items have been constructed. -/
def endWrite (sz : Nat) (s : St α) (xs : List α) : Option (St α) :=
  match s.heap s.tail with
  | none => none
  | some b =>
    if sz * xs.length ≤ b.unused sz then
      some { s with heap := s.heap.set s.tail (some { b with items := b.items ++ xs }) }
    else none

/-- `append`, rt/container/Sequence.h:240-258: also the address of the item. -/
def append (sz : Nat) (s : St α) (x : α) : Option (St α × Cur) :=
  match beginWrite sz s with
  | none => none
  | some (s', _) =>
    match s'.heap s'.tail with
    | none => none
    | some b =>
      match endWrite sz s' [x] with
      | none => none
      | some s'' => some (s'', ⟨s'.tail, b.items.length⟩)

/-- Writing many items as in the comment at rt/container/Sequence.h:193-197: as many as the view has space
for, until all are written.  `fuel` is the number of items or more. -/
def writeAll (sz : Nat) : (fuel : Nat) → St α → List α → Option (St α)
  | _, s, [] => some s
  | 0, _, _ :: _ => none
  | fuel + 1, s, x :: xs =>
    match beginWrite sz s with
    | none => none
    | some (s', n) =>
      match endWrite sz s' ((x :: xs).take n) with
      | none => none
      | some s'' => writeAll sz fuel s'' ((x :: xs).drop n)

/-- `Footer::onRefCountZero`, rt/container/BlockList.cpp:15-30: the block and those behind it are freed.
`fuel` is the number of blocks or more. -/
def freeChain : (fuel : Nat) → Heap α → Option Nat → Option (Heap α)
  | _, h, none => some h
  | 0, _, some _ => none
  | fuel + 1, h, some i =>
    match h i with
    | none => none
    | some b =>
      match b.next with
      | none => some (h.set i none)
      | some n =>
        match (h.set i none) n with
        | none => none
        | some nb => freeChain fuel ((h.set i none).set n (some { nb with prev := none })) (some n)

/-- `nextBlock.clear()` of the given block, rt/container/Sequence.cpp:48, 59. -/
def clearNext (s : St α) (i : Nat) : Option (St α) :=
  match s.heap i with
  | none => none
  | some b =>
    match freeChain (s.fresh + 1) s.heap b.next with
    | none => none
    | some h =>
      match h i with
      | none => none
      | some b' => some { s with heap := h.set i (some { b' with next := none }) }

/-- The loop of `popTail`, rt/container/Sequence.cpp:31-50, where `i` is `block` and `n` the items still to be
popped.  `fuel` is the number of items or more. -/
def popLoop (sz : Nat) : (fuel : Nat) → St α → (i : Nat) → (n : Nat) → Option (St α)
  | _, s, _, 0 => some s
  | 0, _, _, _ + 1 => none
  | fuel + 1, s, i, n + 1 =>
    match s.heap i with
    | none => none
    | some b =>
      let k := min (n + 1) b.items.length
      if k = 0 then none
      else
        let s1 : St α := { s with
          heap := s.heap.set i (some { b with items := b.items.take (b.items.length - k) })
          dead := s.dead ++ b.items.drop (b.items.length - k) }
        if b.items.length - k > 0 then (if n + 1 - k = 0 then some s1 else none)
        else
          match b.prev with
          | none => some s1
          | some p =>
            match clearNext { s1 with tail := p } p with
            | none => none
            | some s2 => popLoop sz fuel s2 p (n + 1 - k)

/-- `popTail`, rt/container/Sequence.h:266-268.  The number of bytes is an `u32`; `none` also if it is
greater. -/
def popTail (sz : Nat) (s : St α) (n : Nat) : Option (St α) :=
  if 2 ^ 32 ≤ n * sz then none else popLoop sz n s s.tail n

/-- `truncate`, rt/container/Sequence.cpp:52-60. -/
def truncate (s : St α) (c : Cur) : Option (St α) :=
  match s.heap c.block with
  | none => none
  | some b =>
    if c.idx = 0 ∧ b.prev.isSome = true then
      match b.prev with
      | none => none
      | some p => clearNext { s with tail := p } p
    else if b.items.length < c.idx then none
    else
      clearNext { s with
        heap := s.heap.set c.block (some { b with items := b.items.take c.idx }), tail := c.block } c.block

/-- `destructSequence`, rt/container/Sequence.cpp:11-24.  `fuel` is the number of blocks or more. -/
def destructLoop : (fuel : Nat) → Heap α → List α → Option Nat → Option (Heap α × List α)
  | _, h, dead, none => some (h, dead)
  | 0, _, _, some _ => none
  | fuel + 1, h, dead, some i =>
    match h i with
    | none => none
    | some b => destructLoop fuel (h.set i none) (dead ++ b.items) b.next

/-- `~Sequence()`, rt/container/Sequence.h:143-145. -/
def destruct (s : St α) : Option (St α) :=
  match destructLoop s.fresh s.heap s.dead s.head with
  | none => none
  | some (h, dead) => some { s with heap := h, dead := dead, head := none }

/-- `clear`, rt/container/Sequence.h:277-279, and the move assignment, rt/container/Sequence.h:154-157: a new
sequence is created, the items are destructed, and the new sequence is moved here. -/
def clear (s : St α) : Option (St α) :=
  match destructLoop s.fresh (s.heap.set s.fresh (some { cap := defaultBlockSize })) s.dead s.head with
  | none => none
  | some (h, dead) =>
    some { heap := h, fresh := s.fresh + 1, head := some s.fresh, tail := s.fresh, dead := dead }

/-- `head`, rt/container/Sequence.h:163-167. -/
def headItem (s : St α) : Option α :=
  match s.head with
  | none => none
  | some i =>
    match s.heap i with
    | none => none
    | some b => b.items.head?

/-- `tail`, rt/container/Sequence.h:168-172. -/
def tailItem (s : St α) : Option α :=
  match s.heap s.tail with
  | none => none
  | some b => b.items.getLast?

/-- `isEmpty`, rt/container/Sequence.h:178-181. -/
def isEmpty (s : St α) : Option Bool :=
  match s.head with
  | none => none
  | some i =>
    match s.heap i with
    | none => none
    | some b => some b.items.isEmpty

/-- `getTotalNumBytes`, rt/container/Sequence.cpp:62-69, without the reduction to 32 bits.  `fuel` is the
number of blocks or more. -/
def totalLoop (sz : Nat) : (fuel : Nat) → Heap α → Option Nat → Option Nat
  | _, _, none => some 0
  | 0, _, some _ => none
  | fuel + 1, h, some i =>
    match h i with
    | none => none
    | some b =>
      match totalLoop sz fuel h b.next with
      | none => none
      | some n => some (b.used sz + n)

/-- `numItems`, rt/container/Sequence.h:182-185: the sum is an `u32`. -/
def numItems (sz : Nat) (s : St α) : Option Nat :=
  match totalLoop sz s.fresh s.heap s.head with
  | none => none
  | some n => some (n % 2 ^ 32 / sz)

/-- `begin`, rt/container/Sequence.h:309-311. -/
def begin (s : St α) : Option Cur := s.head.map fun i => ⟨i, 0⟩

/-- `end`, rt/container/Sequence.h:312-314. -/
def «end» (s : St α) : Option Cur :=
  match s.heap s.tail with
  | none => none
  | some b => some ⟨s.tail, b.items.length⟩

/-- `operator*` and `operator->`, rt/container/Sequence.h:59-68. -/
def deref (s : St α) (c : Cur) : Option α :=
  match s.heap c.block with
  | none => none
  | some b => b.items[c.idx]?

/-- `BlockList::jumpToNextBlock`, rt/container/BlockList.cpp:93-100, with what is available there; the
assertion assigns `unused()` to the pointer, which is there already. -/
def jumpNext (s : St α) (b : Block α) (c : Cur) : Option Cur :=
  match b.next with
  | none => some c
  | some n =>
    match s.heap n with
    | none => none
    | some _ => some ⟨n, 0⟩

/-- `operator++`, rt/container/Sequence.h:69-82. -/
def inc (s : St α) (c : Cur) : Option Cur :=
  match s.heap c.block with
  | none => none
  | some b =>
    if c.idx < b.items.length then
      if c.idx + 1 = b.items.length then jumpNext s b ⟨c.block, c.idx + 1⟩ else some ⟨c.block, c.idx + 1⟩
    else none

/-- `operator--`, rt/container/Sequence.h:83-91, with `jumpToPrevBlock`, rt/container/BlockList.cpp:102-109. -/
def dec (s : St α) (c : Cur) : Option Cur :=
  match s.heap c.block with
  | none => none
  | some b =>
    if c.idx = 0 then
      match b.prev with
      | none => none
      | some p =>
        match s.heap p with
        | none => none
        | some pb => if pb.items.length = 0 then none else some ⟨p, pb.items.length - 1⟩
    else some ⟨c.block, c.idx - 1⟩

/-- `read`, rt/container/Sequence.h:98-100 and Sequence.cpp:71-86. -/
def read (s : St α) (c : Cur) : Option (α × Cur) :=
  match s.heap c.block with
  | none => none
  | some b =>
    match b.items[c.idx]? with
    | none => none
    | some x =>
      if c.idx + 1 = b.items.length then
        match jumpNext s b ⟨c.block, c.idx + 1⟩ with
        | none => none
        | some c' => some (x, c')
      else some (x, ⟨c.block, c.idx + 1⟩)

/-- `beginRead`, rt/container/Sequence.h:40-49: where the view starts, and its items. -/
def beginRead (s : St α) (c : Cur) : Option (Cur × List α) :=
  match s.heap c.block with
  | none => none
  | some b =>
    if b.items.length = c.idx then
      match b.next with
      | none => some (c, [])
      | some n =>
        match s.heap n with
        | none => none
        | some nb => some (⟨n, 0⟩, nb.items)
    else if b.items.length < c.idx then none
    else some (c, b.items.drop c.idx)

/-- `endRead`, rt/container/Sequence.h:50-53. -/
def endRead (s : St α) (c : Cur) (n : Nat) : Option Cur :=
  match s.heap c.block with
  | none => none
  | some b => if c.idx + n ≤ b.items.length then some ⟨c.block, c.idx + n⟩ else none

/-- `normalized`, rt/container/Sequence.h:54-56 and BlockList.h:94-99.  The constructor of `WeakRef`
(BlockList.h:81-83) asserts that the address lies in the block; the address passed to it is the start of the
first block, which does not lie in the next one. -/
def normalized (s : St α) (c : Cur) : Option Cur :=
  match s.heap c.block with
  | none => none
  | some b =>
    match b.next with
    | none => some c
    | some _ => if c.idx = b.items.length then none else some c

/-- The loop of a range-for, `for (x : seq)`: `operator!=` compares addresses (rt/container/Sequence.h:92-94),
and addresses in different blocks are different. -/
def collect : (fuel : Nat) → St α → Cur → Cur → Option (List α)
  | 0, _, _, _ => none
  | fuel + 1, s, c, e =>
    if c = e then some []
    else
      match deref s c with
      | none => none
      | some x =>
        match inc s c with
        | none => none
        | some c' =>
          match collect fuel s c' e with
          | none => none
          | some xs => some (x :: xs)

/-- The same backwards: from `e` down to `b` with `operator--`. -/
def collectBack : (fuel : Nat) → St α → Cur → Cur → Option (List α)
  | 0, _, _, _ => none
  | fuel + 1, s, b, e =>
    if e = b then some []
    else
      match dec s e with
      | none => none
      | some e' =>
        match deref s e' with
        | none => none
        | some x =>
          match collectBack fuel s b e' with
          | none => none
          | some xs => some (x :: xs)

/-- Reading with `beginRead` and `endRead` until nothing is available. -/
def collectViews : (fuel : Nat) → St α → Cur → Option (List α)
  | 0, _, _ => none
  | fuel + 1, s, c =>
    match beginRead s c with
    | none => none
    | some (_, []) => some []
    | some (c', x :: xs) =>
      match endRead s c' (x :: xs).length with
      | none => none
      | some c'' =>
        match collectViews fuel s c'' with
        | none => none
        | some ys => some (x :: xs ++ ys)

/-- The views visited by `iterateOverViews` from the start of a block, rt/container/BlockList.h:142-168 with
`weakRefToNext`, rt/container/BlockList.cpp:32-42: the items of all blocks.  `ofs` is the offset in bytes in
the block.  `fuel` is the number of blocks or more. -/
def viewsLoop (sz : Nat) : (fuel : Nat) → Heap α → Nat → (ofs : Nat) → Option (List α)
  | 0, _, _, _ => none
  | fuel + 1, h, i, ofs =>
    match h i with
    | none => none
    | some b =>
      if ofs % sz ≠ 0 then none
      else
        match b.next with
        | none => some (b.items.drop (ofs / sz))
        | some n =>
          match h n with
          | none => none
          | some nb =>
            let delta := nb.fileOffset - b.fileOffset
            if nb.fileOffset < b.fileOffset ∨ 2 ^ 32 ≤ delta ∨ b.used sz < delta ∨
                nb.used sz < b.used sz - delta then none
            else
              match viewsLoop sz fuel h n (b.used sz - delta) with
              | none => none
              | some xs => some (b.items.drop (ofs / sz) ++ xs)

/-- `moveToArray`, rt/container/Sequence.h:292-297, with `BlockList::toString`,
rt/container/BlockList.cpp:111-141: the items of the array, and the sequence afterwards. -/
def moveToArray (sz : Nat) (s : St α) : Option (List α × St α) :=
  match s.head with
  | none => none
  | some i =>
    match s.heap i with
    | none => none
    | some b =>
      match b.next with
      | none => some (b.items, { s with heap := s.heap.set i none, head := none })
      | some _ =>
        match viewsLoop sz (s.fresh + 1) s.heap i 0 with
        | none => none
        | some xs =>
          if 2 ^ 32 ≤ sz * xs.length then none
          else
            match freeChain (s.fresh + 1) s.heap (some i) with
            | none => none
            | some h => some (xs.take (sz * xs.length / sz), { s with heap := h, head := none })

/-- What a program does with a sequence: `pop` is `popTail`, `truncate` is `truncate` at the position that many
items behind the start, `write` is `writeAll`. -/
inductive Op (α : Type) where
  | append (x : α)
  | write (xs : List α)
  | pop (n : Nat)
  | truncate (k : Nat)
  | clear
  deriving DecidableEq, Repr

/-- A position some items behind another: `operator++`, many times. -/
def advance (s : St α) : (k : Nat) → Cur → Option Cur
  | 0, c => some c
  | k + 1, c =>
    match inc s c with
    | none => none
    | some c' => advance s k c'

/-- One operation. -/
def doOp (sz : Nat) (s : St α) : Op α → Option (St α)
  | .append x => (append sz s x).map (·.1)
  | .write xs => writeAll sz xs.length s xs
  | .pop n => popTail sz s n
  | .truncate k =>
    match begin s with
    | none => none
    | some c =>
      match advance s k c with
      | none => none
      | some c' => truncate s c'
  | .clear => clear s

/-- Many operations. -/
def run (sz : Nat) : List (Op α) → St α → Option (St α)
  | [], s => some s
  | o :: os, s =>
    match doOp sz s o with
    | none => none
    | some s' => run sz os s'

end Verif.Seq
