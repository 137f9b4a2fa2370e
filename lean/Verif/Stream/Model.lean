import Verif.Basic
/-!
# Pipes, buffered streams and the newline filter

Models `rt/io/Pipe.cpp`, `rt/io/impl/Pipe_FD.cpp`, `rt/io/InStream.{h,cpp}`,
`rt/io/OutStream.{h,cpp}`, the parts of `rt/container/BlockList.{h,cpp}` they use and
`rt/io/text/NewLineFilter.cpp`.

A failed `PLY_ASSERT`, an out-of-bounds access or a null dereference is the outcome `none`.
Reference counting is not modelled: blocks are kept forever.  `BlockList::appendBlockWithRecycle`
(rt/container/BlockList.cpp:78-93) reuses a block only when nothing else refers to it, so keeping
it is unobservable.
-/
namespace Verif.Stream
open Verif

/-! ## File descriptor pipes -/

/-- Result of one `::write` call: `sent k` returns `k`, `failed` a negative number
(rt/io/impl/Pipe_FD.cpp:68). -/
inductive OsWrite where
  | sent (k : Nat)
  | failed
deriving DecidableEq, Repr

/-- What becomes of a call that talks to the operating system: it returns, it waits for ever
(script used up), or an assertion fails. `delivered` is what the descriptor has received. -/
inductive WriteOutcome where
  | returned (ok : Bool) (delivered : List Byte)
  | blocked (delivered : List Byte)
  | assertion
deriving DecidableEq, Repr

/-- Bytes already handed over are put in front of the later ones (bookkeeping of the model). -/
def WriteOutcome.after (sent : List Byte) : WriteOutcome → WriteOutcome
  | .returned ok d => .returned ok (sent ++ d)
  | .blocked d => .blocked (sent ++ d)
  | .assertion => .assertion

/-- `OutPipe_FD_write` (rt/io/impl/Pipe_FD.cpp:64-76) against a script of system call results. -/
def fdWrite : List OsWrite → List Byte → WriteOutcome
  | _, [] => .returned true []
  | [], _ :: _ => .blocked []
  | .failed :: _, _ :: _ => .returned false []
  | .sent k :: os, b :: bs =>
    if k = 0 then .returned false []
    else if k > (b :: bs).length then .assertion
    else (fdWrite os ((b :: bs).drop k)).after ((b :: bs).take k)

/-- Result of one `::read` call: interrupted, another error, or some bytes (none: end of file)
(rt/io/impl/Pipe_FD.cpp:27-29). -/
inductive OsRead where
  | eintr
  | failed
  | data (bytes : List Byte)
deriving DecidableEq, Repr

/-- `InPipe_FD_readSome` (rt/io/impl/Pipe_FD.cpp:22-34): the bytes read and the rest of the script;
`none` if the assertion at line 30 fails or the script is used up. -/
def fdReadSome : List OsRead → Option (List Byte × List OsRead)
  | [] => none
  | .eintr :: os => fdReadSome os
  | .failed :: _ => none
  | .data bs :: os => some (bs, os)

theorem fdReadSome_length {os : List OsRead} {bs : List Byte} {os' : List OsRead}
    (h : fdReadSome os = some (bs, os')) : os'.length < os.length := by
  induction os with
  | nil => simp [fdReadSome] at h
  | cons o os ih =>
    cases o with
    | eintr =>
      have := ih (by simpa [fdReadSome] using h)
      simp only [List.length_cons]; omega
    | failed => simp [fdReadSome] at h
    | data b =>
      simp only [fdReadSome, Option.some.injEq, Prod.mk.injEq] at h
      rw [← h.2]; simp

/-- `InPipe::read` (rt/io/Pipe.cpp:10-19) on a file descriptor pipe: whether the buffer of `n`
bytes was filled, and the bytes stored in it; `none` on an assertion or an exhausted script. -/
def pipeRead (os : List OsRead) (n : Nat) : Option (Bool × List Byte) :=
  if n = 0 then some (true, [])
  else
    match h : fdReadSome os with
    | none => none
    | some (bs, os') =>
      if bs.length = 0 then some (false, [])
      else if bs.length > n then none
      else
        match pipeRead os' (n - bs.length) with
        | none => none
        | some (ok, rest) => some (ok, bs ++ rest)
termination_by os.length
decreasing_by exact fdReadSome_length h

/-! ## Input streams -/

/-- What a pipe will still deliver, cut into the pieces it will deliver it in.  An empty piece is a
`readSome` call that returns 0 although more may follow. -/
abbrev Source := List (List Byte)

/-- `InPipe::readSome` (rt/io/Pipe.h:59-66) with room for `cap` bytes. -/
def readSome (cap : Nat) : Source → List Byte × Source
  | [] => ([], [])
  | c :: cs => if c.length ≤ cap then (c, cs) else (c.take cap, c.drop cap :: cs)

/-- `BlockList::Footer` (rt/container/BlockList.h:26-34): `used` are the first `numBytesUsed`
bytes; `startOffset` is always 0 for the blocks of a stream. -/
structure Block where
  size : Nat
  used : List Byte
  fileOffset : Nat
deriving DecidableEq, Repr

/-- An `InStream` of type `Pipe` (rt/io/InStream.h:44-76): `prev ++ blk :: next` is the block list,
`curByte` points at offset `cur` of `blk`, `endByte` at the end of `blk.used`. -/
structure InS where
  src : Source
  blockSize : Nat
  prev : List Block
  blk : Block
  next : List Block
  cur : Nat
  eof : Bool
deriving DecidableEq, Repr

/-- The constructor (rt/io/InStream.cpp:27-37). -/
def InS.init (blockSize : Nat) (src : Source) : InS :=
  ⟨src, blockSize, [], ⟨blockSize, [], 0⟩, [], 0, false⟩

/-- Bytes between `curByte` and `endByte` (rt/io/InStream.h:147-156). -/
def InS.avail (s : InS) : List Byte := s.blk.used.drop s.cur

/-- First loop of `tryMakeBytesAvailableInternal` (rt/io/InStream.cpp:68-120): move to a block with
room for `n` bytes.  Simplified: where the code would build an overlay block (lines 81-95, a request
of two or more bytes that spans two blocks of the list after a rewind) the model gives up. -/
def seekBlock (n : Nat) (s : InS) : Option InS :=
  if n ≤ s.blk.used.length - s.cur then some s
  else
    match h : s.next with
    | b :: bs =>
      if s.blk.used.length - s.cur > 0 then none
      else
        let ofs := s.blk.used.length - (b.fileOffset - s.blk.fileOffset)
        if ofs ≤ b.used.length then
          seekBlock n { s with prev := s.prev ++ [s.blk], blk := b, next := bs, cur := ofs }
        else none
    | [] =>
      if s.blk.size - s.cur < n then
        some { s with
          prev := s.prev ++ [s.blk]
          blk := ⟨max n s.blockSize, [], s.blk.fileOffset + s.blk.used.length⟩
          cur := 0 }
      else some s
termination_by s.next.length
decreasing_by simp [h]

theorem readSome_flatten (cap : Nat) (src : Source) :
    (readSome cap src).1 ++ (readSome cap src).2.flatten = src.flatten := by
  cases src with
  | nil => rfl
  | cons c cs =>
    simp only [readSome]
    split
    · rfl
    · simp only [List.flatten_cons]
      rw [← List.append_assoc, List.take_append_drop]

/-- Second loop of `tryMakeBytesAvailableInternal` (rt/io/InStream.cpp:122-143): read from the pipe
until `n` bytes are available or the pipe returns nothing. -/
def fill (n : Nat) (s : InS) : InS :=
  if s.blk.used.length - s.cur ≥ n then s
  else
    let r := readSome (s.blk.size - s.blk.used.length) s.src
    if h : r.1 = [] then { s with src := r.2, eof := true }
    else fill n { s with src := r.2, blk := { s.blk with used := s.blk.used ++ r.1 } }
termination_by s.src.flatten.length
decreasing_by
  have := congrArg List.length (readSome_flatten (s.blk.size - s.blk.used.length) s.src)
  rw [List.length_append] at this
  have h1 : (readSome (s.blk.size - s.blk.used.length) s.src).1.length ≠ 0 := by
    intro h2; exact h (List.length_eq_zero_iff.mp h2)
  show (readSome (s.blk.size - s.blk.used.length) s.src).2.flatten.length < s.src.flatten.length
  omega

/-- `tryMakeBytesAvailable` (rt/io/InStream.h:189-193) with
`tryMakeBytesAvailableInternal` (rt/io/InStream.cpp:49-158). -/
def tryMake (n : Nat) (s : InS) : Option (Nat × InS) :=
  if s.avail.length < n then
    match seekBlock n s with
    | none => none
    | some s1 =>
      let s2 := fill n s1
      some (s2.avail.length, s2)
  else some (n, s)

/-- `readByte` (rt/io/InStream.h:219-223): the byte, or 0 at the end. -/
def readByte (s : InS) : Option (Byte × InS) :=
  match tryMake 1 s with
  | none => none
  | some (k, s1) =>
    if k = 0 then some (0, s1)
    else
      match s1.avail with
      | [] => none
      | b :: _ => some (b, { s1 with cur := s1.cur + 1 })

/-- `tryMakeBytesAvailable() ? peekByte() : none` (rt/io/InStream.h:195-209). -/
def peek (s : InS) : Option (Option Byte × InS) :=
  match tryMake 1 s with
  | none => none
  | some (k, s1) =>
    if k = 0 then some (none, s1)
    else
      match s1.avail with
      | [] => none
      | b :: _ => some (some b, s1)

/-- The loop of `readSlowPath` (rt/io/InStream.cpp:189-200); `acc` is what has been stored in the
destination.  `fuel` bounds the number of rounds; each round stores at least one byte, so `n`
suffices (the model's own device; running out is `none`). -/
def readLoop : Nat → Nat → InS → List Byte → Option (Bool × List Byte × InS)
  | _, 0, s, acc => some (true, acc, s)
  | 0, _ + 1, _, _ => none
  | fuel + 1, n + 1, s, acc =>
    match tryMake 1 s with
    | none => none
    | some (k, s1) =>
      if k = 0 then some (false, acc ++ List.replicate (n + 1) 0, s1)
      else
        let m := min (n + 1) s1.avail.length
        readLoop fuel (n + 1 - m) { s1 with cur := s1.cur + m } (acc ++ s1.avail.take m)

/-- `read` (rt/io/InStream.h:233-247) with `readSlowPath` (rt/io/InStream.cpp:185-201): success flag
and the bytes stored in the destination (shorter than `n` if the rest of it was not touched). -/
def read (n : Nat) (s : InS) : Option (Bool × List Byte × InS) :=
  if n > s.avail.length then
    if s.eof then some (false, [], s) else readLoop n n s []
  else some (!s.eof, s.avail.take n, { s with cur := s.cur + n })

/-- The loop of `skipSlowPath` (rt/io/InStream.cpp:207-216), `fuel` as in `readLoop`. -/
def skipLoop : Nat → Nat → InS → Option (Bool × InS)
  | _, 0, s => some (true, s)
  | 0, _ + 1, _ => none
  | fuel + 1, n + 1, s =>
    match tryMake 1 s with
    | none => none
    | some (k, s1) =>
      if k = 0 then some (false, s1)
      else
        let m := min (n + 1) s1.avail.length
        skipLoop fuel (n + 1 - m) { s1 with cur := s1.cur + m }

/-- `skip` (rt/io/InStream.h:251-263) with `skipSlowPath` (rt/io/InStream.cpp:203-217). -/
def skip (n : Nat) (s : InS) : Option (Bool × InS) :=
  if n > s.avail.length then
    if s.eof then some (false, s) else skipLoop n n s
  else some (!s.eof, { s with cur := s.cur + n })

/-- A position in the block list (`BlockList::Ref`, rt/container/BlockList.h:98-131): index of the
block and offset in it. -/
structure Mark where
  idx : Nat
  ofs : Nat
deriving DecidableEq, Repr

/-- `getBlockRef` (rt/io/InStream.cpp:168-173). -/
def mark (s : InS) : Mark := ⟨s.prev.length, s.cur⟩

/-- The whole block list. -/
def InS.chain (s : InS) : List Block := s.prev ++ s.blk :: s.next

/-- `rewind` (rt/io/InStream.cpp:175-183); the assertion at line 178 is the length test. -/
def rewind (m : Mark) (s : InS) : Option InS :=
  match s.chain.drop m.idx with
  | [] => none
  | b :: bs =>
    if m.ofs ≤ b.used.length then
      some { s with prev := s.chain.take m.idx, blk := b, next := bs, cur := m.ofs, eof := false }
    else none

/-- `weakRefToNext` (rt/container/BlockList.cpp:32-42) from block `b` with successors `bs`: offset
in the next block. -/
def nextOfs (b c : Block) : Option Nat :=
  if c.fileOffset - b.fileOffset ≤ b.used.length then
    let ofs := b.used.length - (c.fileOffset - b.fileOffset)
    if ofs ≤ c.used.length then some ofs else none
  else none

/-- `BlockList::toString` without an end position (rt/container/BlockList.cpp:111-141 with
`RangeForIterator`, rt/container/BlockList.h:136-163): bytes from offset `o` of the first block to
the end of the list.  The fast path at lines 116-123 gives the same bytes and is not modelled
separately. -/
def toStringAll : Nat → List Block → Option (List Byte)
  | _, [] => some []
  | o, [b] => some (b.used.drop o)
  | o, b :: c :: bs =>
    match nextOfs b c with
    | none => none
    | some o' =>
      match toStringAll o' (c :: bs) with
      | none => none
      | some rest => some (b.used.drop o ++ rest)

/-- `BlockList::toString` with an end position (rt/container/BlockList.cpp:111-141).
`RangeForIterator::operator!=` (rt/container/BlockList.h:157-159) stops only when the cursor
*equals* the end position; `operator++` (lines 154-156) always goes on to the next block, which is a
null reference after the last one, and `operator*` (160-165) then dereferences it: `none`.
`i` is the index of the first block in the list, `o` the offset in it. -/
def toStringRange (e : Mark) : Nat → Nat → List Block → Option (List Byte)
  | _, _, [] => none
  | i, o, b :: bs =>
    if i = e.idx ∧ o = e.ofs then some []
    else
      let view := if i = e.idx then (b.used.take e.ofs).drop o else b.used.drop o
      match bs with
      | [] => none
      | c :: _ =>
        match nextOfs b c with
        | none => none
        | some o' =>
          match toStringRange e (i + 1) o' bs with
          | none => none
          | some rest => some (view ++ rest)

/-- The loop of `readRemainingContents` (rt/io/InStream.cpp:221-223): read everything.  `fuel`
bounds the rounds (the model's own device; running out is `none`). -/
def drain : Nat → InS → Option InS
  | 0, _ => none
  | fuel + 1, s =>
    match tryMake 1 s with
    | none => none
    | some (k, s1) => if k = 0 then some s1 else drain fuel { s1 with cur := s1.blk.used.length }

/-- `readRemainingContents` (rt/io/InStream.cpp:219-229): the returned string.  Totals of 2^32 bytes
or more fail the assertion in `toString` (rt/container/BlockList.cpp:129). -/
def readRemaining (fuel : Nat) (s : InS) : Option (List Byte) :=
  match drain fuel s with
  | none => none
  | some s1 =>
    match toStringAll s.cur (s1.chain.drop s.prev.length) with
    | none => none
    | some r => if r.length < 2 ^ 32 then some r else none

/-! ## Output streams -/

/-- Result of one `OutPipe::write` call (rt/io/Pipe.h:124-133): success, or failure after the pipe
took the first `k` bytes. -/
inductive PipeWrite where
  | ok
  | fails (k : Nat)
deriving DecidableEq, Repr

/-- The pipe behind an output stream: results of its future `write` calls (`ok` when the script is
used up), the bytes it has received, and how many `write` calls it has seen after failing. -/
structure Sink where
  script : List PipeWrite
  got : List Byte
  failed : Bool
  afterFailure : Nat
deriving DecidableEq, Repr

/-- One `OutPipe::write` call (rt/io/Pipe.h:131-133). -/
def Sink.write (k : Sink) (bs : List Byte) : Bool × Sink :=
  let after := if k.failed then k.afterFailure + 1 else k.afterFailure
  match k.script with
  | [] => (true, ⟨[], k.got ++ bs, k.failed, after⟩)
  | .ok :: rest => (true, ⟨rest, k.got ++ bs, k.failed, after⟩)
  | .fails n :: rest => (false, ⟨rest, k.got ++ bs.take n, true, after⟩)

/-- Kind of output stream (rt/io/OutStream.h:42-46). -/
inductive OutKind where
  | view
  | pipe
  | mem
deriving DecidableEq, Repr

/-- An `OutStream` (rt/io/OutStream.h:59-81).  `size` is the current block's size (the view's, for a
view), `buf` the bytes stored in it so far (`curByte` is at offset `buf.length`), `limit` the offset
of `endByte`, `flushed` the block's `numBytesUsed`, `blocks` the earlier blocks of a memory
stream. -/
structure OutS where
  kind : OutKind
  blockSize : Nat
  size : Nat
  buf : List Byte
  limit : Nat
  flushed : Nat
  eof : Bool
  sink : Sink
  blocks : List (List Byte)
deriving DecidableEq, Repr

/-- Constructors (rt/io/OutStream.cpp:36-42, 152-155, rt/io/OutStream.h:362-368). -/
def OutS.init (kind : OutKind) (blockSize : Nat) (script : List PipeWrite) : OutS :=
  ⟨kind, blockSize, blockSize, [], blockSize, 0, false, ⟨script, [], false, 0⟩, []⟩

/-- `flushInternal` (rt/io/OutStream.cpp:58-78). -/
def flushInternal (s : OutS) : Option (Bool × OutS) :=
  if s.kind = .view then some (true, s)
  else if s.limit ≠ s.size then none
  else if s.buf.length < s.flushed then none
  else if s.size < s.buf.length then none
  else if s.buf.length > s.flushed then
    if s.kind = .pipe ∧ s.eof = false then
      let r := s.sink.write (s.buf.drop s.flushed)
      let s1 := { s with sink := r.2, eof := !r.1, flushed := s.buf.length }
      some (!s1.eof, s1)
    else some (!s.eof, { s with flushed := s.buf.length })
  else some (!s.eof, s)

/-- The end of `tryMakeBytesAvailableInternal` (rt/io/OutStream.cpp:126-130) with
`appendBlockWithRecycle`: a fresh block of at least `n` bytes.  The full block of a memory stream
stays in the list; a pipe stream's has been sent and is dropped. -/
def newBlock (n : Nat) (s : OutS) : OutS :=
  { s with
    blocks := if s.kind = .mem then s.blocks ++ [s.buf] else s.blocks
    size := max s.blockSize n, limit := max s.blockSize n, buf := [], flushed := 0 }

/-- `tryMakeBytesAvailable` (rt/io/OutStream.h:197-201) with `tryMakeBytesAvailableInternal`
(rt/io/OutStream.cpp:97-131) for a positive argument. -/
def outTryMake (n : Nat) (s : OutS) : Option (Nat × OutS) :=
  if s.limit - s.buf.length < n then
    if s.kind = .view then
      some (s.limit - s.buf.length, { s with eof := true })
    else if s.eof then some (0, s)
    else
      match flushInternal s with
      | none => none
      | some (false, s1) => some (0, { s1 with limit := s1.buf.length })
      | some (true, s1) => let s2 := newBlock n s1; some (s2.size, s2)
  else some (n, s)

/-- `makeBytesAvailable` (rt/io/OutStream.h:208-213) with `tryMakeBytesAvailableInternal` for a
negative argument (rt/io/OutStream.cpp:97-131). -/
def outMake (n : Nat) (s : OutS) : Option OutS :=
  if s.limit - s.buf.length < n then
    if s.kind = .view then none
    else
      match flushInternal s with
      | none => none
      | some (_, s1) => some (newBlock n s1)
  else some s

/-- Storing bytes at `curByte` (`none`: past `endByte`). -/
def put (bs : List Byte) (s : OutS) : Option OutS :=
  if s.buf.length + bs.length ≤ s.limit then some { s with buf := s.buf ++ bs } else none

/-- `writeByte` (rt/io/OutStream.h:220-226). -/
def writeByte (b : Byte) (s : OutS) : Option (Bool × OutS) :=
  match outTryMake 1 s with
  | none => none
  | some (k, s1) =>
    if k = 0 then some (false, s1)
    else
      match put [b] s1 with
      | none => none
      | some s2 => some (true, s2)

/-- The loop of `writeSlowPath` (rt/io/OutStream.cpp:137-144); `fuel` bounds the number of rounds
(each stores at least one byte; the model's own device). -/
def writeLoop : Nat → List Byte → OutS → Option (Bool × OutS)
  | _, [], s => some (true, s)
  | 0, _ :: _, _ => none
  | fuel + 1, b :: bs, s =>
    match outTryMake 1 s with
    | none => none
    | some (k, s1) =>
      if k = 0 then some (false, s1)
      else
        let m := min (s1.limit - s1.buf.length) (b :: bs).length
        match put ((b :: bs).take m) s1 with
        | none => none
        | some s2 => writeLoop fuel ((b :: bs).drop m) s2

/-- `write` (rt/io/OutStream.h:234-242) with `writeSlowPath` (rt/io/OutStream.cpp:133-147).  The
comparison at h:236 is on a signed 32-bit number: from 2^31 bytes on it is negative and the fast
path runs past the end of the buffer, which `put` reports. -/
def write (src : List Byte) (s : OutS) : Option (Bool × OutS) :=
  let len : Int := if src.length < 2 ^ 31 then src.length else (src.length : Int) - 2 ^ 32
  if len > ((s.limit - s.buf.length : Nat) : Int) then
    if s.eof then some (false, s) else writeLoop src.length src s
  else
    match put src s with
    | none => none
    | some s1 => some (!s1.eof, s1)

/-- `flush` (rt/io/OutStream.cpp:80-87); the pipe's own flush is not modelled. -/
def flush (s : OutS) : Option OutS :=
  match flushInternal s with
  | none => none
  | some (_, s1) => some s1

/-- `MemOutStream::moveToString` (rt/io/OutStream.cpp:157-176): all blocks in order.  Totals of 2^32
bytes or more fail the assertion in `toString` (rt/container/BlockList.cpp:129). -/
def moveToString (s : OutS) : Option (List Byte) :=
  if s.kind ≠ .mem then none
  else if s.buf.length < s.flushed then none
  else if s.size < s.buf.length then none
  else
    let r := s.blocks.flatten ++ s.buf
    if r.length < 2 ^ 32 then some r else none

/-! ## Newline filter -/

/-- State of `NewLineFilter` (rt/io/text/NewLineFilter.cpp:18-19). -/
structure NL where
  crlf : Bool
  needsLF : Bool
deriving DecidableEq, Repr

/-- The inner loop (rt/io/text/NewLineFilter.cpp:28-40): next source byte that is not a carriage
return. -/
def nextByte : List Byte → Option (Byte × List Byte)
  | [] => none
  | c :: cs => if c = 13 then nextByte cs else some (c, cs)

/-- `NewLineFilter::process` (rt/io/text/NewLineFilter.cpp:21-44) with room for `cap` bytes: new
state, remaining source, output. -/
def process : Nat → NL → List Byte → NL × List Byte × List Byte
  | 0, f, src => (f, src, [])
  | cap + 1, f, src =>
    if f.needsLF then
      let r := process cap { f with needsLF := false } src
      (r.1, r.2.1, 10 :: r.2.2)
    else
      match nextByte src with
      | none => (f, [], [])
      | some (c, cs) =>
        if c = 10 ∧ f.crlf then
          let r := process cap { f with needsLF := true } cs
          (r.1, r.2.1, 13 :: r.2.2)
        else
          let r := process cap f cs
          (r.1, r.2.1, c :: r.2.2)

/-- `OutPipe_NewLineFilter_write` (rt/io/text/NewLineFilter.cpp:114-137).  `fuel` bounds the rounds
(each but the last consumes source; the model's own device). -/
def filterWrite : Nat → NL → OutS → List Byte → Option (Bool × NL × OutS)
  | 0, _, _, _ => none
  | fuel + 1, f, s, src =>
    match outTryMake 1 s with
    | none => none
    | some (_, s1) =>
      let r := process (s1.limit - s1.buf.length) f src
      match put r.2.2 s1 with
      | none => none
      | some s2 =>
        if src.length - r.2.1.length = 0 then some (src.isEmpty, r.1, s2)
        else filterWrite fuel r.1 s2 r.2.1

/-- `InPipe_NewLineFilter_readSome` (rt/io/text/NewLineFilter.cpp:62-83) with room for `cap` bytes.
`fuel` bounds the rounds (the model's own device). -/
def filterRead : Nat → Nat → NL → InS → Option (List Byte × NL × InS)
  | 0, _, _, _ => none
  | fuel + 1, cap, f, s =>
    if cap = 0 then none
    else
      let r := process cap f s.avail
      let s1 := { s with cur := s.cur + (s.avail.length - r.2.1.length) }
      if r.2.2 ≠ [] then some (r.2.2, r.1, s1)
      else if s1.avail ≠ [] then none
      else
        match tryMake 1 s1 with
        | none => none
        | some (k, s2) => if k = 0 then some ([], r.1, s2) else filterRead fuel cap r.1 s2

end Verif.Stream
