import Verif.Conc.Basic
/-!
# `Trace_MemLog` — model of thread/impl/Trace_MemLog.h and Trace_MemLog.cpp

Pages are numbered in the order they are created; the address of a deleted page is never used again.
The counters do not wrap around.
-/
namespace Verif.Conc.MemLog

/-- Trace_MemLog.h:33. -/
def EventsPerPage : Nat := 16384

/-- Trace_MemLog.h:32. -/
def MaxNumPages : Nat := 4

/-- Where a thread is inside `log` (Trace_MemLog.h:58-72) or `allocateEventFromNewPage`
(Trace_MemLog.cpp:27-61). -/
inductive PC where
  | outside
  /-- about to load `m_tail`, Trace_MemLog.h:60 -/
  | load
  /-- about to add 1 to the index of page `p`, Trace_MemLog.h:62 -/
  | add (p : Nat)
  /-- about to lock, Trace_MemLog.cpp:28 -/
  | lock
  /-- about to load `m_tail`, Trace_MemLog.cpp:32 -/
  | loadTail
  /-- about to look at the index of page `p`, Trace_MemLog.cpp:33 -/
  | check (p : Nat)
  /-- about to add 1 to the index of page `p`, Trace_MemLog.cpp:34 -/
  | addAgain (p : Nat)
  /-- about to create a page, Trace_MemLog.cpp:41-43 -/
  | create (p : Nat)
  /-- about to store `oldTail->next`, Trace_MemLog.cpp:46 -/
  | link (p q : Nat)
  /-- about to store `m_tail`, Trace_MemLog.cpp:50 -/
  | publish (q : Nat)
  /-- about to delete the oldest page or count the new one, Trace_MemLog.cpp:51-57 -/
  | trim (q : Nat)
  /-- about to unlock, with slot `i` of page `p`, Trace_MemLog.cpp:37, 60 -/
  | unlock (p i : Nat)
  /-- about to write into slot `i` of page `p`, Trace_MemLog.h:67-70 -/
  | write (p i : Nat)
  deriving DecidableEq, Repr

/-- The log (Trace_MemLog.h:35-50): number of pages ever created, their `index` and `next`, which are
deleted, `m_head`, `m_tail`, `m_numPages`, the owner of `m_mutex`; the threads.  `written` (who wrote
into which slot, latest first) and `bad` (a deleted page was touched, or a null page pointer) record
what happened. -/
structure St where
  created : Nat
  index : Nat → Nat
  next : Nat → Option Nat
  freed : Nat → Bool
  head : Nat
  tail : Nat
  numPages : Nat
  owner : Option Tid
  pc : Tid → PC
  written : List (Tid × Nat × Nat)
  bad : Bool

/-- Constructor, Trace_MemLog.cpp:20-21. -/
def init : St :=
  ⟨1, fun _ => 0, fun _ => none, fun _ => false, 0, 0, 1, none, fun _ => .outside, [], false⟩

/-- Go on with `s'` unless page `p` is deleted. -/
def touch (s : St) (p : Nat) (s' : St) : St := if s.freed p then { s with bad := true } else s'

/-- One step of thread `t`.  Nothing is said about what happens after `bad`. -/
inductive Step : Tid → St → St → Prop
  /-- call `log` -/
  | call {t s} : s.bad = false → s.pc t = .outside → Step t s { s with pc := upd s.pc t .load }
  /-- Trace_MemLog.h:60 -/
  | load {t s} : s.bad = false → s.pc t = .load → Step t s { s with pc := upd s.pc t (.add s.tail) }
  /-- Trace_MemLog.h:62-66 -/
  | add {t s p} : s.bad = false → s.pc t = .add p →
      Step t s (touch s p { s with
        index := upd s.index p (s.index p + 1),
        pc := upd s.pc t (if s.index p < EventsPerPage then .write p (s.index p) else .lock) })
  /-- Trace_MemLog.cpp:28 -/
  | lock {t s} : s.bad = false → s.pc t = .lock → s.owner = none →
      Step t s { s with owner := some t, pc := upd s.pc t .loadTail }
  /-- Trace_MemLog.cpp:32 -/
  | loadTail {t s} : s.bad = false → s.pc t = .loadTail →
      Step t s { s with pc := upd s.pc t (.check s.tail) }
  /-- Trace_MemLog.cpp:33 -/
  | check {t s p} : s.bad = false → s.pc t = .check p →
      Step t s (touch s p { s with
        pc := upd s.pc t (if s.index p < EventsPerPage then .addAgain p else .create p) })
  /-- Trace_MemLog.cpp:34-37 -/
  | addAgain {t s p} : s.bad = false → s.pc t = .addAgain p →
      Step t s (touch s p { s with
        index := upd s.index p (s.index p + 1),
        pc := upd s.pc t (if s.index p < EventsPerPage then .unlock p (s.index p) else .create p) })
  /-- Trace_MemLog.cpp:41-43 -/
  | create {t s p} : s.bad = false → s.pc t = .create p →
      Step t s { s with
        created := s.created + 1, index := upd s.index s.created 1,
        next := upd s.next s.created none, pc := upd s.pc t (.link p s.created) }
  /-- Trace_MemLog.cpp:46 -/
  | link {t s p q} : s.bad = false → s.pc t = .link p q →
      Step t s (touch s p { s with next := upd s.next p (some q), pc := upd s.pc t (.publish q) })
  /-- Trace_MemLog.cpp:50 -/
  | publish {t s q} : s.bad = false → s.pc t = .publish q →
      Step t s { s with tail := q, pc := upd s.pc t (.trim q) }
  /-- Trace_MemLog.cpp:55-57 -/
  | count {t s q} : s.bad = false → s.pc t = .trim q → s.numPages < MaxNumPages →
      Step t s { s with numPages := s.numPages + 1, pc := upd s.pc t (.unlock q 0) }
  /-- Trace_MemLog.cpp:51-54 -/
  | delete {t s q h} : s.bad = false → s.pc t = .trim q → MaxNumPages ≤ s.numPages →
      s.next s.head = some h →
      Step t s (touch s s.head { s with
        head := h, freed := upd s.freed s.head true, pc := upd s.pc t (.unlock q 0) })
  /-- Trace_MemLog.cpp:51-54, `m_head` becomes null -/
  | deleteLast {t s q} : s.bad = false → s.pc t = .trim q → MaxNumPages ≤ s.numPages →
      s.next s.head = none → Step t s { s with bad := true }
  /-- Trace_MemLog.cpp:28, at the end of the block -/
  | unlock {t s p i} : s.bad = false → s.pc t = .unlock p i →
      Step t s { s with owner := none, pc := upd s.pc t (.write p i) }
  /-- Trace_MemLog.h:67-70 -/
  | write {t s p i} : s.bad = false → s.pc t = .write p i →
      Step t s (touch s p { s with
        written := (t, p, i) :: s.written, pc := upd s.pc t .outside })

/-- A step of any thread. -/
def step (s s' : St) : Prop := ∃ t, Step t s s'

end Verif.Conc.MemLog
