import Verif.Conc.Basic
/-!
# `Mutex_LazyInit` — model of thread/impl/Mutex_LazyInit.h

The destructor is not modelled (Mutex_LazyInit.h:45-54: no thread may race with it).
-/
namespace Verif.Conc.Lazy

/-- Where a thread is inside `lock` (Mutex_LazyInit.h:56-60), `lazyInit` (25-37) or `unlock` (62-65). -/
inductive PC where
  | outside
  /-- about to read `m_initFlag`, line 57 -/
  | readFlag
  /-- in the loop on `m_spinLock`, line 29 -/
  | spin
  /-- about to read `m_initFlag` again, line 32 -/
  | recheck
  /-- about to begin `new (&getMutex()) Mutex`, line 33 -/
  | construct
  /-- in the middle of the constructor, line 33 -/
  | constructing
  /-- about to store `m_initFlag`, line 34 -/
  | storeFlag
  /-- about to release `m_spinLock`, line 36 -/
  | release
  /-- about to lock the mutex, line 59 (blocked there if another thread owns it) -/
  | lockMutex
  /-- about to check the flag and unlock the mutex, lines 63-64 -/
  | unlockMutex
  deriving DecidableEq, Repr

/-- What is in `m_buffer`, Mutex_LazyInit.h:18-19. -/
inductive Mem where
  | raw
  | half
  | ready
  deriving DecidableEq, Repr

/-- The fields of `Mutex_LazyInit` (Mutex_LazyInit.h:16-19) and the threads.  `owner` and `depth` are
the state of the mutex itself, which is recursive (thread/impl/Mutex_POSIX.h:17-26).  The last three
are not in the code, they record what happened: how often the constructor ran; whether the mutex was
ever used while not fully constructed, constructed a second time, or `unlock`'s assertion failed; and
how often each thread has returned from `lock` without having called `unlock` since. -/
structure St where
  flag : Bool
  spin : Bool
  mem : Mem
  owner : Option Tid
  depth : Nat
  pc : Tid → PC
  constructed : Nat
  misused : Bool
  held : Tid → Nat

/-- Zero-initialised (Mutex_LazyInit.h:13, 41-43). -/
def init : St := ⟨false, false, .raw, none, 0, fun _ => .outside, 0, false, fun _ => 0⟩

/-- One step of thread `t`.  Each thread calls `unlock` at most as often as it has locked. -/
inductive Step : Tid → St → St → Prop
  /-- call `lock` -/
  | call {t s} : s.pc t = .outside → Step t s { s with pc := upd s.pc t .readFlag }
  /-- line 57 -/
  | readFlag {t s} : s.pc t = .readFlag →
      Step t s { s with pc := upd s.pc t (if s.flag then .lockMutex else .spin) }
  /-- line 29: `compareExchange` returns the old value (Atomic_CPP11.h:58-61); loop while it is `true` -/
  | spin {t s} : s.pc t = .spin →
      Step t s { s with spin := true, pc := upd s.pc t (if s.spin then .spin else .recheck) }
  /-- line 32 -/
  | recheck {t s} : s.pc t = .recheck →
      Step t s { s with pc := upd s.pc t (if s.flag then .release else .construct) }
  /-- line 33, beginning -/
  | construct {t s} : s.pc t = .construct →
      Step t s { s with mem := .half, constructed := s.constructed + 1,
                        misused := s.misused || decide (s.mem ≠ .raw),
                        pc := upd s.pc t .constructing }
  /-- line 33, end: the mutex is unlocked -/
  | constructed {t s} : s.pc t = .constructing →
      Step t s { s with mem := .ready, owner := none, depth := 0, pc := upd s.pc t .storeFlag }
  /-- line 34 -/
  | storeFlag {t s} : s.pc t = .storeFlag →
      Step t s { s with flag := true, pc := upd s.pc t .release }
  /-- line 36 -/
  | release {t s} : s.pc t = .release →
      Step t s { s with spin := false, pc := upd s.pc t .lockMutex }
  /-- line 59, when the mutex is free or owned by the thread itself -/
  | lock {t s} : s.pc t = .lockMutex → s.owner = none ∨ s.owner = some t →
      Step t s { s with owner := some t, depth := s.depth + 1,
                        misused := s.misused || decide (s.mem ≠ .ready),
                        pc := upd s.pc t .outside, held := upd s.held t (s.held t + 1) }
  /-- call `unlock` -/
  | callUnlock {t s} : s.pc t = .outside → 0 < s.held t →
      Step t s { s with pc := upd s.pc t .unlockMutex, held := upd s.held t (s.held t - 1) }
  /-- lines 63-64 -/
  | unlock {t s} : s.pc t = .unlockMutex →
      Step t s { s with owner := if s.depth = 1 then none else s.owner, depth := s.depth - 1,
                        misused := s.misused || decide (s.mem ≠ .ready) || !s.flag ||
                          decide (s.owner ≠ some t),
                        pc := upd s.pc t .outside }

/-- A step of any thread. -/
def step (s s' : St) : Prop := ∃ t, Step t s s'

end Verif.Conc.Lazy
