import Verif.Conc.Basic
/-!
# `Mutex_SpinLock` — model of thread/impl/Mutex_SpinLock.h
-/
namespace Verif.Conc.Spin

/-- Where a thread is: outside, in the loop of `lock` (Mutex_SpinLock.h:21-28), or between `lock` and
`unlock`. -/
inductive PC where
  | outside
  | trying
  | holding
  deriving DecidableEq, Repr

/-- The word `m_spinLock` (Mutex_SpinLock.h:14) and the threads. -/
structure St where
  word : Nat
  pc : Tid → PC

/-- Zero-initialised (Mutex_SpinLock.h:11, 17-19), nobody inside. -/
def init : St := ⟨0, fun _ => .outside⟩

/-- `compareExchangeStrong(expected = 0, 1)`, thread/impl/Atomic_CPP11.h:62-65 as called at
Mutex_SpinLock.h:24: success and the word afterwards. -/
def cas (word : Nat) : Bool × Nat := if word = 0 then (true, 1) else (false, word)

/-- One step of thread `t`.  Threads call `unlock` only while holding the lock. -/
inductive Step : Tid → St → St → Prop
  /-- Call `lock`. -/
  | call {t s} : s.pc t = .outside → Step t s { s with pc := upd s.pc t .trying }
  /-- One turn of the loop, Mutex_SpinLock.h:22-27. -/
  | turn {t s} : s.pc t = .trying →
      Step t s ⟨(cas s.word).2, if (cas s.word).1 then upd s.pc t .holding else s.pc⟩
  /-- `unlock`, Mutex_SpinLock.h:30-32. -/
  | unlock {t s} : s.pc t = .holding → Step t s ⟨0, upd s.pc t .outside⟩

/-- A step of any thread. -/
def step (s s' : St) : Prop := ∃ t, Step t s s'

end Verif.Conc.Spin
