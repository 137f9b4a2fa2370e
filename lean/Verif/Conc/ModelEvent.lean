import Verif.Conc.Basic
/-!
# `ManualResetEvent_CondVar` — model of thread/impl/ManualResetEvent_CondVar.h

The mutex and the condition variable are modelled by what POSIX promises for them
(thread/impl/Mutex_POSIX.h, thread/impl/ConditionVariable_POSIX.h:27-29, 58-60): one owner; `wait`
releases the mutex and goes to sleep in one step, wakes up on a broadcast or for no reason, and takes
the mutex again before it returns.
-/
namespace Verif.Conc.Event

/-- Where a thread is inside `signal` (ManualResetEvent_CondVar.h:24-28), `reset` (30-33) or `wait`
(35-40). -/
inductive PC where
  | outside
  /-- about to lock, line 25 -/
  | sigLock
  /-- about to set the state, line 26 -/
  | sigSet
  /-- about to broadcast, line 27 -/
  | sigWake
  /-- about to unlock, line 28 -/
  | sigUnlock
  /-- about to lock, line 31 -/
  | rstLock
  /-- about to clear the state, line 32 -/
  | rstSet
  /-- about to unlock, line 33 -/
  | rstUnlock
  /-- about to lock, line 36 -/
  | wLock
  /-- about to look at the state, line 37 -/
  | wCheck
  /-- about to wait on the condition variable, line 38 -/
  | wWait
  /-- asleep in the condition variable, line 38 -/
  | asleep
  /-- woken up, about to take the mutex again, line 38 -/
  | woken
  /-- about to unlock and return, line 40 -/
  | wUnlock
  deriving DecidableEq, Repr

/-- The event (ManualResetEvent_CondVar.h:13-15) and the threads. -/
structure St where
  owner : Option Tid
  state : Bool
  pc : Tid → PC

/-- Constructor, ManualResetEvent_CondVar.h:18. -/
def init (b : Bool) : St := ⟨none, b, fun _ => .outside⟩

/-- A thread calls one of the three functions. -/
inductive Call : Tid → St → St → Prop
  | signal {t s} : s.pc t = .outside → Call t s { s with pc := upd s.pc t .sigLock }
  | reset {t s} : s.pc t = .outside → Call t s { s with pc := upd s.pc t .rstLock }
  | wait {t s} : s.pc t = .outside → Call t s { s with pc := upd s.pc t .wLock }

/-- A thread inside one of the functions takes a step. -/
inductive Work : Tid → St → St → Prop
  /-- line 25 -/
  | sigLock {t s} : s.pc t = .sigLock → s.owner = none →
      Work t s { s with owner := some t, pc := upd s.pc t .sigSet }
  /-- line 26 -/
  | sigSet {t s} : s.pc t = .sigSet → Work t s { s with state := true, pc := upd s.pc t .sigWake }
  /-- line 27: everyone asleep wakes up -/
  | sigWake {t s} : s.pc t = .sigWake →
      Work t s { s with pc := upd (fun u => if s.pc u = .asleep then .woken else s.pc u) t .sigUnlock }
  /-- line 28 -/
  | sigUnlock {t s} : s.pc t = .sigUnlock →
      Work t s { s with owner := none, pc := upd s.pc t .outside }
  /-- line 31 -/
  | rstLock {t s} : s.pc t = .rstLock → s.owner = none →
      Work t s { s with owner := some t, pc := upd s.pc t .rstSet }
  /-- line 32 -/
  | rstSet {t s} : s.pc t = .rstSet → Work t s { s with state := false, pc := upd s.pc t .rstUnlock }
  /-- line 33 -/
  | rstUnlock {t s} : s.pc t = .rstUnlock →
      Work t s { s with owner := none, pc := upd s.pc t .outside }
  /-- line 36 -/
  | wLock {t s} : s.pc t = .wLock → s.owner = none →
      Work t s { s with owner := some t, pc := upd s.pc t .wCheck }
  /-- line 37 -/
  | wCheck {t s} : s.pc t = .wCheck →
      Work t s { s with pc := upd s.pc t (if !s.state then .wWait else .wUnlock) }
  /-- line 38: release the mutex and sleep -/
  | wWait {t s} : s.pc t = .wWait → Work t s { s with owner := none, pc := upd s.pc t .asleep }
  /-- line 38: wake up without a reason -/
  | spurious {t s} : s.pc t = .asleep → Work t s { s with pc := upd s.pc t .woken }
  /-- line 38: take the mutex again -/
  | woken {t s} : s.pc t = .woken → s.owner = none →
      Work t s { s with owner := some t, pc := upd s.pc t .wCheck }
  /-- line 40: `wait` returns -/
  | wReturn {t s} : s.pc t = .wUnlock →
      Work t s { s with owner := none, pc := upd s.pc t .outside }

/-- A step inside one of the functions, of any thread. -/
def work (s s' : St) : Prop := ∃ t, Work t s s'

/-- Any step. -/
def step (s s' : St) : Prop := ∃ t, Call t s s' ∨ Work t s s'

end Verif.Conc.Event
