import Verif.Conc.Basic
/-!
# `RaceDetector` and `Trace_Counters` — models of thread/RaceDetector.h and
thread/impl/Trace_Counters.cpp
-/
namespace Verif.Conc.Race

/-- A call that marks the beginning or the end of an activity. -/
inductive Op where
  | enter
  | exit
  deriving DecidableEq, Repr

/-- `RaceDetector::enter` / `exit` (thread/RaceDetector.h:17-26), each a single exchange on
`m_entered`: the new value, or `none` if the program is made to crash. -/
def run1 (entered : Nat) : Op → Option Nat
  | .enter => if entered ≠ 0 then none else some 1
  | .exit => if entered ≠ 1 then none else some 0

/-- Calls in the order in which their exchanges happen, by whichever threads. -/
def run : Nat → List (Tid × Op) → Option Nat
  | n, [] => some n
  | n, (_, op) :: rest => match run1 n op with
    | none => none
    | some n' => run n' rest

end Verif.Conc.Race

namespace Verif.Conc.Groups

/-- Groups are numbered; `addGroup` is called once for each. -/
abbrev Group := Nat

/-- Where the thread that adds group `g` is inside `addGroup`, thread/impl/Trace_Counters.cpp:16-21. -/
inductive PC where
  /-- not called yet -/
  | before
  /-- about to load the head, line 17 -/
  | load
  /-- about to store `m_next`, line 19 -/
  | link (old : Option Group)
  /-- about to compare and exchange, line 20 -/
  | cas (old : Option Group)
  /-- returned -/
  | done
  deriving DecidableEq, Repr

/-- `m_firstGroup` (Trace_Counters.h:15), every group's `m_next` (Trace_Counters.h:36), and how far
each group's `addGroup` is.  `order` records the groups whose exchange succeeded, latest first. -/
structure St where
  first : Option Group
  next : Group → Option Group
  pc : Group → PC
  order : List Group

/-- Zero-initialised, Trace_Counters.cpp:14, Trace_Counters.h:40. -/
def init : St := ⟨none, fun _ => none, fun _ => .before, []⟩

/-- One step of the thread adding group `g`. -/
inductive Step : Group → St → St → Prop
  | call {g s} : s.pc g = .before → Step g s { s with pc := upd s.pc g .load }
  /-- line 17 -/
  | load {g s} : s.pc g = .load → Step g s { s with pc := upd s.pc g (.link s.first) }
  /-- line 19 -/
  | link {g s o} : s.pc g = .link o →
      Step g s { s with next := upd s.next g o, pc := upd s.pc g (.cas o) }
  /-- line 20, success -/
  | swap {g s o} : s.pc g = .cas o → s.first = o →
      Step g s { s with first := some g, pc := upd s.pc g .done, order := g :: s.order }
  /-- line 20, failure (also allowed when the values are equal: `compareExchangeWeak`); `oldHead`
  becomes the value found -/
  | retry {g s o} : s.pc g = .cas o → Step g s { s with pc := upd s.pc g (.link s.first) }

/-- A step of any thread. -/
def step (s s' : St) : Prop := ∃ g, Step g s s'

/-- `dumpStats`' walk over the list, Trace_Counters.cpp:24-27, looking at `fuel` groups at most. -/
def walk (s : St) : Nat → Option Group → List Group
  | 0, _ => []
  | _, none => []
  | fuel + 1, some g => g :: walk s fuel (s.next g)

end Verif.Conc.Groups
