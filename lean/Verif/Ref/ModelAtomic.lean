import Verif.Ref.Model
/-!
# Reference counting by several threads

Paths are relative to `/repo/repos/plywood/src/runtime/ply-runtime`.  Each atomic operation of the code is a
step; steps of different threads are interleaved in any order.  Not modelled: the memory order (`Relaxed`),
i.e. which of the other accesses of a thread another thread can see.
-/
namespace Verif.Ref.Atomic

/-- One object derived from `RefCounted`: the counter (container/Reference.h:31), whether it is deleted, the
number of references each thread holds, and whether a thread is about to call `onRefCountZero`
(container/Reference.h:42-44).  `bad`: a deleted object was touched or an assertion failed. -/
structure St where
  count : Int
  dead : Bool
  held : List Nat
  zero : List Bool
  bad : Bool
deriving DecidableEq

/-- What a thread can do. -/
inductive Act where
  | copy (t : Nat) | use (t : Nat) | give (t u : Nat) | drop (t : Nat) | destroy (t : Nat)

/-- One more reference of a thread. -/
def inc (l : List Nat) (t : Nat) : List Nat := l.set t (l.getD t 0 + 1)

/-- One reference of a thread less. -/
def dec (l : List Nat) (t : Nat) : List Nat := l.set t (l.getD t 0 - 1)

/-- One step.  `copy` is `incRef` (container/Reference.h:34-38), `drop` the atomic part of `decRef` (40-41),
`destroy` its lines 42-44; `give` hands a reference to another thread (a move), `use` follows the pointer.
A thread without reference can do nothing, and one that is about to delete does that first. -/
def step (st : St) : Act → Option St
  | .copy t =>
    if 0 < st.held.getD t 0 ∧ st.zero.getD t false = false then
      some { st with
        count := st.count + 1
        held := inc st.held t
        bad := st.bad || st.dead || decide (st.count < 0) || decide (65535 ≤ st.count) }
    else none
  | .use t =>
    if 0 < st.held.getD t 0 ∧ st.zero.getD t false = false then some { st with bad := st.bad || st.dead }
    else none
  | .give t u =>
    if 0 < st.held.getD t 0 ∧ st.zero.getD t false = false ∧ u < st.held.length then
      some { st with held := inc (dec st.held t) u }
    else none
  | .drop t =>
    if 0 < st.held.getD t 0 ∧ st.zero.getD t false = false then
      some { st with
        count := st.count - 1
        held := dec st.held t
        zero := st.zero.set t (decide (st.count = 1))
        bad := st.bad || st.dead || decide (st.count < 1) || decide (65535 ≤ st.count) }
    else none
  | .destroy t =>
    if st.zero.getD t false then
      some { st with
        dead := true
        zero := st.zero.set t false
        bad := st.bad || st.dead }
    else none

/-- A sequence of steps. -/
def run (st : St) : List Act → Option St
  | [] => some st
  | a :: as => match step st a with
    | none => none
    | some st => run st as

/-- An object with its first reference, held by the first of `n + 1` threads. -/
def start (n : Nat) : St := ⟨1, false, 1 :: List.replicate n 0, List.replicate (n + 1) false, false⟩

/-! ## Strong and weak references -/

/-- What a thread is about to call: `onPartialRefCountZero` and, if `full`, then `onFullRefCountZero`
(container/WeakRef.h:30-33); or `onFullRefCountZero` (32, 51). -/
inductive Call where
  | partly (full : Bool)
  | full
deriving DecidableEq

/-- One object derived from `DualRefCounted`: the packed counter (container/WeakRef.h:14-16), whether
`onPartialRefCountZero` is done and whether the object is deleted (reflect/…/TypeDescriptorOwner.h:22-29), the
strong and the weak references of each thread, and what each thread is about to call. -/
structure Dual where
  word : Nat
  partialDone : Bool
  dead : Bool
  strong : List Nat
  weak : List Nat
  next : List (Option Call)
  bad : Bool
deriving DecidableEq

/-- What a thread can do; `u` is the thread that gets a new reference. -/
inductive DualAct where
  | copy (t u : Nat) | copyWeak (t u : Nat) | drop (t : Nat) | dropWeak (t : Nat) | go (t : Nat)

/-- One step; the counter is an unsigned word of 32 bits. -/
def dualStep (st : Dual) : DualAct → Option Dual
  -- `incRef`, container/WeakRef.h:19-23
  | .copy t u =>
    if 0 < st.strong.getD t 0 ∧ st.next.getD t none = none ∧ u < st.strong.length then
      some { st with
        word := (st.word + 1) % 2 ^ 32
        strong := inc st.strong u
        bad := st.bad || st.dead || decide (32767 ≤ st.word % 65536) }
    else none
  -- `incWeakRef`, container/WeakRef.h:37-42, called with a strong reference in hand
  | .copyWeak t u =>
    if 0 < st.strong.getD t 0 ∧ st.next.getD t none = none ∧ u < st.weak.length then
      some { st with
        word := (st.word + 65536) % 2 ^ 32
        weak := inc st.weak u
        bad := st.bad || st.dead || decide (st.word % 65536 = 0) || decide (32767 ≤ st.word / 65536) }
    else none
  -- `decRef`, container/WeakRef.h:25-31
  | .drop t =>
    if 0 < st.strong.getD t 0 ∧ st.next.getD t none = none then
      some { st with
        word := (st.word + (2 ^ 32 - 1)) % 2 ^ 32
        strong := dec st.strong t
        next := st.next.set t (if st.word % 65536 = 1 then some (.partly (decide (st.word = 1))) else none)
        bad := st.bad || st.dead || decide (st.word % 65536 = 0) || decide (32767 ≤ st.word % 65536) }
    else none
  -- `decWeakRef`, container/WeakRef.h:44-50
  | .dropWeak t =>
    if 0 < st.weak.getD t 0 ∧ st.next.getD t none = none then
      some { st with
        word := (st.word + (2 ^ 32 - 65536)) % 2 ^ 32
        weak := dec st.weak t
        next := st.next.set t (if st.word / 65536 = 1 ∧ st.word = 65536 then some .full else none)
        bad := st.bad || st.dead || decide (st.word / 65536 = 0) || decide (32767 ≤ st.word / 65536) }
    else none
  -- the calls, container/WeakRef.h:30-32, 51; reflect/…/TypeDescriptorOwner.h:22-29
  | .go t =>
    match st.next.getD t none with
    | none => none
    | some (.partly full) => some { st with
        partialDone := true
        next := st.next.set t (if full then some .full else none)
        bad := st.bad || st.dead }
    | some .full => some { st with
        dead := true
        next := st.next.set t none
        bad := st.bad || st.dead || !st.partialDone }

/-- A sequence of steps. -/
def dualRun (st : Dual) : List DualAct → Option Dual
  | [] => some st
  | a :: as => match dualStep st a with
    | none => none
    | some st => dualRun st as

/-- An object with its first strong reference, held by the first of `n + 1` threads. -/
def dualStart (n : Nat) : Dual :=
  ⟨1, false, false, 1 :: List.replicate n 0, List.replicate (n + 1) 0, List.replicate (n + 1) none, false⟩

end Verif.Ref.Atomic
