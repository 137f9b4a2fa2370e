import Verif.Basic
/-!
# Reference counting

Paths are relative to `/repo/repos/plywood/src/runtime/ply-runtime`.
-/
namespace Verif.Ref

/-- Number of an object; numbers are not reused (the model of an address that knows whether it is stale). -/
abbrev Id := Nat

/-- An object derived from `RefCounted` (container/Reference.h:28-57) whose members are the counter and
`Reference`s (a null reference is `none`). -/
structure Obj where
  count : Int
  fields : List (Option Id)
deriving DecidableEq

/-- The heap (`none`: the object has been deleted), the `Reference` variables of the program, and the raw
pointers handed out by `release` whose count the program still has to give back. -/
structure St where
  heap : List (Option Obj)
  roots : List (Option Id)
  raw : List Id
deriving DecidableEq

/-- What can go wrong: the code touches a deleted object, or a count below one is decremented (`freed`); a
count exceeds what the assertions allow (`limit`); the program names a variable or member there is not
(`slot`); the model runs out of steps (`fuel`). -/
inductive Err where
  | freed | limit | slot | fuel
deriving DecidableEq

/-- A `Reference` in memory: a variable, or a member of an object. -/
inductive Slot where
  | root (i : Nat)
  | field (o : Id) (i : Nat)
deriving DecidableEq

/-- The object at an address. -/
def St.obj (st : St) (x : Id) : Option Obj := (st.heap[x]?).join

/-- Storing an object. -/
def St.setObj (st : St) (x : Id) (o : Option Obj) : St := { st with heap := st.heap.set x o }

/-- Reading the pointer of a `Reference`. -/
def St.read (st : St) : Slot → Option (Option Id)
  | .root i => st.roots[i]?
  | .field x i => match st.obj x with
    | none => none
    | some o => o.fields[i]?

/-- Writing the pointer of a `Reference`; to be used only where there is one. -/
def St.write (st : St) (s : Slot) (p : Option Id) : St :=
  match s with
  | .root i => { st with roots := st.roots.set i p }
  | .field x i => match st.obj x with
    | none => st
    | some o => st.setObj x (some { o with fields := o.fields.set i p })

/-- `RefCounted::incRef`, container/Reference.h:34-38. -/
def incRef (st : St) (x : Id) : Except Err St :=
  match st.obj x with
  | none => .error .freed
  | some o =>
    if o.count < 0 then .error .freed
    else if 65535 ≤ o.count then .error .limit
    else .ok (st.setObj x (some { o with count := o.count + 1 }))

/-- `RefCounted::decRef`, container/Reference.h:39-45, for the addresses on a stack.  When the count becomes
zero, `onRefCountZero` deletes the object (as in reflect/…/TypeDescriptorOwner.h:26-29): the destructors of
its members run, the last member first, each calling `decRef` (container/Reference.h:85-88), before what is
next on the stack.  Simplified: the object counts as deleted from the beginning of its destructor. -/
def decRefs : Nat → List Id → St → Except Err St
  | _, [], st => .ok st
  | 0, _ :: _, _ => .error .fuel
  | fuel + 1, x :: work, st =>
    match st.obj x with
    | none => .error .freed
    | some o =>
      if o.count < 1 then .error .freed
      else if 65535 ≤ o.count then .error .limit
      else if o.count = 1 then
        decRefs fuel ((o.fields.filterMap id).reverse ++ work) (st.setObj x none)
      else decRefs fuel work (st.setObj x (some { o with count := o.count - 1 }))

/-- Number of steps that suffice: objects and members. -/
def St.size (st : St) : Nat := (st.heap.map fun o => match o with
  | none => 0
  | some o => o.fields.length).sum

/-- `if (ptr) ptr->incRef()`. -/
def incOpt (st : St) : Option Id → Except Err St
  | none => .ok st
  | some x => incRef st x

/-- `if (ptr) ptr->decRef()`. -/
def decOpt (st : St) : Option Id → Except Err St
  | none => .ok st
  | some x => decRefs (st.size + 1) [x] st

/-- `operator=(T*)`, container/Reference.h:98-105. -/
def assignPtr (st : St) (dst : Slot) (p : Option Id) : Except Err St :=
  match st.read dst with
  | none => .error .slot
  | some old => match incOpt (st.write dst p) p with
    | .error e => .error e
    | .ok st => decOpt st old

/-- `operator=(const Reference&)`, container/Reference.h:107-114. -/
def assignCopy (st : St) (dst src : Slot) : Except Err St :=
  match st.read dst, st.read src with
  | some old, some p => match incOpt (st.write dst p) p with
    | .error e => .error e
    | .ok st => decOpt st old
  | _, _ => .error .slot

/-- `operator=(Reference&&)`, container/Reference.h:115-120: the old object is given up first; the pointer
is still in place while that happens, and `ref.ptr` is read and the two pointers are written afterwards. -/
def assignMove (st : St) (dst src : Slot) : Except Err St :=
  match st.read dst, st.read src with
  | some old, some _ => match decOpt st old with
    | .error e => .error e
    | .ok st => match st.read src, st.read dst with
      | some p, some _ => .ok ((st.write dst p).write src none)
      | _, _ => .error .freed
  | _, _ => .error .slot

/-- `clear`, container/Reference.h:129-133. -/
def clear (st : St) (dst : Slot) : Except Err St :=
  match st.read dst with
  | none => .error .slot
  | some old => match decOpt st old with
    | .error e => .error e
    | .ok st => match st.read dst with
      | none => .error .freed
      | some _ => .ok (st.write dst none)

/-- `release`, container/Reference.h:124-128. -/
def release (st : St) (dst : Slot) : Except Err St :=
  match st.read dst with
  | none => .error .slot
  | some none => .ok st
  | some (some x) => .ok { st.write dst none with raw := x :: st.raw }

/-- `p->decRef()` for a pointer handed out by `release`. -/
def dropRaw (st : St) (x : Id) : Except Err St :=
  if x ∈ st.raw then decOpt { st with raw := st.raw.erase x } (some x) else .error .slot

/-- `dst = new T` (container/Reference.h:98-105): a new object with null references has the count zero. -/
def assignNew (st : St) (dst : Slot) (numFields : Nat) : Except Err St :=
  match st.read dst with
  | none => .error .slot
  | some _ =>
    assignPtr { st with heap := st.heap ++ [some ⟨0, List.replicate numFields none⟩] } dst (some st.heap.length)

/-- A new variable that is a copy, container/Reference.h:78-81. -/
def copyVar (st : St) (src : Slot) : Except Err St :=
  match st.read src with
  | none => .error .slot
  | some p => incOpt { st with roots := st.roots ++ [p] } p

/-- A new variable moved from another reference, container/Reference.h:82-84. -/
def moveVar (st : St) (src : Slot) : Except Err St :=
  match st.read src with
  | none => .error .slot
  | some p => .ok { st.write src none with roots := (st.write src none).roots ++ [p] }

/-- A new empty variable, container/Reference.h:72-73. -/
def newVar (st : St) : Except Err St := .ok { st with roots := st.roots ++ [none] }

/-- The last variable goes out of scope, container/Reference.h:85-88. -/
def dropVar (st : St) : Except Err St :=
  match st.roots.getLast? with
  | none => .error .slot
  | some p => decOpt { st with roots := st.roots.dropLast } p

/-- What a program can do. -/
inductive Op where
  | newVar | dropVar
  | copyVar (src : Slot) | moveVar (src : Slot)
  | assignNew (dst : Slot) (numFields : Nat)
  | assignCopy (dst src : Slot) | assignNull (dst : Slot)
  | assignMove (dst src : Slot) | clear (dst : Slot)
  | release (dst : Slot) | dropRaw (x : Id)

/-- One operation. -/
def step (st : St) : Op → Except Err St
  | .newVar => newVar st
  | .dropVar => dropVar st
  | .copyVar s => copyVar st s
  | .moveVar s => moveVar st s
  | .assignNew d n => assignNew st d n
  | .assignCopy d s => assignCopy st d s
  | .assignNull d => assignPtr st d none
  | .assignMove d s => assignMove st d s
  | .clear d => clear st d
  | .release d => release st d
  | .dropRaw x => dropRaw st x

/-- A sequence of operations. -/
def run (st : St) : List Op → Except Err St
  | [] => .ok st
  | o :: os => match step st o with
    | .error e => .error e
    | .ok st => run st os

end Verif.Ref
