/-!
# Owning pointers and functors

Objects on the heap, some of whose members are owning pointers, and variables that are owning pointers.  `none` is a
failed assertion, or an access to an object that no longer exists (including a second destruction).

`rt/` stands for `runtime/ply-runtime/`.
-/

namespace Verif.Own

/-- The address of an object.  Simplified: addresses are not reused, so that an access to a destroyed object is always
noticed. -/
abbrev Id := Nat

/-- A place where an `Owned` is: a variable, or the `i`-th owning member of an object. -/
inductive Loc where
  | var (v : Nat)
  | member (obj : Id) (i : Nat)
deriving DecidableEq, Repr

/-- `slot` is `Owned::ptr` of each place (rt/container/Owned.h:45), `size` the number of owning members of each object,
`live` the objects that exist, `gone` those destroyed in order, `next` the next address.  Raw pointers and `Borrowed`
are not part of the state. -/
structure State where
  live : List Id
  size : Id → Nat
  slot : Loc → Option Id
  gone : List Id
  next : Id

/-- Whether a place exists. -/
def State.valid (s : State) : Loc → Bool
  | .var _ => true
  | .member o i => decide (o ∈ s.live) && decide (i < s.size o)

/-- Reading `ptr` of an `Owned`, rt/container/Owned.h:87-98. -/
def State.read (s : State) (l : Loc) : Option (Option Id) := if s.valid l then some (s.slot l) else none

/-- Writing `ptr` of an `Owned`. -/
def State.write (s : State) (l : Loc) (p : Option Id) : Option State :=
  if s.valid l then some { s with slot := fun k => if k = l then p else s.slot k } else none

/-- The destructors of the first `i` owning members of `o`, last declared first: `~Owned`, rt/container/Owned.h:58-60,
for each. -/
def members (destroy : State → Id → Option State) (s : State) (o : Id) : Nat → Option State
  | 0 => some s
  | i + 1 =>
    match s.slot (.member o i) with
    | none => members destroy s o i
    | some p =>
      match destroy s p with
      | none => none
      | some s => members destroy s o i

/-- `subst::destroyByMember` with `delete`, rt/container/Subst.h:87-90: destructs the members, then the object is gone.
`fuel` bounds the depth (the model's own device; running out of it is endless recursion).  Simplified: destructors do
nothing else; types with a `destroy` of their own (Subst.h:73-85) are expected to do the same. -/
def destroy : Nat → State → Id → Option State
  | 0, _, _ => none
  | f + 1, s, o =>
    if o ∈ s.live then
      match members (destroy f) s o (s.size o) with
      | none => none
      | some s => if o ∈ s.live then some { s with live := s.live.erase o, gone := s.gone ++ [o] } else none
    else none

/-- `destroyByMember` of a pointer that may be null. -/
def destroyPtr (s : State) : Option Id → Option State
  | none => some s
  | some p => destroy s.live.length s p

/-- `Owned::release`, rt/container/Owned.h:99-103. -/
def release (s : State) (src : Loc) : Option (Option Id × State) := do
  let p ← s.read src
  let s ← s.write src none
  return (p, s)

/-- `Owned::clear`, rt/container/Owned.h:104-107, and `~Owned` of a variable (58-60), which is not used
afterwards. -/
def clear (s : State) (dst : Loc) : Option State := do
  let p ← s.read dst
  let s ← destroyPtr s p
  s.write dst none

/-- `Owned::operator=(Owned&&)`, rt/container/Owned.h:66-70. -/
def moveAssign (s : State) (dst src : Loc) : Option State := do
  let a ← s.read dst
  let b ← s.read src
  if a = none ∨ a ≠ b then
    let s ← destroyPtr s a
    let (p, s) ← release s src
    s.write dst p
  else none

/-- `Owned::operator=(T*)`, rt/container/Owned.h:78-82. -/
def assignRaw (s : State) (dst : Loc) (p : Option Id) : Option State := do
  let a ← s.read dst
  if a = none ∨ a ≠ p then
    let s ← destroyPtr s a
    s.write dst p
  else none

/-- `new T`: an object with `n` owning members, all null (rt/container/Owned.h:48-49). -/
def new (s : State) (n : Nat) : Id × State :=
  (s.next, { s with
    live := s.next :: s.live
    size := fun o => if o = s.next then n else s.size o
    slot := fun k => match k with
      | .member o i => if o = s.next then none else s.slot (.member o i)
      | k => s.slot k
    next := s.next + 1 })

/-- `dst = Owned<T>::create(…)`, rt/container/Owned.h:83-86 and 66-70: the pointer is moved from the temporary, which is
null afterwards. -/
def create (s : State) (dst : Loc) (n : Nat) : Option State :=
  let r := new s n
  assignRaw r.2 dst (some r.1)

/-- What a program does with owning pointers. -/
inductive Op where
  | create (dst : Loc) (n : Nat)
  | move (dst src : Loc)
  | assign (dst : Loc) (p : Option Id)
  | release (src : Loc)
  | clear (dst : Loc)
deriving DecidableEq, Repr

/-- One operation. -/
def step (s : State) : Op → Option State
  | .create dst n => create s dst n
  | .move dst src => moveAssign s dst src
  | .assign dst p => assignRaw s dst p
  | .release src => (release s src).map (·.2)
  | .clear dst => clear s dst

/-- Operations one after another. -/
def run (s : State) : List Op → Option State
  | [] => some s
  | op :: ops => (step s op).bind (run · ops)

/-- Nothing yet: all variables are null. -/
def start : State := ⟨[], fun _ => 0, fun _ => none, [], 0⟩

/-! ## Functors -/

/-- What `Functor`s refer to: `wrapper` of each variable (rt/container/Functor.h:33), the wrappers that were not
deleted, and the next address. -/
structure Functors where
  wrapper : Nat → Option Id
  live : List Id
  next : Id

/-- What a program does with functors. -/
inductive FunctorOp where
  /-- `Functor f{callable}`, rt/container/Functor.h:40-44, for a variable that is new or was destructed. -/
  | make (f : Nat)
  /-- `Functor f{std::move(g)}`, rt/container/Functor.h:37-39. -/
  | moveInit (f g : Nat)
  /-- `f = std::move(g)`, rt/container/Functor.h:50-53. -/
  | move (f g : Nat)
  /-- The end of `f`, rt/container/Functor.h:45-49. -/
  | drop (f : Nat)
deriving DecidableEq, Repr

/-- One operation.  `delete this->wrapper` deletes a `BaseWrapper`, whose destructor is not virtual: simplified, this
frees the memory; the destructor of the callable is not modelled (the standard leaves the behaviour undefined, and
compilers do not run it). -/
def functorStep (s : Functors) : FunctorOp → Functors
  | .make f => { s with wrapper := fun k => if k = f then some s.next else s.wrapper k, live := s.next :: s.live, next := s.next + 1 }
  | .moveInit f g =>
    let w := s.wrapper g
    { s with wrapper := fun k => if k = g then none else if k = f then w else s.wrapper k }
  | .move f g =>
    let w := s.wrapper g
    { s with wrapper := fun k => if k = g then none else if k = f then w else s.wrapper k }
  | .drop f =>
    match s.wrapper f with
    | none => s
    | some w => { s with wrapper := fun k => if k = f then none else s.wrapper k, live := s.live.erase w }

/-- Operations one after another. -/
def functorRun (s : Functors) (ops : List FunctorOp) : Functors := ops.foldl functorStep s

/-- No functor holds anything. -/
def functorStart : Functors := ⟨fun _ => none, [], 0⟩

end Verif.Own
