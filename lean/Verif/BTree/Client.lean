import Verif.BTree.Spec
/-!
# Programs using a B-tree, and what they may expect

A program inserts items and removes what it finds; `Step` says what that does to a sorted list.
-/
namespace Verif.BTree.Spec
variable {K V : Type}

/-- What a program can do to a tree.  Removals go through iterators: the first item, the `n`-th one
(from `begin`, stepping `n` times), the one `findFirstGreaterOrEqualTo` or `findLastLessThan` returns.
If there is no such item the program does nothing. -/
inductive Op (K V : Type) where
  | insert (v : V)
  | popFront
  | removeNth (n : Nat)
  | removeGE (x : K)
  | removeLess (x : K)
  | clear

/-- `n` steps forward (rt/container/BTree.h:483-494); at the end, `next` does nothing. -/
def advance : Nat → Option (Iter K V) → Option (Option (Iter K V))
  | 0, it => some it
  | _ + 1, none => some none
  | n + 1, some it =>
    match it.next with
    | none => none
    | some it' => advance n it'

/-- `n` steps backward (rt/container/BTree.h:496-505). -/
def retreat : Nat → Iter K V → Option (Iter K V)
  | 0, it => some it
  | n + 1, it =>
    match it.prev with
    | none => none
    | some it' => retreat n it'

/-- The item `n` steps after an iterator, if any; `none` if something fails on the way. -/
def itemAt (n : Nat) (it : Option (Option (Iter K V))) : Option (Option V) :=
  match it with
  | none => none
  | some it =>
    match advance n it with
    | none => none
    | some none => some none
    | some (some it') => it'.get.map some

/-- The item `n` steps before an iterator. -/
def itemBack (n : Nat) (it : Option (Option (Iter K V))) : Option V :=
  match it with
  | some (some it) =>
    match retreat n it with
    | none => none
    | some it' => it'.get
  | _ => none

/-- Remove what an iterator is at, if it is at anything. -/
def removeAt [DecidableEq K] (T : Traits K V) (t : Tree K V) (it : Option (Option (Iter K V))) :
    Option (Tree K V × Option V) :=
  match it with
  | none => none
  | some none => some (t, none)
  | some (some it) => (remove T it).map fun r => (r.2, some r.1)

/-- One operation. -/
def exec [DecidableEq K] (T : Traits K V) (t : Tree K V) : Op K V → Option (Tree K V × Option V)
  | .insert v => (insert T t v).map fun t' => (t', none)
  | .popFront =>
    match t with
    | none => some (none, none)
    | some _ => (popFront T t).map fun r => (r.2, some r.1)
  | .removeNth n =>
    match begin T t with
    | none => none
    | some it => removeAt T t (advance n it)
  | .removeGE x => removeAt T t (findFirstGE T t x)
  | .removeLess x => removeAt T t (findLastLessThan T t x)
  | .clear => some (none, none)

/-- A history, and the items handed out. -/
def run [DecidableEq K] (T : Traits K V) (t : Tree K V) : List (Op K V) → Option (Tree K V × List (Option V))
  | [] => some (t, [])
  | op :: ops =>
    match exec T t op with
    | none => none
    | some (t', out) => (run T t' ops).map fun r => (r.1, out :: r.2)

/-- The first `i` items of `l` are less than `x`, the others are not. -/
def Divides (less : K → K → Bool) (idx : V → K) (x : K) (l : List V) (i : Nat) : Prop :=
  i ≤ l.length ∧ (∀ v ∈ l.take i, less (idx v) x = true) ∧ (∀ v ∈ l.drop i, less (idx v) x = false)

/-- What an operation does to a sorted list.  A new item goes between two others so that the list
remains sorted; this leaves its place among equals open. -/
inductive Step (less : K → K → Bool) (idx : V → K) : List V → Op K V → List V → Option V → Prop
  | insert (a b : List V) (v : V) : Sorted less idx (a ++ v :: b) →
      Step less idx (a ++ b) (.insert v) (a ++ v :: b) none
  | popFront (l : List V) : Step less idx l .popFront l.tail l.head?
  | removeNth (l : List V) (n : Nat) : Step less idx l (.removeNth n) (l.eraseIdx n) l[n]?
  | removeGE (l : List V) (x : K) (i : Nat) : Divides less idx x l i →
      Step less idx l (.removeGE x) (l.eraseIdx i) l[i]?
  | removeLess (l : List V) (x : K) (i : Nat) : Divides less idx x l (i + 1) →
      Step less idx l (.removeLess x) (l.eraseIdx i) l[i]?
  | removeLess_none (l : List V) (x : K) : Divides less idx x l 0 →
      Step less idx l (.removeLess x) l none
  | clear (l : List V) : Step less idx l .clear [] none

/-- What a history does. -/
inductive Steps (less : K → K → Bool) (idx : V → K) :
    List V → List (Op K V) → List V → List (Option V) → Prop
  | nil (l : List V) : Steps less idx l [] l []
  | cons {l l' l'' op ops out outs} : Step less idx l op l' out → Steps less idx l' ops l'' outs →
      Steps less idx l (op :: ops) l'' (out :: outs)

/-- All that can be seen of a tree, if it holds the items `l`. -/
structure Shows (T : Traits K V) (t : Tree K V) (l : List V) : Prop where
  /-- `isEmpty` (rt/container/BTree.h:569-571). -/
  isEmpty : t = none ↔ l = []
  /-- Iterating. -/
  items : ∀ n, itemAt n (begin T t) = some l[n]?
  /-- `front`, which fails an assertion on an empty tree. -/
  front : front T t = l.head?
  /-- Lookups, and iterating from there on. -/
  lookup : ∀ x, ∃ i, Divides T.less T.idx x l i ∧
    (∀ n, itemAt n (findFirstGE T t x) = some l[i + n]?) ∧
    (i = 0 → findLastLessThan T t x = some none) ∧
    (∀ n, 0 < i → itemAt n (findLastLessThan T t x) = some l[i - 1 + n]?) ∧
    (∀ n, n < i → itemBack n (findLastLessThan T t x) = l[i - 1 - n]?)

/-- Histories with no more than so many insertions. -/
def inserts : List (Op K V) → Nat
  | [] => 0
  | .insert _ :: ops => inserts ops + 1
  | _ :: ops => inserts ops

/-- As `Step`, with a new item going behind all equal ones. -/
inductive StepQueue (less : K → K → Bool) (idx : V → K) : List V → Op K V → List V → Option V → Prop
  | insert (a b : List V) (v : V) : Sorted less idx (a ++ v :: b) →
      (∀ w ∈ b, less (idx v) (idx w) = true) →
      StepQueue less idx (a ++ b) (.insert v) (a ++ v :: b) none
  | other {l op l' out} : Step less idx l op l' out → (∀ v, op ≠ .insert v) →
      StepQueue less idx l op l' out

/-- As `Steps`. -/
inductive StepsQueue (less : K → K → Bool) (idx : V → K) :
    List V → List (Op K V) → List V → List (Option V) → Prop
  | nil (l : List V) : StepsQueue less idx l [] l []
  | cons {l l' l'' op ops out outs} : StepQueue less idx l op l' out →
      StepsQueue less idx l' ops l'' outs → StepsQueue less idx l (op :: ops) l'' (out :: outs)

end Verif.BTree.Spec
