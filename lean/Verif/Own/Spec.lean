import Verif.Own.Model

/-!
# Who owns what

Nothing here refers to the functions of the model but for which places exist, and `step` in `Throughout`.
-/

namespace Verif.Own.Spec

open Verif.Own

/-- `y` is in an owning member of `x`. -/
def Owns (s : State) (x y : Id) : Prop := ∃ i, i < s.size x ∧ s.slot (.member x i) = some y

/-- `z` is `p`, or owned by it directly or not. -/
inductive Reach (s : State) (p : Id) : Id → Prop where
  | refl : Reach s p p
  | step {y z : Id} : Reach s p y → Owns s y z → Reach s p z

/-- The place is a member of `p` or of something that `p` owns. -/
def Inside (s : State) (p : Id) : Loc → Prop
  | .var _ => False
  | .member o _ => Reach s p o

/-- What holds in a program that uses owning pointers properly: what they point to exists, and has no other owner. -/
structure Good (s : State) : Prop where
  exist : ∀ l p, s.valid l = true → s.slot l = some p → p ∈ s.live
  unique : ∀ l k p, s.valid l = true → s.valid k = true → s.slot l = some p → s.slot k = some p → l = k

/-- Each object ever made exists or was destroyed, and not both, and none was destroyed twice. -/
structure Account (s : State) : Prop where
  once : s.gone.Nodup
  live_once : s.live.Nodup
  apart : ∀ o ∈ s.live, o ∉ s.gone
  all : ∀ o, o < s.next ↔ o ∈ s.live ∨ o ∈ s.gone

/-- The state after the objects `l` were destroyed, in that order, and places were written. -/
structure After (s s' : State) (l : List Id) (slot : Loc → Option Id) : Prop where
  gone : s'.gone = s.gone ++ l
  live : ∀ o, o ∈ s'.live ↔ o ∈ s.live ∧ o ∉ l
  slot : ∀ k, s'.slot k = slot k
  size : s'.size = s.size
  next : s'.next = s.next

/-- `l` is everything reached from `p`, once each, and what is owned comes before its owner. -/
structure Everything (s : State) (p : Id) (l : List Id) : Prop where
  once : l.Nodup
  exact : ∀ z, z ∈ l ↔ Reach s p z
  order : ∀ x y, Reach s p x → Owns s x y → ∃ a b c, l = a ++ y :: b ++ x :: c

/-- The objects a pointer owns. -/
def EverythingOf (s : State) : Option Id → List Id → Prop
  | none, l => l = []
  | some p, l => Everything s p l

/-- Places with one of them written. -/
def put (slot : Loc → Option Id) (l : Loc) (p : Option Id) (k : Loc) : Option Id := if k = l then p else slot k

/-- A place does not belong to what it points to. -/
def Apart (s : State) (l : Loc) : Prop := ∀ p, s.slot l = some p → ¬ Inside s p l

/-- Nothing owns itself, directly or not. -/
def Forest (s : State) : Prop := ∀ l, s.valid l = true → Apart s l

/-- Everything that exists has an owner. -/
def Held (s : State) : Prop := ∀ o ∈ s.live, ∃ l, s.valid l = true ∧ s.slot l = some o

/-- What one must keep to: the places exist; the place written does not belong to what it points to; what is moved does
not belong to what is replaced by it; a raw pointer that is handed over points to something that nobody else owns. -/
def Proper (s : State) : Op → Prop
  | .create dst _ => s.valid dst = true ∧ Apart s dst
  | .move dst src => s.valid dst = true ∧ s.valid src = true ∧ Apart s dst ∧
      ∀ p, s.slot dst = some p → dst ≠ src ∧ ¬ Inside s p src
  | .assign dst p => s.valid dst = true ∧ Apart s dst ∧
      ∀ q, p = some q → q ∈ s.live ∧ ∀ k, s.valid k = true → s.slot k ≠ some q
  | .release src => s.valid src = true
  | .clear dst => s.valid dst = true ∧ Apart s dst

/-- No raw pointers, and nothing is moved to a place that belongs to it. -/
def Tidy (s : State) : Op → Prop
  | .create _ _ => True
  | .move dst src => ∀ b, s.slot src = some b → ¬ Inside s b dst
  | .assign _ _ => False
  | .release _ => False
  | .clear _ => True

/-- `ok` holds of each operation in the state that it meets. -/
def Throughout (ok : State → Op → Prop) : State → List Op → Prop
  | _, [] => True
  | s, op :: ops => ok s op ∧ ∀ s', step s op = some s' → Throughout ok s' ops

/-! ## Functors -/

/-- What functors point to exists and is not shared. -/
structure FunctorGood (s : Functors) : Prop where
  exist : ∀ f w, s.wrapper f = some w → w ∈ s.live
  unique : ∀ f g w, s.wrapper f = some w → s.wrapper g = some w → f = g
  once : s.live.Nodup
  fresh : ∀ w ∈ s.live, w < s.next

/-- Functors are only made where there is none, and not from themselves. -/
def FunctorProper (s : Functors) : FunctorOp → Prop
  | .make f => s.wrapper f = none
  | .moveInit f g => s.wrapper f = none ∧ f ≠ g
  | .move _ _ => True
  | .drop _ => True

/-- No functor is assigned to that holds something. -/
def FunctorTidy (s : Functors) : FunctorOp → Prop
  | .move f _ => s.wrapper f = none
  | _ => True

/-- `ok` holds of each operation in the state that it meets. -/
def FunctorThroughout (ok : Functors → FunctorOp → Prop) : Functors → List FunctorOp → Prop
  | _, [] => True
  | s, op :: ops => ok s op ∧ FunctorThroughout ok (functorStep s op) ops

/-- What exists is held by some functor. -/
def FunctorHeld (s : Functors) : Prop := ∀ w ∈ s.live, ∃ f, s.wrapper f = some w

end Verif.Own.Spec
