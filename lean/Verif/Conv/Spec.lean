import Verif.Conv.Model
/-!
# Converting structs — what is meant
-/
namespace Verif.Conv
open Verif

/-- Where in a value of this type the number is that is reached by the indices. -/
def leafAt : Ty → List Nat → Option Nat
  | .float, [] => some 0
  | .fixedArray n stride t, i :: path => if i < n then (leafAt t path).map (i * stride + ·) else none
  | _, _ => none

/-- The items of fixed arrays do not overlap. -/
def Ty.Wf : Ty → Prop
  | .fixedArray _ stride t => t.fixedSize ≤ stride ∧ t.Wf
  | _ => True

/-- There are no arrays of variable size. -/
def Ty.Fixed : Ty → Prop
  | .fixedArray _ _ t => t.Fixed
  | .array _ => False
  | _ => True

/-- Both are numbers, or fixed arrays of the like. -/
def Alike : Ty → Ty → Prop
  | .float, .float => True
  | .fixedArray _ _ t, .fixedArray _ _ t' => Alike t t'
  | _, _ => False

/-- The address belongs to the member. -/
def Member.At (m : Member) (base a : Nat) : Prop := base + m.offset ≤ a ∧ a < base + m.offset + m.ty.fixedSize

/-- Where the member of this name is taken from: the first of the sources that has one, and the first one that it
has. -/
def TakenFrom (srcs : List (List Member)) (name : List Byte) (s : Nat) (sm : Member) : Prop :=
  ∃ before ms after, srcs = before ++ ms :: after ∧ before.length = s ∧ (∀ l ∈ before, ∀ m ∈ l, m.name ≠ name) ∧
    ∃ ms1 ms2, ms = ms1 ++ sm :: ms2 ∧ sm.name = name ∧ ∀ m ∈ ms1, m.name ≠ name

/-- The structs lie in memory as they should: the members of the destination do not overlap each other or any member of
a source; there is a pointer for each source, and offsets stay below 4 GB. -/
structure Layout (dst : List Member) (srcs : List (List Member)) (d : Nat) (ptrs : List Nat) : Prop where
  apart : dst.Pairwise fun m m' => ∀ a, ¬ (m.At d a ∧ m'.At d a)
  wf : ∀ m ∈ dst, m.ty.Wf ∧ m.offset + m.ty.fixedSize < 4294967296
  wfSrc : ∀ ms ∈ srcs, ∀ m ∈ ms, m.ty.Wf ∧ m.offset + m.ty.fixedSize < 4294967296
  count : ptrs.length = srcs.length
  other : ∀ (i : Nat) ms p, srcs[i]? = some ms → ptrs[i]? = some p → ∀ m ∈ dst, ∀ sm ∈ ms, ∀ a, ¬ (m.At d a ∧ sm.At p a)

/-- The number in the destination at `a` is to be filled from the one at `b`. -/
def Fills (dst : List Member) (srcs : List (List Member)) (d : Nat) (ptrs : List Nat) (a b : Nat) : Prop :=
  ∃ m ∈ dst, ∃ s sm p path x y, TakenFrom srcs m.name s sm ∧ ptrs[s]? = some p ∧
    leafAt m.ty path = some x ∧ leafAt sm.ty path = some y ∧ a = d + m.offset + x ∧ b = p + sm.offset + y

end Verif.Conv
