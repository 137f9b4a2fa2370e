import Verif.Ref.Model
/-!
# Reference counting — specification
-/
namespace Verif.Ref

/-- The object exists. -/
def Alive (st : St) (x : Id) : Prop := ∃ o, st.heap[x]? = some (some o)

/-- Number of references in the members of all objects that point to `x`. -/
def heapRefs (heap : List (Option Obj)) (x : Id) : Nat :=
  (heap.map fun o => match o with
    | none => 0
    | some o => o.fields.count (some x)).sum

/-- Number of references to `x`: variables, released pointers, members. -/
def refs (st : St) (x : Id) : Nat := st.roots.count (some x) + st.raw.count x + heapRefs st.heap x

/-- Every object's count is the number of references to it, no existing object is without reference, and
nothing refers to a deleted object. -/
def Counted (st : St) : Prop :=
  (∀ (x : Id) (o : Obj), st.heap[x]? = some (some o) → o.count = (refs st x : Int) ∧ 0 < refs st x) ∧
    ∀ x, 0 < refs st x → Alive st x

/-- No count is at the limit of the assertions. -/
def Small (st : St) : Prop := ∀ x, refs st x < 65534

/-- What a reference refers to, what that object's members refer to, and so on. -/
inductive Reach (st : St) : Id → Prop
  | root {x} : some x ∈ st.roots → Reach st x
  | raw {x} : x ∈ st.raw → Reach st x
  | field {y x o} : Reach st y → st.heap[y]? = some (some o) → some x ∈ o.fields → Reach st x

/-- Nothing but the deletion of objects (and counts) is different. -/
def Kept (st st' : St) : Prop :=
  st'.roots = st.roots ∧ st'.raw = st.raw ∧ st'.heap.length = st.heap.length ∧
    ∀ (x : Id) (o' : Obj), st'.heap[x]? = some (some o') → ∃ o : Obj, st.heap[x]? = some (some o) ∧ o'.fields = o.fields

/-- No object refers to itself in a roundabout way. -/
def Acyclic (st : St) : Prop :=
  ∃ rank : Id → Nat, ∀ y x o, st.heap[y]? = some (some o) → some x ∈ o.fields → rank x < rank y

/-- The operations that copy or take references without giving up another one first. -/
def Op.Safe : Op → Prop
  | .assignMove (.root _) (.root _) => True
  | .assignMove _ _ => False
  | .clear (.root _) => True
  | .clear _ => False
  | _ => True

end Verif.Ref
