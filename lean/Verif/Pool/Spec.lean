import Verif.Basic
/-!
# What a pool is: a finite map from ids to items

Nothing here refers to the model.
-/
namespace Verif.Pool.Spec

variable {α : Type _}

/-- The map with one entry changed. -/
def put (m : Nat → Option α) (i : Nat) (v : Option α) : Nat → Option α :=
  fun j => if j = i then v else m j

/-- Requests. -/
inductive Op (α : Type _) where
  | new (x : α)
  | del (i : Nat)
  | get (i : Nat)
  | iterate
  | clear

/-- Answers. -/
inductive Out (α : Type _) where
  | id (i : Nat)
  | done
  | item (x : α)
  | visited (l : List (Nat × α))
  | destructed (l : List α)
deriving DecidableEq

/-- A request may only name an id that is in use. -/
def Legal (m : Nat → Option α) : Op α → Prop
  | .del i => m i ≠ none
  | .get i => m i ≠ none
  | _ => True

/-- `l` lists the map in increasing order of ids. -/
def Listing (m : Nat → Option α) (l : List (Nat × α)) : Prop :=
  l.Pairwise (fun a b => a.1 < b.1) ∧ ∀ i x, (i, x) ∈ l ↔ m i = some x

/-- Answering a request: `Step m op m' out`. -/
def Step (m : Nat → Option α) : Op α → (Nat → Option α) → Out α → Prop
  | .new x, m', .id i => m i = none ∧ m' = put m i (some x)
  | .del i, m', .done => m' = put m i none
  | .get i, m', .item x => m' = m ∧ m i = some x
  | .iterate, m', .visited l => m' = m ∧ Listing m l
  | .clear, m', .destructed l => m' = (fun _ => none) ∧ ∃ p, Listing m p ∧ l = p.map (·.2)
  | _, _, _ => False

/-- A history of requests with its answers. -/
inductive History : (Nat → Option α) → List (Op α) → List (Out α) → (Nat → Option α) → Prop where
  | nil (m) : History m [] [] m
  | cons {m m' m'' op out ops outs} : Step m op m' out → History m' ops outs m'' →
      History m (op :: ops) (out :: outs) m''

end Verif.Pool.Spec
