import Verif.HMap.Model
import Verif.HMap.Spec
/-! # A program using the hash map -/
namespace Verif.HMap

variable {K V : Type} [DecidableEq K]

/-- One operation through the public interface (rt/container/HashMap.h:344-446): `insertOrFind` and an
assignment through the cursor, `find`, `find` and `Cursor::erase`, `numItems`, a range-`for`. -/
def step (T : Traits K V) (fuel : Nat) (t : Table K V) : Op K V → Option (Out K V × Table K V)
  | .put k v =>
    match findWithInsert T k fuel t with
    | none => none
    | some (.found idx _, t') => (setValue t'.cells idx v).map fun cs => (.flag true, ⟨cs, t'.pop⟩)
    | some (.inserted idx, t') => (setValue t'.cells idx v).map fun cs => (.flag false, ⟨cs, t'.pop⟩)
    | some _ => none
  | .get k =>
    match insertOrFind T t.cells k false with
    | none => none
    | some (.found idx _, cs) =>
      match getItem cs idx with
      | none => none
      | some it => some (.value (some it.2), ⟨cs, t.pop⟩)
    | some (.notFound, cs) => some (.value none, ⟨cs, t.pop⟩)
    | some _ => none
  | .erase k =>
    match insertOrFind T t.cells k false with
    | none => none
    | some (.found idx link, cs) => (erase ⟨cs, t.pop⟩ idx link).map fun t' => (.flag true, t')
    | some (.notFound, cs) => some (.flag false, ⟨cs, t.pop⟩)
    | some _ => none
  | .count => some (.number t.pop, t)
  | .all => (iterate t.cells 0).map fun l => (.items l, t)

/-- A sequence of operations. -/
def run (T : Traits K V) (fuel : Nat) : Table K V → List (Op K V) → Option (List (Out K V) × Table K V)
  | t, [] => some ([], t)
  | t, op :: ops =>
    match step T fuel t op with
    | none => none
    | some (out, t') => (run T fuel t' ops).map fun r => (out :: r.1, r.2)

/-- rt/container/HashMap.cpp:24-27, the constructor. -/
def create (size : Nat) : Option (Table K V) := (createTable size).map fun cs => ⟨cs, 0⟩

end Verif.HMap
