import Verif.Rm.Env
import Verif.Fs.SpecWalk
/-!
# What removing a directory should do
-/
namespace Verif.Rm.Spec

open Verif.Fs (Name Where)
open Verif.Fs.Walk.Spec (Plain)

/-- A disk as there may be one: one thing at a place, in directories, with ordinary names. -/
structure Tree (d : Disk) : Prop where
  once : (d.map (·.1)).Nodup
  named : ∀ e ∈ d, ∃ v n, e.1 = v ++ [n] ∧ Plain n ∧ (v = [] ∨ (v, Node.dir) ∈ d)

/-- `v` is `w` or below it. -/
def Below (w v : Where) : Prop := w <+: v

instance (w v : Where) : Decidable (Below w v) := by unfold Below; infer_instance

/-- The disk without what is at `w` and below. -/
def without (d : Disk) (w : Where) : Disk := d.filter fun e => ¬ Below w e.1

/-- `path` is written without `.` and `..` and leads from the current directory or the root through real directories,
not links, to the place `w`. -/
structure LeadsTo (d : Disk) (cwd : Where) (path : List Byte) (w : Where) : Prop where
  plain : Path.Spec.Plainly (Path.Spec.names false path)
  some : Path.Spec.names false path ≠ []
  place : w = Fs.start cwd path ++ Path.Spec.names false path
  dirs : ∀ k, k < (Path.Spec.names false path).length →
    lookup d (Fs.start cwd path ++ (Path.Spec.names false path).take k) = Option.some .dir

/-- Every link at or below `w` leads to something, whatever is removed below `w`. -/
def LinksHold (d : Disk) (w : Where) : Prop :=
  ∀ v t, (v, Node.link t) ∈ d → Below w v → ∀ d' : Disk, (∀ u, ¬ Below w u → lookup d' u = lookup d u) →
    t ≠ [] ∧ ∃ u, resolveN d' true 40 (Fs.start v.dropLast t) (Fs.comps t) = .ok u ∧ lookup d' u ≠ none

end Verif.Rm.Spec
