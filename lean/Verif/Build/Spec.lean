import Verif.Build.Model
/-!
# Build target dependencies — what propagation should achieve

Everything is said in terms of the dependency graph and the properties as they were before.
-/
namespace Verif.Build.Spec

/-- Follow any number of edges. -/
inductive Star (edge : Nat → Nat → Prop) : Nat → Nat → Prop
  | refl (d) : Star edge d d
  | step {d c e} : edge d c → Star edge c e → Star edge d e

/-- `d` depends on `c`, publicly or privately. -/
def AnyEdge (w : World) (d c : Nat) : Prop := ∃ v, (v, c) ∈ (w.node d).deps

/-- `d` depends publicly on `c`. -/
def PubEdge (w : World) (d c : Nat) : Prop := (Vis.pub, c) ∈ (w.node d).deps

/-- `d` and `c` end up in the same binary: one of them is not built from source, or both belong to the
same shared library (or to none). -/
def SameBinary (w : World) (d c : Nat) : Prop :=
  ∀ t u, (w.node d).target = some t → (w.node c).target = some u → t.shared = u.shared

/-- `d` depends on `c` and is statically linked with it. -/
def StaticEdge (w : World) (d c : Nat) : Prop := AnyEdge w d c ∧ SameBinary w d c

/-- A property of `d` or of anything reached from it. -/
def Gather {α : Type} (edge : Nat → Nat → Prop) (own : Nat → α → Prop) (d : Nat) (x : α) : Prop :=
  ∃ e, Star edge d e ∧ own e x

/-- What `d` is built against: itself, and whatever its direct dependencies show. -/
def BuildDep (w : World) (d e : Nat) : Prop :=
  e = d ∨ ∃ c, AnyEdge w d c ∧ Star (PubEdge w) c e

/-- What `d` is linked with: its own libraries; those of the targets statically linked into it, and
these targets themselves; and the shared libraries that contain its other dependencies. -/
inductive Lib (w : World) : Nat → Str → Prop
  | own {d x} : x ∈ (w.node d).libs → Lib w d x
  | inherit {d c x} : StaticEdge w d c → Lib w c x → Lib w d x
  | link {d c t x} : StaticEdge w d c → (w.node c).target = some t → linkName t = some x → Lib w d x
  | container {d c t s} : AnyEdge w d c → ¬ SameBinary w d c → (w.node c).target = some t →
      t.shared = some s → Lib w d s.name

/-- The value a key is defined as: the first definition counts. -/
def value (defs : List PPDef) (k : Str) : Option Str := (defs.find? (fun p => p.key = k)).map (·.value)

/-- The definition telling `d` whether a target it is built against is imported or exported. -/
def ExportKey (w : World) (d : Nat) (k : Str) : Prop :=
  ∃ e t u s, BuildDep w d e ∧ (w.node d).target = some t ∧ (w.node e).target = some u ∧
    u.shared = some s ∧ u.dynPrefix ≠ [] ∧ k = exportKey (decide (some s = t.shared)) u.dynPrefix

/-- A build target after propagation. -/
structure TargetDone (w : World) (d : Nat) (t t' : Target) : Prop where
  kept : t'.ttype = t.ttype ∧ t'.name = t.name ∧ t'.shared = t.shared ∧ t'.dynPrefix = t.dynPrefix
  includes : ∀ x, x ∈ t'.privIncludes ↔ x ∈ t.privIncludes ∨
    ∃ c, AnyEdge w d c ∧ Gather (PubEdge w) (fun e x => x ∈ (w.node e).includeDirs) c x
  includesFirst : t.privIncludes <+: t'.privIncludes
  flags : ∀ x, x ∈ t'.privFlags ↔ x ∈ t.privFlags ∨
    ∃ c, AnyEdge w d c ∧ Gather (PubEdge w) (fun e x => x ∈ (w.node e).flags) c x
  exported : ∀ k, ExportKey w d k → value t'.privDefines k = some one
  own : ∀ k v, ¬ ExportKey w d k → value t.privDefines k = some v → value t'.privDefines k = some v
  keys : ∀ k, (value t'.privDefines k).isSome ↔ ExportKey w d k ∨ (value t.privDefines k).isSome ∨
    ∃ c, AnyEdge w d c ∧ Gather (PubEdge w) (fun e k => (value (w.node e).defines k).isSome) c k
  source : ∀ k v, ¬ ExportKey w d k → value t'.privDefines k = some v → value t.privDefines k = some v ∨
    ∃ c, AnyEdge w d c ∧ Gather (PubEdge w) (fun e p => value (w.node e).defines p.1 = some p.2) c (k, v)

/-- A dependency after propagation. -/
structure Done (w : World) (d : Nat) (n : Node) : Prop where
  deps : n.deps = (w.node d).deps
  once : n.visible.Nodup
  visible : ∀ e, e ∈ n.visible ↔ Star (PubEdge w) d e
  includes : ∀ x, x ∈ n.includeDirs ↔ Gather (PubEdge w) (fun e x => x ∈ (w.node e).includeDirs) d x
  includesFirst : (w.node d).includeDirs <+: n.includeDirs
  flags : ∀ x, x ∈ n.flags ↔ Gather (PubEdge w) (fun e x => x ∈ (w.node e).flags) d x
  ownDefs : ∀ k v, value (w.node d).defines k = some v → value n.defines k = some v
  keys : ∀ k, (value n.defines k).isSome ↔
    Gather (PubEdge w) (fun e k => (value (w.node e).defines k).isSome) d k
  source : ∀ k v, value n.defines k = some v →
    Gather (PubEdge w) (fun e p => value (w.node e).defines p.1 = some p.2) d (k, v)
  libs : ∀ x, x ∈ n.libs ↔ Lib w d x
  dlls : ∀ x, x ∈ n.dlls ↔ Gather (StaticEdge w) (fun e x => x ∈ (w.node e).dlls) d x
  frameworks : ∀ x, x ∈ n.frameworks ↔ Gather (StaticEdge w) (fun e x => x ∈ (w.node e).frameworks) d x
  noTarget : (w.node d).target = none → n.target = none
  target : ∀ t, (w.node d).target = some t → ∃ t', n.target = some t' ∧ TargetDone w d t t'

/-- What the two assertions ask for at `d`: a dependency linked into another binary belongs to a
shared library; and a target that belongs to a shared library is built only against targets that
belong to one. -/
structure Safe (w : World) (d : Nat) : Prop where
  contained : ∀ c, AnyEdge w d c → ¬ SameBinary w d c → ∀ t, (w.node c).target = some t → t.shared ≠ none
  against : ∀ t, (w.node d).target = some t → t.shared ≠ none →
    ∀ e u, BuildDep w d e → (w.node e).target = some u → u.shared ≠ none

/-- `Safe` holds wherever propagation gets. -/
def AllSafe (w : World) (d : Nat) : Prop := ∀ e, Star (AnyEdge w) d e → Safe w e

/-- The graph has no cycles: `r` decreases along every edge. -/
def Acyclic (w : World) (r : Nat → Nat) : Prop := ∀ d c, AnyEdge w d c → r c < r d

/-- Nothing has been propagated yet. -/
def Fresh (w : World) : Prop := ∀ e, (w.node e).propagated = false ∧ (w.node e).visible = []

/-- The visibility with which `d` is among the dependencies. -/
def vis (deps : List (Vis × Nat)) (d : Nat) : Option Vis := (deps.find? (fun p => p.2 = d)).map (·.1)

end Verif.Build.Spec
