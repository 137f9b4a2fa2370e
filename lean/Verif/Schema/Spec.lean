import Verif.Schema.Model
/-!
# What reading a schema should give
-/
namespace Verif.Schema.Spec

/-- The types a type mentions. -/
def parts : Kind → List T
  | .prim .. | .enum .. | .other => []
  | .fixedArray _ t | .array t | .owned t | .rawPtr t => [t]
  | .struct _ ps ms => ps.map (·.2) ++ ms.map (·.2)
  | .enumArray i e => [i, e]
  | .switch _ ss => ss.map (·.2)

/-- `Reaches types a b`: from `a` one gets to `b` by going to mentioned types, in any number of steps. -/
inductive Reaches (types : T → Kind) : T → T → Prop
  | refl {a} : Reaches types a a
  | step {a b c} : Reaches types a b → c ∈ parts (types b) → Reaches types a c

/-- Numbers and names fit their fields, built-in keys are such; references, functions and built-in types
that are not listed are left out. -/
def Fits : Kind → Prop
  | .prim k l => 2 ≤ k ∧ k < 16 ∧ l = true
  | .fixedArray n _ => n < 2 ^ 32
  | .array _ | .owned _ | .rawPtr _ | .enumArray .. => True
  | .struct name ps ms => name.length < 2 ^ 32 ∧ ps.length < 2 ^ 16 ∧ ms.length < 2 ^ 16 ∧
      (∀ p ∈ ps, p.1.length < 2 ^ 32) ∧ (∀ m ∈ ms, m.1.length < 2 ^ 32)
  | .enum name size ids => name.length < 2 ^ 32 ∧ size < 2 ^ 8 ∧ ids.length < 2 ^ 32 ∧
      ∀ i ∈ ids, i.length < 2 ^ 32
  | .switch name ss => name.length < 2 ^ 32 ∧ ss.length < 2 ^ 16 ∧ ∀ s ∈ ss, s.1.length < 2 ^ 32
  | .other => False

/-- What the types demand of each other: the index of an enum-indexed array is an enum, the states of a
switch are structs. -/
def Typed (types : T → Kind) : Kind → Prop
  | .enumArray _ e => ∃ n s ids, types e = .enum n s ids
  | .switch _ ss => ∀ s ∈ ss, ∃ n ps ms, types s.2 = .struct n ps ms
  | _ => True

/-- A finite collection of types that mention only each other. -/
structure Closed (types : T → Kind) (u : List T) : Prop where
  few : u.length + 1000 < 2 ^ 32
  parts : ∀ t ∈ u, ∀ c ∈ parts (types t), c ∈ u
  fits : ∀ t ∈ u, Fits (types t)
  typed : ∀ t ∈ u, Typed types (types t)

/-- No switch is reached from one of its states. -/
def SwitchesEnd (types : T → Kind) (u : List T) : Prop :=
  ∀ t ∈ u, ∀ n ss, types t = .switch n ss → ∀ s ∈ ss, ¬Reaches types s.2 t

/-- No type mentions, directly or not, itself. -/
def Acyclic (types : T → Kind) (u : List T) : Prop :=
  ∀ t ∈ u, ∀ c ∈ parts (types t), ¬Reaches types c t

/-- The format of a type, given where the formats of the mentioned types are. -/
def format (f : T → Ref) : Kind → Option Desc
  | .prim .. | .other => none
  | .fixedArray n t => some (.fixedArray n (f t))
  | .array t => some (.array (f t))
  | .owned t => some (.owned (f t))
  | .rawPtr t => some (.rawPtr (f t))
  | .struct n ps ms => some (.struct n (ps.map fun p => (p.1, f p.2)) (ms.map fun m => (m.1, f m.2)))
  | .enum n s ids => some (.enum n s ids)
  | .enumArray i e => some (.enumArray (f i) (f e))
  | .switch n ss => some (.switch n (ss.map fun s => (s.1, f s.2)))

/-- The format of `t` is at `r`, when formats of the types `ts` are stored in this order. -/
def At (types : T → Kind) (ts : List T) (t : T) (r : Ref) : Prop :=
  (∃ k, types t = .prim k true ∧ r = .builtin k) ∨
  ((∀ k, types t ≠ .prim k true) ∧ ∃ i, ts[i]? = some t ∧ r = .user i)

end Verif.Schema.Spec
