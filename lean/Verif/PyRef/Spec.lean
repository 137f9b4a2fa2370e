import Verif.PyRef.Model
import Verif.Pylon.Spec
/-!
# Exporting and importing — specification
-/
namespace Verif.PyRef
open Verif Schema

/-- The values an integer type can hold (by format key: `S32`, `U8`, `U16`, `U32`; other integer types are
left open). -/
def InRange (key : Nat) (n : Int) : Prop :=
  (key = 5 → -2 ^ 31 ≤ n ∧ n < 2 ^ 31) ∧ (key = 7 → 0 ≤ n ∧ n < 2 ^ 8) ∧ (key = 8 → 0 ≤ n ∧ n < 2 ^ 16) ∧
    (key = 9 → 0 ≤ n ∧ n < 2 ^ 32)

/-- Contents that belong to a type. -/
inductive Fits (env : Env) : T → Val → Prop
  | bool {t l b} : env.kind t = .prim 2 l → Fits env t (.bool b)
  | str {t l s} : env.kind t = .prim 13 l → Fits env t (.str s)
  | real {t l x} : env.kind t = .prim 11 l → Fits env t (.real x)
  | int {t key l n} : env.kind t = .prim key l → key ≠ 2 → key ≠ 13 → key ≠ 11 → InRange key n →
      Fits env t (.int n)
  | fixedArray {t k item vs} : env.kind t = .fixedArray k item → vs.length = k →
      (∀ v, v ∈ vs → Fits env item v) → Fits env t (.items vs)
  | array {t item vs} : env.kind t = .array item → (∀ v, v ∈ vs → Fits env item v) → Fits env t (.items vs)
  | enumArray {t item e vs} : env.kind t = .enumArray item e → (∀ v, v ∈ vs → Fits env item v) →
      Fits env t (.items vs)
  | struct {t name ps ms vs} : env.kind t = .struct name ps ms → vs.length = ms.length →
      (∀ (i : Nat) (m : List Byte × T) v, ms[i]? = some m → vs[i]? = some v → Fits env m.2 v) → Fits env t (.struct vs)
  | enum {t name size ids n} : env.kind t = .enum name size ids → n < 256 ^ size → Fits env t (.enum n)
  | switch {t name ss id s v} : env.kind t = .switch name ss → ss[id]? = some s → Fits env s.2 v →
      Fits env t (.switch id v)
  | owned {t target v} : env.kind t = .owned target → Fits env target v → Fits env t (.owned v)
  | null {t target} : env.kind t = .owned target → Fits env t .null

/-- Contents that can be saved: made of structs, strings, bools, arrays, switches, enums with one of the
values named, and pointers that are not null; names within a type are different.  All texts and all names
used satisfy `P`. -/
inductive Saves (env : Env) (P : List Byte → Prop) : T → Val → Prop
  | bool {t l b} : env.kind t = .prim 2 l → Saves env P t (.bool b)
  | str {t l s} : env.kind t = .prim 13 l → P s → Saves env P t (.str s)
  | array {t item vs} : env.kind t = .array item → (∀ v, v ∈ vs → Saves env P item v) →
      Saves env P t (.items vs)
  | struct {t name ps ms vs} : env.kind t = .struct name ps ms → vs.length = ms.length →
      (ms.map Prod.fst).Nodup → (∀ m, m ∈ ms → P m.1) →
      (∀ (i : Nat) (m : List Byte × T) v, ms[i]? = some m → vs[i]? = some v → Saves env P m.2 v) → Saves env P t (.struct vs)
  | enum {t name size ids n} : env.kind t = .enum name size ids → size = 1 ∨ size = 2 ∨ size = 4 →
      ids.Nodup → (env.vals t).length = ids.length → n ∈ env.vals t → n < 256 ^ size → (∀ i, i ∈ ids → P i) →
      Saves env P t (.enum n)
  | switch {t name ss id s v} : env.kind t = .switch name ss → (ss.map Prod.fst).Nodup → ss[id]? = some s →
      P s.1 → Saves env P s.2 v → Saves env P t (.switch id v)
  | owned {t target v} : env.kind t = .owned target → Saves env P target v → Saves env P t (.owned v)

/-- A type that has contents is constructed with contents that belong to it. -/
def DefaultsFit (env : Env) : Prop := ∀ t v, Fits env t v → Fits env t (env.dflt t)

/-- The objects import constructs (new array items, new switch states, the target of a pointer) belong to
their types. -/
structure Constructs (env : Env) : Prop where
  items : ∀ t item, env.kind t = .array item → Fits env item (env.dflt item)
  states : ∀ t name ss, env.kind t = .switch name ss → ∀ s ∈ ss, Fits env s.2 (env.dflt s.2)
  target : ∀ t target, env.kind t = .owned target → Fits env target (env.dflt target)

end Verif.PyRef
