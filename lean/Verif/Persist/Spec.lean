import Verif.Persist.Model
import Verif.Schema.Spec
/-!
# What saving and loading an object should give
-/
namespace Verif.Persist.Spec
open Verif Schema

mutual
/-- The addresses of the objects held by `Owned` pointers, in order. -/
def owneds : Val → List Addr
  | .owned a v => a :: owneds v
  | .items vs => ownedsList vs
  | .struct vs => ownedsList vs
  | .switch _ v => owneds v
  | _ => []
/-- The same for several objects. -/
def ownedsList : List Val → List Addr
  | [] => []
  | v :: vs => owneds v ++ ownedsList vs
end

mutual
/-- Where the raw pointers point to, in order. -/
def ptrs : Val → List Addr
  | .ptr a => [a]
  | .owned _ v => ptrs v
  | .items vs => ptrsList vs
  | .struct vs => ptrsList vs
  | .switch _ v => ptrs v
  | _ => []
/-- The same for several objects. -/
def ptrsList : List Val → List Addr
  | [] => []
  | v :: vs => ptrs v ++ ptrsList vs
end

mutual
/-- The same object with other addresses. -/
def rename (σ : Addr → Addr) : Val → Val
  | .owned a v => .owned (σ a) (rename σ v)
  | .ptr a => .ptr (σ a)
  | .items vs => .items (renameList σ vs)
  | .struct vs => .struct (renameList σ vs)
  | .switch id v => .switch id (rename σ v)
  | v => v
/-- The same for several objects. -/
def renameList (σ : Addr → Addr) : List Val → List Val
  | [] => []
  | v :: vs => rename σ v :: renameList σ vs
end

/-- An object of the type, with no null pointer; `heap` gives the type of what is at each address.  Arrays
have less than ten million items. -/
inductive HasType (env : Env) (heap : Addr → T) : T → Val → Prop
  | num {t key w n} : env.kind t = .prim key true → width key = some w → n < 2 ^ (8 * w) →
      (key = 2 → n ≤ 1) → HasType env heap t (.num n)
  | str {t s} : env.kind t = .prim 13 true → s.length < 2 ^ 32 → HasType env heap t (.str s)
  | fixedArray {t item vs} : env.kind t = .fixedArray vs.length item →
      (∀ v ∈ vs, HasType env heap item v) → HasType env heap t (.items vs)
  | array {t item vs} : env.kind t = .array item → vs.length < 10000000 →
      (∀ v ∈ vs, HasType env heap item v) → HasType env heap t (.items vs)
  | owned {t a v} : env.kind t = .owned (heap a) → HasType env heap (heap a) v →
      HasType env heap t (.owned a v)
  | ptr {t a} : env.kind t = .rawPtr (heap a) → HasType env heap t (.ptr a)
  | struct {t n ps ms vs} : env.kind t = .struct n ps ms → vs.length = ms.length →
      (∀ (i : Nat) (m : List Byte × T) (v : Val), ms[i]? = some m → vs[i]? = some v →
        HasType env heap m.2 v) →
      HasType env heap t (.struct vs)
  | enum {t name size ids n} : env.kind t = .enum name size ids → n ∈ env.vals t → n < 2 ^ (8 * size) →
      HasType env heap t (.enum n)
  | enumArray {t item e vs} : env.kind t = .enumArray item e → vs.length = (env.vals e).length →
      (∀ v ∈ vs, HasType env heap item v) → HasType env heap t (.items vs)
  | switch {t name ss} {id : Nat} {s v} : env.kind t = .switch name ss → ss[id]? = some s →
      HasType env heap s.2 v → HasType env heap t (.switch id v)

/-- What an object of the type looks like in memory before it is loaded: the parts stored inside it are
there, their contents do not matter. -/
inductive Formed (env : Env) : T → Val → Prop
  | any {t v} : (∀ n i, env.kind t ≠ .fixedArray n i) → (∀ n ps ms, env.kind t ≠ .struct n ps ms) →
      (∀ i e, env.kind t ≠ .enumArray i e) → (∀ n ss, env.kind t ≠ .switch n ss) → Formed env t v
  | fixedArray {t item vs} : env.kind t = .fixedArray vs.length item → (∀ v ∈ vs, Formed env item v) →
      Formed env t (.items vs)
  | struct {t n ps ms vs} : env.kind t = .struct n ps ms → vs.length = ms.length →
      (∀ (i : Nat) (m : List Byte × T) (v : Val), ms[i]? = some m → vs[i]? = some v → Formed env m.2 v) →
      Formed env t (.struct vs)
  | enumArray {t item e vs} : env.kind t = .enumArray item e → vs.length = (env.vals e).length →
      (∀ v ∈ vs, Formed env item v) → Formed env t (.items vs)
  | switch {t name ss} {id : Nat} {s v} : env.kind t = .switch name ss → ss[id]? = some s →
      Formed env s.2 v → Formed env t (.switch id v)

/-- What holds of types made by the macros of reflect/builtin: members, identifiers and states have
different names, an enum has a value for each identifier and fits its size, and the enum of an
enum-indexed array is numbered from 0. -/
def Proper (env : Env) (t : T) : Prop :=
  match env.kind t with
  | .struct _ _ ms => (ms.map (·.1)).Nodup
  | .enum _ size ids => ids.Nodup ∧ (env.vals t).length = ids.length ∧
      (size = 1 ∧ ids.length ≤ 2 ^ 8 ∨ size = 2 ∧ ids.length ≤ 2 ^ 16 ∨ size = 4 ∧ ids.length ≤ 2 ^ 32)
  | .enumArray _ e => env.vals e = List.range (env.vals e).length
  | .switch _ ss => (ss.map (·.1)).Nodup
  | _ => True

/-- A collection of types, none of which mentions itself, with default-constructed objects. -/
structure Types (env : Env) (u : List T) : Prop where
  closed : Spec.Closed env.kind u
  acyclic : Spec.Acyclic env.kind u
  proper : ∀ t ∈ u, Proper env t
  formed : ∀ t ∈ u, Formed env t (env.dflt t)
  /-- Loading a floating point number as the type it was saved as gives the same number. -/
  same : ∀ key n, key = 11 ∨ key = 12 → env.fcast key key n = n

/-- The objects of this type begin with a byte in the file before any `Owned` pointer. -/
inductive Solid (env : Env) : T → Prop
  | prim {t key l} : env.kind t = .prim key l → Solid env t
  | array {t item} : env.kind t = .array item → Solid env t
  | rawPtr {t target} : env.kind t = .rawPtr target → Solid env t
  | enum {t n s ids} : env.kind t = .enum n s ids → Solid env t
  | switch {t n ss} : env.kind t = .switch n ss → Solid env t
  | fixedArray {t n item} : env.kind t = .fixedArray (n + 1) item → Solid env item → Solid env t
  | struct {t n ps m ms} : env.kind t = .struct n ps (m :: ms) → Solid env m.2 → Solid env t

/-- The list without later copies of the same address. -/
def firsts : List Addr → List Addr
  | [] => []
  | a :: as => a :: (firsts as).filter (· != a)

end Verif.Persist.Spec
