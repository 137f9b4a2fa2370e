import Verif.Persist.Spec
/-!
# What loading an object as another type should give
-/
namespace Verif.Persist.Spec
open Verif Schema

/-- The bits `m` of a number with key `dst` are right for the bits `n` of a number with key `src`.  A whole
number is the same up to a multiple of the number of values there are, so the same when there is such; a
`bool` is whether the number was not 0 as a `u32`; with floating point what the machine makes of it. -/
def Converts (env : Env) (src n dst m : Nat) : Prop :=
  if src = 11 ∨ src = 12 ∨ dst = 11 ∨ dst = 12 then m = env.fcast src dst n
  else if dst = 2 then m ≤ 1 ∧ (m = 0 ↔ (2 : Int) ^ 32 ∣ value src n)
  else ∃ w, width dst = some w ∧ m < 2 ^ (8 * w) ∧ (2 : Int) ^ (8 * w) ∣ value dst m - value src n

/-- What is in the file, saved from a type of the first kind, does not go into an object of the second. -/
def Unlike (saved now : Kind) : Prop :=
  match now, saved with
  | .prim k2 _, .prim k1 _ => ¬(k1 = 13 ↔ k2 = 13)
  | .prim .., _ => True
  | .fixedArray n _, .fixedArray m _ => n ≠ m
  | .fixedArray .., _ => True
  | .array .., .array .. => False
  | .array .., _ => True
  | .owned .., .owned .. => False
  | .owned .., _ => True
  | .struct .., .struct .. => False
  | .struct .., _ => True
  | .enumArray .., .enumArray .. => False
  | .enumArray .., _ => True
  | .switch .., .switch .. => False
  | .switch .., _ => True
  | _, _ => False

/-- `Becomes env t v t' old new`: `v` was saved as a `t`; loaded as a `t'` into an object that holds `old`,
it gives `new`. -/
inductive Becomes (env : Env) : T → Val → T → Val → Val → Prop
  | unlike {t v t' old} : Unlike (env.kind t) (env.kind t') → Becomes env t v t' old old
  | num {t t' k l k' l' n m old} : env.kind t = .prim k l → env.kind t' = .prim k' l' →
      Converts env k n k' m → Becomes env t (.num n) t' old (.num m)
  | str {t t' l l' s old} : env.kind t = .prim 13 l → env.kind t' = .prim 13 l' →
      Becomes env t (.str s) t' old (.str s)
  | array {t t' item item' vs ws old} : env.kind t = .array item → env.kind t' = .array item' →
      ws.length = vs.length →
      (∀ (i : Nat) v w, vs[i]? = some v → ws[i]? = some w → Becomes env item v item' (env.dflt item') w) →
      Becomes env t (.items vs) t' old (.items ws)
  | fixedArray {t t' n item item' vs ws os} : env.kind t = .fixedArray n item →
      env.kind t' = .fixedArray n item' → vs.length = n → os.length = n → ws.length = n →
      (∀ (i : Nat) v o w, vs[i]? = some v → os[i]? = some o → ws[i]? = some w →
        Becomes env item v item' o w) →
      Becomes env t (.items vs) t' (.items os) (.items ws)
  | owned {t t' target target' a b v w old} : env.kind t = .owned target → env.kind t' = .owned target' →
      Becomes env target v target' (env.dflt target') w → Becomes env t (.owned a v) t' old (.owned b w)
  /-- Members go by name; those that are not in the file stay. -/
  | struct {t t' n ps ms n' ps' ms' vs ws os} : env.kind t = .struct n ps ms →
      env.kind t' = .struct n' ps' ms' → vs.length = ms.length → os.length = ms'.length →
      ws.length = ms'.length →
      (∀ (j : Nat) m v (i : Nat) m' o w, ms[j]? = some m → vs[j]? = some v → ms'[i]? = some m' →
        os[i]? = some o → ws[i]? = some w → m.1 = m'.1 → Becomes env m.2 v m'.2 o w) →
      (∀ (i : Nat) m', ms'[i]? = some m' → (∀ m ∈ ms, m.1 ≠ m'.1) → ws[i]? = os[i]?) →
      Becomes env t (.struct vs) t' (.struct os) (.struct ws)
  /-- Values of enums go by name, too. -/
  | enum {t t' n s ids n' s' ids' x y old} {i j : Nat} {name} : env.kind t = .enum n s ids →
      env.kind t' = .enum n' s' ids' → (env.vals t)[i]? = some x → ids[i]? = some name →
      (env.vals t')[j]? = some y → ids'[j]? = some name → Becomes env t (.enum x) t' old (.enum y)
  | enumGone {t t' n s ids n' s' ids' x old} {i : Nat} {name} : env.kind t = .enum n s ids →
      env.kind t' = .enum n' s' ids' → (env.vals t)[i]? = some x → ids[i]? = some name →
      name ∉ ids' → Becomes env t (.enum x) t' old old
  /-- So do the items of arrays indexed by enums. -/
  | enumArray {t t' item e item' e' n s ids n' s' ids' vs ws os} : env.kind t = .enumArray item e →
      env.kind t' = .enumArray item' e' → env.kind e = .enum n s ids → env.kind e' = .enum n' s' ids' →
      vs.length = ids.length → os.length = ids'.length → ws.length = ids'.length →
      (∀ (j : Nat) name v (i : Nat) o w, ids[j]? = some name → vs[j]? = some v → ids'[i]? = some name →
        os[i]? = some o → ws[i]? = some w → Becomes env item v item' o w) →
      (∀ (i : Nat) name, ids'[i]? = some name → name ∉ ids → ws[i]? = os[i]?) →
      Becomes env t (.items vs) t' (.items os) (.items ws)
  /-- And the states of switches. -/
  | switch {t t' n ss n' ss'} {i j k : Nat} {s s' v o w} : env.kind t = .switch n ss →
      env.kind t' = .switch n' ss' → ss[i]? = some s → ss'[j]? = some s' → s.1 = s'.1 →
      Becomes env s.2 v s'.2 (if k = j then o else env.dflt s'.2) w →
      Becomes env t (.switch i v) t' (.switch k o) (.switch j w)
  | switchGone {t t' n ss n' ss'} {i : Nat} {s v old} : env.kind t = .switch n ss →
      env.kind t' = .switch n' ss' → ss[i]? = some s → (∀ s' ∈ ss', s'.1 ≠ s.1) →
      Becomes env t (.switch i v) t' old old

/-- Objects saved as a `t` can be loaded as a `t'`: an enum only from an enum, which is not tested when
loading, and no raw pointers.  The values of the enum fit its size.  States of a switch that have the same
name must be at the same place. -/
inductive Compatible (env : Env) : T → T → Prop
  | unlike {t t'} : Unlike (env.kind t) (env.kind t') → Compatible env t t'
  | num {t t' k l k' l'} : env.kind t = .prim k l → env.kind t' = .prim k' l' → width k ≠ none →
      width k' ≠ none → Compatible env t t'
  | str {t t' l l'} : env.kind t = .prim 13 l → env.kind t' = .prim 13 l' → Compatible env t t'
  | array {t t' item item'} : env.kind t = .array item → env.kind t' = .array item' →
      Compatible env item item' → Compatible env t t'
  | fixedArray {t t' n item item'} : env.kind t = .fixedArray n item → env.kind t' = .fixedArray n item' →
      Compatible env item item' → Compatible env t t'
  | owned {t t' target target'} : env.kind t = .owned target → env.kind t' = .owned target' →
      Compatible env target target' → Compatible env t t'
  | struct {t t' n ps ms n' ps' ms'} : env.kind t = .struct n ps ms → env.kind t' = .struct n' ps' ms' →
      (∀ m ∈ ms, ∀ m' ∈ ms', m.1 = m'.1 → Compatible env m.2 m'.2) → Compatible env t t'
  | enum {t t' n s ids n' s' ids'} : env.kind t = .enum n s ids → env.kind t' = .enum n' s' ids' →
      (∀ y ∈ env.vals t', y < 2 ^ (8 * s')) → Compatible env t t'
  | enumArray {t t' item e item' e'} : env.kind t = .enumArray item e → env.kind t' = .enumArray item' e' →
      Compatible env item item' → Compatible env t t'
  | switch {t t' n ss n' ss'} : env.kind t = .switch n ss → env.kind t' = .switch n' ss' →
      (∀ (i j : Nat) s s', ss[i]? = some s → ss'[j]? = some s' → s.1 = s'.1 → i = j) →
      (∀ s ∈ ss, ∀ s' ∈ ss', s.1 = s'.1 → Compatible env s.2 s'.2) → Compatible env t t'

mutual
/-- No unresolved link. -/
def Linkless : Val → Prop
  | .link .. => False
  | .owned _ v => Linkless v
  | .items vs => LinklessList vs
  | .struct vs => LinklessList vs
  | .switch _ v => Linkless v
  | _ => True
/-- The same for several objects. -/
def LinklessList : List Val → Prop
  | [] => True
  | v :: vs => Linkless v ∧ LinklessList vs
end

end Verif.Persist.Spec
