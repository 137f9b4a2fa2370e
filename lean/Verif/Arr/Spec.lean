import Verif.Basic
/-!
# Specification: an array is a sequence of items
-/
namespace Verif.Arr.Spec
variable {α : Type _}

/-- Requests of an array's user. -/
inductive Op (α : Type _) where
  | append (x : α)
  | extend (xs : List α)
  | resize (n : Nat)
  | pop (count : Nat)
  | insert (pos count : Nat)
  | erase (pos count : Nat)
  | eraseQuick1 (pos : Nat)
  | eraseQuick (pos count : Nat)
  | filter (p : α → Bool)
  | assign (xs : List α)
  | reserve (n : Nat)
  | truncate
  | clear

/-- When a request is allowed on the sequence `xs`.  Sizes stay below 2^31.  For `eraseQuick` with a
count, the full set of documented arguments is `pos + count ≤ xs.length`; `Legal` excludes those for
which the erased items partly overlap the last `count` items. -/
def Legal (xs : List α) : Op α → Prop
  | .append _ => xs.length + 1 < 2 ^ 31
  | .extend ys => xs.length + ys.length < 2 ^ 31
  | .resize n => n < 2 ^ 31
  | .pop count => count ≤ xs.length
  | .insert pos count => pos ≤ xs.length ∧ xs.length + count < 2 ^ 31
  | .erase pos count => pos + count ≤ xs.length
  | .eraseQuick1 pos => pos < xs.length
  | .eraseQuick pos count => pos + 2 * count ≤ xs.length ∨ pos + count = xs.length
  | .filter _ => True
  | .assign ys => ys.length < 2 ^ 31
  | .reserve n => n < 2 ^ 31
  | .truncate => True
  | .clear => True

/-- `Step d xs op ys`: the request may turn the sequence `xs` into `ys`; new items are `d`. -/
def Step (d : α) (xs : List α) : Op α → List α → Prop
  | .append x, ys => ys = xs ++ [x]
  | .extend zs, ys => ys = xs ++ zs
  | .resize n, ys => ys = xs.take n ++ List.replicate (n - xs.length) d
  | .pop count, ys => ys = xs.take (xs.length - count)
  | .insert pos count, ys => ys = xs.take pos ++ List.replicate count d ++ xs.drop pos
  | .erase pos count, ys => ys = xs.take pos ++ xs.drop (pos + count)
  | .eraseQuick1 pos, ys => Quick xs pos 1 ys
  | .eraseQuick pos count, ys => Quick xs pos count ys
  | .filter p, ys => ys.Perm (xs.filter p)
  | .assign zs, ys => ys = zs
  | .reserve _, ys => ys = xs
  | .truncate, ys => ys = xs
  | .clear, ys => ys = []
where
  /-- Exactly the given items are gone, and every other item that is not among the last `count` is
  where it was. -/
  Quick (xs : List α) (pos count : Nat) (ys : List α) : Prop :=
    ys.Perm (xs.take pos ++ xs.drop (pos + count)) ∧
      ∀ i, i + count < xs.length → i < pos ∨ pos + count ≤ i → ys[i]? = xs[i]?

end Verif.Arr.Spec
