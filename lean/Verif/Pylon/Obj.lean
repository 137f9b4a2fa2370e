import Verif.Basic
/-!
# Pylon objects — model of `Node::get/set/remove/copy`, pylon/pylon/pylon/Node.cpp:35-66, 106-150

An object keeps its properties in an array, in insertion order, and a hash table of array indices.
-/
namespace Verif.Pylon
open Verif

/-- `Node::Object`, pylon/pylon/pylon/Node.h:22-41.  The hash table is represented by its entries
(stored hash, array index) in the order in which a search meets them; what is modelled of it is
`insertOrFind`/`find` (container/HashMap.cpp:127-182: entries with the right hash are offered to
`match`), insertion and `erase`.  The table's own structure is left out. -/
structure Obj (V : Type) where
  index : List (Nat × Nat)
  items : List (List Byte × V)

variable {V : Type}

/-- Searching the index: `IndexTraits::match`, pylon/pylon/pylon/Node.h:33-35, on the entries with
the key's hash.  Outer `none`: the array is indexed out of bounds; `some (some p)`: found in the
entry at position `p`. -/
def Obj.find (hash : List Byte → Nat) (key : List Byte) (items : List (List Byte × V)) :
    List (Nat × Nat) → Option (Option Nat)
  | [] => some none
  | (h, i) :: t =>
    if h = hash key then
      match items[i]? with
      | none => none
      | some it =>
        if it.1 = key then some (some 0)
        else (find hash key items t).map (fun r => r.map (· + 1))
    else (find hash key items t).map (fun r => r.map (· + 1))

/-- `Node::get(StringView)`, pylon/pylon/pylon/Node.cpp:106-115, on an object (`some none`: the
invalid node). -/
def Obj.get (hash : List Byte → Nat) (o : Obj V) (key : List Byte) : Option (Option V) :=
  match Obj.find hash key o.items o.index with
  | none => none
  | some none => some none
  | some (some p) =>
    match o.index[p]? with
    | none => none
    | some (_, i) =>
      match o.items[i]? with
      | none => none
      | some it => some (some it.2)

/-- `Node::set`, pylon/pylon/pylon/Node.cpp:117-130, on an object (the number of items is a `u32`;
no wrap-around is modelled). -/
def Obj.set (hash : List Byte → Nat) (o : Obj V) (key : List Byte) (v : V) : Option (Obj V) :=
  match Obj.find hash key o.items o.index with
  | none => none
  | some (some p) =>
    match o.index[p]? with
    | none => none
    | some (_, i) =>
      match o.items[i]? with
      | none => none
      | some it => some ⟨o.index, o.items.set i (it.1, v)⟩
  | some none => some ⟨o.index ++ [(hash key, o.items.length)], o.items ++ [(key, v)]⟩

/-- `Node::remove`, pylon/pylon/pylon/Node.cpp:132-150, on an object: the removed value, if any, and
the object afterwards. -/
def Obj.remove (hash : List Byte → Nat) (o : Obj V) (key : List Byte) :
    Option (Option V × Obj V) :=
  match Obj.find hash key o.items o.index with
  | none => none
  | some none => some (none, o)
  | some (some p) =>
    match o.index[p]? with
    | none => none
    | some (_, i) =>
      match o.items[i]? with
      | none => none
      | some it =>
        some (some it.2,
          ⟨(o.index.eraseIdx p).map (fun e => if e.2 > i then (e.1, e.2 - 1) else e),
           o.items.eraseIdx i⟩)

/-- The index built by `Node::copy`, pylon/pylon/pylon/Node.cpp:50-59, from entry `n` on.
`insertOrFind` is called without the context (container/HashMap.h:459: null by default).  With
assertions (`checked`) that stops at container/HashMap.cpp:130; without, `match` dereferences the
null context as soon as an entry with the same hash is met. -/
def Obj.copyIndex (checked : Bool) (hash : List Byte → Nat) :
    List (Nat × Nat) → Nat → List (List Byte × V) → Option (List (Nat × Nat))
  | idx, _, [] => some idx
  | idx, n, (k, _) :: rest =>
    if checked then none
    else if idx.any (fun e => e.1 == hash k) then none
    else copyIndex checked hash (idx ++ [(hash k, n)]) (n + 1) rest

/-- `Node::copy` on an object, pylon/pylon/pylon/Node.cpp:50-59, with the values copied as they are. -/
def Obj.copy (checked : Bool) (hash : List Byte → Nat) (o : Obj V) : Option (Obj V) :=
  match Obj.copyIndex checked hash [] 0 o.items with
  | none => none
  | some idx => some ⟨idx, o.items⟩

end Verif.Pylon
