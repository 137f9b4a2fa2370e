import Verif.Schema.Model
import Verif.Pylon.Model
import Verif.Num.ModelReal
/-!
# Exporting reflected objects to Pylon and importing them

Paths are relative to `/repo/repos/plywood/src`; `pr/` stands for `pylon/reflect/pylon-reflect/`, `reflect/`
for `reflect/ply-reflect/`.  Types are those of `Verif.Schema` (property C41), trees those of `Verif.Pylon`
(property C34).
-/
namespace Verif.PyRef
open Verif Schema

/-- The contents of an object in memory as pr/Export.cpp and pr/Import.cpp see it: a bool, an integer, a
`float`, a string, the items of an array of any kind, the members of a struct in the order of the type, an
enum (its value), a switch (its state and the storage), an `Owned` pointer and what it points to, a null
`Owned` pointer. -/
inductive Val where
  | bool (b : Bool)
  | int (n : Int)
  | real (x : Rat)
  | str (s : List Byte)
  | items (vs : List Val)
  | struct (fields : List Val)
  | enum (value : Nat)
  | switch (id : Nat) (state : Val)
  | owned (target : Val)
  | null

/-- What the functions need to know of the types besides `Schema.Kind`: the values of the identifiers of an
enum (reflect/builtin/TypeDescriptor_Enum.h:17-20), the contents of a default-constructed object
(`bindings.construct`, `AnyObject::create`), and the arithmetic of the machine: `double` (property C68) and
the conversion to `float`. -/
structure Env where
  kind : T → Kind
  vals : T → List Nat
  dflt : T → Val
  arith : Num.Arith
  toFloat : Rat → Rat

/-! ## Exporting -/

/-- `Node::get(StringView)` on an object (pylon/pylon/pylon/Node.cpp:106-115); that the hash index finds
the one item with this name is property C35. -/
def getProp (key : List Byte) : List (List Byte × Pylon.Node) → Option Pylon.Node
  | [] => none
  | (k, n) :: rest => if k = key then some n else getProp key rest

/-- `Node::set` on an object (pylon/pylon/pylon/Node.cpp:117-130, property C35). -/
def setProp (key : List Byte) (v : Pylon.Node) :
    List (List Byte × Pylon.Node) → List (List Byte × Pylon.Node)
  | [] => [(key, v)]
  | (k, n) :: rest => if k = key then (k, v) :: rest else (k, n) :: setProp key v rest

/-- The loop over the members of a struct, pr/Export.cpp:19-22. -/
def exportFields (child : T → Val → Option Pylon.Node) :
    List (List Byte × T) → List Val → List (List Byte × Pylon.Node) → Option (List (List Byte × Pylon.Node))
  | [], [], acc => some acc
  | m :: ms, v :: vs, acc => match child m.2 v with
    | none => none
    | some n => exportFields child ms vs (setProp m.1 n acc)
  | _, _, _ => none

/-- The loop over the items of an array, pr/Export.cpp:34-37. -/
def exportItems (child : Val → Option Pylon.Node) : List Val → Option (List Pylon.Node)
  | [] => some []
  | v :: vs => match child v, exportItems child vs with
    | some n, some ns => some (n :: ns)
    | _, _ => none

/-- `true` or `false`, pr/Export.cpp:48. -/
def boolText (b : Bool) : List Byte := if b then [116, 114, 117, 101] else [102, 97, 108, 115, 101]

/-- `findValue` (reflect/builtin/TypeDescriptor_Enum.h:43-49): the name of the first identifier with this
value; `none` is the null pointer, which pr/Export.cpp:62 follows. -/
def findValue : List Nat → List (List Byte) → Nat → Option (List Byte)
  | v :: vs, i :: is, n => if v = n then some i else findValue vs is n
  | _, _, _ => none

/-- The sizes of an enum the code knows (pr/Export.cpp:53-61, pr/Import.cpp:192-202). -/
def enumSize (size : Nat) : Bool := size = 1 ∨ size = 2 ∨ size = 4

/-- `exportObj`, pr/Export.cpp:10-71, without filter; `none` is a failed assertion, a null pointer followed
or contents that do not belong to the type.  (A null `Owned` pointer is taken to be followed; the code does
not if the type pointed to is a struct without members.)  The depth of the recursion is bounded by `fuel`. -/
def exportObj (env : Env) : Nat → T → Val → Option Pylon.Node
  | 0, _, _ => none
  | fuel + 1, t, v =>
    match env.kind t, v with
    | .struct _ _ ms, .struct vs => (exportFields (exportObj env fuel) ms vs []).map .obj
    | .prim key _, .str s => if key = 13 then some (.text s) else none
    | .array item, .items vs => (exportItems (exportObj env fuel item) vs).map .arr
    | .switch _ ss, .switch id v =>
      match ss[id]? with
      | none => none
      | some s => (exportObj env fuel s.2 v).map fun n => .obj (setProp s.1 n [])
    | .prim key _, .bool b => if key = 2 then some (.text (boolText b)) else none
    | .enum _ size ids, .enum n =>
      if enumSize size then (findValue (env.vals t) ids n).map .text else none
    | .owned target, .owned v => exportObj env fuel target v
    | _, _ => none

/-! ## Importing -/

/-- `Node::numeric` (pylon/pylon/pylon/Node.cpp:96-104): a text that begins with a number. -/
def numeric (a : Num.Arith) : Pylon.Node → Option Rat
  | .text s => match Num.parseReal a 10 s with
    | some p => if p.error then none else some p.value
    | none => none
  | _ => none

/-- Conversion of a `double` to an integer type with these limits: the fraction is dropped; undefined
behaviour if what remains does not fit. -/
def toInt (lo hi : Int) (x : Rat) : Option Int :=
  let n := if 0 ≤ x then x.floor else x.ceil
  if lo ≤ n ∧ n ≤ hi then some n else none

/-- The number types pr/Import.cpp knows (123-141), by format key (reflect/FormatDescriptor.h:13-28):
`S32`, `U8`, `U16`, `U32`. -/
def intLimits (key : Nat) : Option (Int × Int) :=
  match key with
  | 5 => some (-2147483648, 2147483647)
  | 7 => some (0, 255)
  | 8 => some (0, 65535)
  | 9 => some (0, 4294967295)
  | _ => none

/-- An object of a built-in type, pr/Import.cpp:119-141, 149-154.  A string keeps its value when the node is
no text (the error is not reported anywhere, line 104). -/
def importPrim (env : Env) (key : Nat) (old : Val) (n : Pylon.Node) : Option Val :=
  if key = 11 then (numeric env.arith n).map fun x => .real (env.toFloat x)
  else if key = 2 then
    match n with
    | .text s => some (.bool (s == boolText true))
    | _ => some (.bool false)
  else if key = 13 then
    match n with
    | .text s => some (.str s)
    | _ => some old
  else match intLimits key with
    | none => none
    | some (lo, hi) => match numeric env.arith n with
      | none => none
      | some x => (toInt lo hi x).map .int

/-- The loop over the members of a struct, pr/Import.cpp:112-118: a member not mentioned stays as it was. -/
def importFields (child : T → Val → Pylon.Node → Option Val) (props : List (List Byte × Pylon.Node)) :
    List (List Byte × T) → List Val → Option (List Val)
  | [], [] => some []
  | m :: ms, v :: vs =>
    match getProp m.1 props with
    | none => (importFields child props ms vs).map (v :: ·)
    | some n => match child m.2 v n with
      | none => none
      | some w => (importFields child props ms vs).map (w :: ·)
  | _, _ => none

/-- The loop over the items of an array with as many nodes, pr/Import.cpp:145-148 and 170-173.  With fewer
nodes than items `get(i)` is the invalid node, which fails the assertion of line 106. -/
def importItems (child : Val → Pylon.Node → Option Val) : List Val → List Pylon.Node → Option (List Val)
  | [], _ => some []
  | _ :: _, [] => none
  | v :: vs, n :: ns => match child v n, importItems child vs ns with
    | some w, some ws => some (w :: ws)
    | _, _ => none

/-- Making an array as long as the list of nodes, pr/Import.cpp:160-169: items are dropped or default items
appended. -/
def resize (dflt : Val) (old : List Val) (n : Nat) : List Val :=
  old.take n ++ List.replicate (n - old.length) dflt

/-- The loop over the identifiers of an enum, pr/Import.cpp:177-185; `items` are those of the array, at the
index given by the value of the identifier.  An index outside of the array is `none`. -/
def importEnumItems (child : Val → Pylon.Node → Option Val) (props : List (List Byte × Pylon.Node)) :
    List (List Byte) → List Nat → List Val → Option (List Val)
  | i :: is, n :: ns, vs =>
    match getProp i props with
    | none => importEnumItems child props is ns vs
    | some node => match vs[n]? with
      | none => none
      | some v => match child v node with
        | none => none
        | some w => importEnumItems child props is ns (vs.set n w)
  | _, _, vs => some vs

/-- The loop over the identifiers of an enum, pr/Import.cpp:189-209: the value of the first with this name. -/
def findName : List (List Byte) → List Nat → List Byte → Option Nat
  | i :: is, v :: vs, s => if i = s then some v else findName is vs s
  | _, _, _ => none

/-- Index of the first state with this name, pr/Import.cpp:234-246. -/
def findState : List (List Byte × T) → List Byte → Option (Nat × T)
  | [], _ => none
  | s :: ss, name => if s.1 = name then some (0, s.2) else (findState ss name).map fun r => (r.1 + 1, r.2)

/-- `ensureStateIs` (reflect/builtin/TypeDescriptor_Switch.h:38-47): the storage is kept if the state is
right and constructed anew otherwise. -/
def ensureState (env : Env) (oldId : Nat) (oldState : Val) (id : Nat) (t : T) : Val :=
  if oldId = id then oldState else env.dflt t

/-- `convertFrom`, pr/Import.cpp:102-255, into an object with the given contents; `none` is a failed
assertion, undefined behaviour of a conversion, or contents that do not belong to the type.  Not modelled:
`AnySavedObject` and `TypedArray` (here `none`); that what an `Owned` pointer held before is not freed.  The
depth of the recursion is bounded by `fuel`. -/
def importInto (env : Env) : Nat → T → Val → Pylon.Node → Option Val
  | 0, _, _, _ => none
  | fuel + 1, t, old, n =>
    match env.kind t, old, n with
    | .struct _ _ ms, .struct vs, .obj props => (importFields (importInto env fuel) props ms vs).map .struct
    | .prim key _, old, n => importPrim env key old n
    | .fixedArray k item, .items vs, .arr ns =>
      if vs.length = k then (importItems (importInto env fuel item) vs ns).map .items else none
    | .array item, .items vs, .arr ns =>
      (importItems (importInto env fuel item) (resize (env.dflt item) vs ns.length) ns).map .items
    | .enumArray item e, .items vs, .obj props =>
      match env.kind e with
      | .enum _ _ ids => (importEnumItems (importInto env fuel item) props ids (env.vals e) vs).map .items
      | _ => none
    | .enum _ size ids, .enum _, .text s =>
      if enumSize size then
        match findName ids (env.vals t) s with
        | some v => if v < 256 ^ size then some (.enum v) else none
        | none => none
      else none
    | .switch _ ss, .switch oldId oldState, .obj [(name, n)] =>
      match findState ss name with
      | some (id, st) => (importInto env fuel st (ensureState env oldId oldState id st) n).map (.switch id)
      | none => none
    | .owned target, _, n => (importInto env fuel target (env.dflt target) n).map .owned
    | _, _, _ => none

/-- `import`, pr/Import.cpp:257-262: into a new object. -/
def importNew (env : Env) (fuel : Nat) (t : T) (n : Pylon.Node) : Option Val :=
  importInto env fuel t (env.dflt t) n

end Verif.PyRef
