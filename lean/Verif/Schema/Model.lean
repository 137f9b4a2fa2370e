import Verif.Basic
/-!
# Type schemas: writing and reading

Paths are relative to `/repo/repos/plywood/src`; `reflect/` stands for `reflect/ply-reflect/`.
-/
namespace Verif.Schema

/-- A `TypeDescriptor*`: types are told apart by address (reflect/PersistWrite.h:22). -/
abbrev T := Nat

/-- The part of a `TypeDescriptor` that `writeFormat` looks at (reflect/TypeKey.cpp:251-254, 326-329,
402-405, 482-486, 535-548, 648-655, 736-739, 795-799, 865-872; StaticPtr.cpp:69-77;
builtin/TypeDescriptor_Function.cpp:59-63).  `prim` is a type that writes a built-in key, `listed` if it
is in the table `BuiltInTypeDescs` (PersistWriteSchema.cpp:21-36): all are but `AnyOwnedObject`
(AnyOwnedObject.cpp:41-43).  A `StaticPtr` writes what an enum of size 4 without name does.  References
and functions crash (`other`). -/
inductive Kind where
  | prim (key : Nat) (listed : Bool)
  | fixedArray (numItems : Nat) (item : T)
  | array (item : T)
  | owned (target : T)
  | rawPtr (target : T)
  | struct (name : List Byte) (params members : List (List Byte × T))
  | enum (name : List Byte) (fixedSize : Nat) (ids : List (List Byte))
  | enumArray (item enum : T)
  | switch (name : List Byte) (states : List (List Byte × T))
  | other
deriving DecidableEq

/-! ## Writing -/

/-- The `k` bytes of an integer, least significant first: `NativeEndianWriter::write`
(runtime/ply-runtime/io/OutStream.h:373-376) on a little-endian machine. -/
def le : Nat → Nat → List Byte
  | 0, _ => []
  | k + 1, n => UInt8.ofNat (n % 256) :: le k (n / 256)

/-- `WriteFormatContext` (reflect/PersistWrite.h:19-52): `ids` is `m_typeToFormatID`, `next`
`m_nextUserFormatID`, `out` what was written. -/
structure W where
  ids : T → Option Nat
  next : Nat
  out : List Byte

/-- Append to the stream (`m_out.write`, `outs->write`). -/
def W.emit (w : W) (bs : List Byte) : W := { w with out := w.out ++ bs }

/-- `Boxed<String>::write` (runtime/ply-runtime/container/Boxed.h:23-26). -/
def boxed (s : List Byte) : List Byte := le 4 s.length ++ s

/-- Names each followed by a type: `writeTemplateParam`, `writeMember`, `writeState`
(reflect/PersistWriteSchema.cpp:136-144, 182-185); `child` is `writeChildFormatDesc`. -/
def writePairs (child : T → W → Option W) : List (List Byte × T) → W → Option W
  | [], w => some w
  | (n, t) :: rest, w =>
    match child t (w.emit (boxed n)) with
    | none => none
    | some w => writePairs child rest w

/-- `typeDesc->typeKey->writeFormat` (see `Kind`), through `writePrimitive`, `writeFixedArray`,
`writeArray`, `writeOwned`, `writeRawPtr`, `beginStruct`, `beginEnum`, `writeEnumEntry`,
`writeEnumIndexedArray`, `beginSwitch` (reflect/PersistWriteSchema.cpp:92-180).  Assertions on counts
(130-133, 178) give `none`. -/
def writeFormat (child : T → W → Option W) (k : Kind) (w : W) : Option W :=
  match k with
  | .prim key _ => some (w.emit (le 1 key))
  | .fixedArray n t => child t ((w.emit (le 1 16)).emit (le 4 n))
  | .array t => child t (w.emit (le 1 17))
  | .owned t => child t (w.emit (le 1 18))
  | .rawPtr t => child t (w.emit (le 1 19))
  | .struct name ps ms =>
    if ps.length ≤ 65535 ∧ ms.length ≤ 65535 then
      match writePairs child ps
          ((((w.emit (le 1 20)).emit (boxed name)).emit (le 2 ps.length)).emit (le 2 ms.length)) with
      | none => none
      | some w => writePairs child ms w
    else none
  | .enum name size ids =>
    some (((((w.emit (le 1 21)).emit (boxed name)).emit (le 1 size)).emit (le 4 ids.length)).emit
      (ids.flatMap boxed))
  | .enumArray i e =>
    match child i (w.emit (le 1 22)) with
    | none => none
    | some w => child e w
  | .switch name ss =>
    if ss.length ≤ 65535 then
      writePairs child ss (((w.emit (le 1 23)).emit (boxed name)).emit (le 2 ss.length))
    else none
  | .other => none

/-- `WriteFormatContext::writeChildFormatDesc` (reflect/PersistWriteSchema.cpp:49-59); `add` is
`addFormatDesc`. -/
def writeChild (add : T → W → Option W) (t : T) (w : W) : Option W :=
  match w.ids t with
  | none => add t w
  | some id => some ((w.emit (le 1 1)).emit (le 4 id))

/-- `WriteFormatContext::addFormatDesc` (reflect/PersistWriteSchema.cpp:38-47); the depth of the
recursion is bounded by `fuel`. -/
def addFormat (types : T → Kind) : Nat → T → W → Option W
  | 0, _, _ => none
  | fuel + 1, t, w =>
    match w.ids t with
    | some _ => none
    | none =>
      writeFormat (writeChild (addFormat types fuel)) (types t)
        { w with
          ids := fun t' => if t' = t then some w.next else w.ids t'
          next := u32 (w.next + 1) }

/-- `WriteFormatContext::addOrGetFormatID` (reflect/PersistWriteSchema.cpp:73-79), without the id it
returns, for which see `getId`. -/
def addOrGet (types : T → Kind) (fuel : Nat) (t : T) (w : W) : Option W :=
  match w.ids t with
  | none => addFormat types fuel t w
  | some _ => some w

/-- `WriteFormatContext::getFormatID` (reflect/PersistWriteSchema.cpp:81-85): what `addOrGetFormatID`
returns, too. -/
def getId (w : W) (t : T) : Option Nat := w.ids t

/-- The constructor (reflect/PersistWriteSchema.cpp:61-71): built-in types are registered. -/
def start (types : T → Kind) : W where
  ids t := match types t with
    | .prim key true => some key
    | _ => none
  next := 1000
  out := []

/-- Calls of `addOrGetFormatID`, as made while an object is written (reflect/PersistWriteObject.cpp:13,
TypedArray.cpp:98, AnySavedObject.cpp:29, AnyOwnedObject.cpp:30). -/
def addAll (types : T → Kind) (fuel : Nat) : List T → W → Option W
  | [], w => some w
  | t :: rest, w =>
    match addOrGet types fuel t w with
    | none => none
    | some w => addAll types fuel rest w

/-- `WriteFormatContext::endSchema` (reflect/PersistWriteSchema.cpp:87-90). -/
def endSchema (w : W) : W := w.emit (le 1 0)

/-! ## Reading -/

/-- A `FormatDescriptor*`: null, one of the `BuiltInFormats` (reflect/PersistReadSchema.cpp:17-32), or the
one created for an index of `userFormatDescs`. -/
inductive Ref where
  | null
  | builtin (key : Nat)
  | user (index : Nat)
deriving DecidableEq

/-- A user `FormatDescriptor` (reflect/FormatDescriptor.h:73-186). -/
inductive Desc where
  | fixedArray (numItems : Nat) (item : Ref)
  | array (item : Ref)
  | owned (child : Ref)
  | rawPtr (child : Ref)
  | struct (name : List Byte) (params members : List (List Byte × Ref))
  | enum (name : List Byte) (fixedSize : Nat) (ids : List (List Byte))
  | enumArray (item enum : Ref)
  | switch (name : List Byte) (states : List (List Byte × Ref))
deriving DecidableEq

/-- `FormatDescriptor::formatKey`, from the constructors (reflect/FormatDescriptor.h:77-182). -/
def Desc.key : Desc → Nat
  | .fixedArray .. => 16
  | .array .. => 17
  | .owned .. => 18
  | .rawPtr .. => 19
  | .struct .. => 20
  | .enum .. => 21
  | .enumArray .. => 22
  | .switch .. => 23

/-- `SchemaLoader` (reflect/PersistReadSchema.cpp:34-41): `slots` is `userFormatDescs`, `input` what is
left of the stream. -/
structure R where
  slots : List (Option Desc)
  input : List Byte
deriving DecidableEq

/-- `formatDesc->formatKey`; `none` when the pointer is null. -/
def R.keyOf (r : R) : Ref → Option Nat
  | .null => none
  | .builtin k => some k
  | .user i => match r.slots[i]? with
    | some (some d) => some d.key
    | _ => none

/-- `NativeEndianReader::read` of `k` bytes (runtime/ply-runtime/io/InStream.h:483-488); a short read
leaves the value uninitialised: `none`. -/
def readLe : Nat → List Byte → Option (Nat × List Byte)
  | 0, bs => some (0, bs)
  | _ + 1, [] => none
  | k + 1, b :: bs =>
    match readLe k bs with
    | none => none
    | some (n, rest) => some (b.toNat + 256 * n, rest)

/-- `Boxed<String>::read` (runtime/ply-runtime/container/Boxed.cpp:10-17); a short read is `none`. -/
def readBoxed (bs : List Byte) : Option (List Byte × List Byte) :=
  match readLe 4 bs with
  | none => none
  | some (n, rest) => if rest.length < n then none else some (rest.take n, rest.drop n)

/-- `n` strings (reflect/PersistReadSchema.cpp:111-113). -/
def readNames : Nat → List Byte → Option (List (List Byte) × List Byte)
  | 0, bs => some ([], bs)
  | n + 1, bs =>
    match readBoxed bs with
    | none => none
    | some (s, bs) =>
      match readNames n bs with
      | none => none
      | some (ss, bs) => some (s :: ss, bs)

/-- `n` names with formats (reflect/PersistReadSchema.cpp:95-98, 100-103, 126-131); `want` is the key
the formats must have (129), if any. -/
def readPairs (child : R → Option (Ref × R)) (want : Option Nat) :
    Nat → R → Option (List (List Byte × Ref) × R)
  | 0, r => some ([], r)
  | n + 1, r =>
    match readBoxed r.input with
    | none => none
    | some (s, bs) =>
      match child { r with input := bs } with
      | none => none
      | some (d, r) =>
        if want.isSome ∧ r.keyOf d ≠ want then none
        else
          match readPairs child want n r with
          | none => none
          | some (ds, r) => some ((s, d) :: ds, r)

/-- A user format after its key (reflect/PersistReadSchema.cpp:75-135); `child` is
`readFormatDescriptor()`. -/
def readBody (child : R → Option (Ref × R)) (key : Nat) (r : R) : Option (Desc × R) :=
  if key = 16 then
    match readLe 4 r.input with
    | none => none
    | some (n, bs) =>
      match child { r with input := bs } with
      | none => none
      | some (d, r) => some (.fixedArray n d, r)
  else if key = 17 then
    match child r with
    | none => none
    | some (d, r) => some (.array d, r)
  else if key = 18 then
    match child r with
    | none => none
    | some (d, r) => some (.owned d, r)
  else if key = 19 then
    match child r with
    | none => none
    | some (d, r) => some (.rawPtr d, r)
  else if key = 20 then
    match readBoxed r.input with
    | none => none
    | some (name, bs) =>
      match readLe 2 bs with
      | none => none
      | some (np, bs) =>
        match readLe 2 bs with
        | none => none
        | some (nm, bs) =>
          match readPairs child none np { r with input := bs } with
          | none => none
          | some (ps, r) =>
            match readPairs child none nm r with
            | none => none
            | some (ms, r) => some (.struct name ps ms, r)
  else if key = 21 then
    match readBoxed r.input with
    | none => none
    | some (name, bs) =>
      match readLe 1 bs with
      | none => none
      | some (size, bs) =>
        match readLe 4 bs with
        | none => none
        | some (n, bs) =>
          match readNames n bs with
          | none => none
          | some (ids, bs) => some (.enum name size ids, { r with input := bs })
  else if key = 22 then
    match child r with
    | none => none
    | some (i, r) =>
      match child r with
      | none => none
      | some (e, r) => if r.keyOf e = some 21 then some (.enumArray i e, r) else none
  else if key = 23 then
    match readBoxed r.input with
    | none => none
    | some (name, bs) =>
      match readLe 2 bs with
      | none => none
      | some (n, bs) =>
        match readPairs child (some 20) n { r with input := bs } with
        | none => none
        | some (ss, r) => some (.switch name ss, r)
  else none

/-- `SchemaLoader::readFormatDescriptor` (reflect/PersistReadSchema.cpp:43-138); the depth of the
recursion is bounded by `fuel`, failed assertions, bad indices and short reads give `none`. -/
def readDesc : Nat → Bool → R → Option (Ref × R)
  | 0, _, _ => none
  | fuel + 1, topLevel, r =>
    match readLe 1 r.input with
    | none => none
    | some (key, bs) =>
      if key = 0 then
        if topLevel then some (.null, { r with input := bs }) else none
      else if key = 1 then
        match readLe 4 bs with
        | none => none
        | some (id, bs) =>
          if id < 1000 then
            if 2 ≤ id ∧ id < 16 then some (.builtin id, { r with input := bs }) else none
          else
            match r.slots[id - 1000]? with
            | none => none
            | some none => some (.null, { r with input := bs })
            | some (some _) => some (.user (id - 1000), { r with input := bs })
      else if key < 16 then
        if topLevel then none else some (.builtin key, { r with input := bs })
      else
        match readBody (readDesc fuel false) key ⟨r.slots ++ [none], bs⟩ with
        | none => none
        | some (d, r') =>
          some (.user r.slots.length, { r' with slots := r'.slots.set r.slots.length (some d) })

/-- `SchemaLoader::readSchema` (reflect/PersistReadSchema.cpp:140-146): at most `n` formats, each with
recursion bounded by `fuel`. -/
def readSchema (fuel : Nat) : Nat → R → Option R
  | 0, _ => none
  | n + 1, r =>
    match readDesc fuel true r with
    | none => none
    | some (.null, r) => some r
    | some (_, r) => readSchema fuel n r

/-- `Schema::getFormatDesc` (reflect/PersistReadSchema.cpp:154-166). -/
def getFormatDesc (slots : List (Option Desc)) (id : Nat) : Option Ref :=
  if id < 1000 then
    if id < 16 then some (if id < 2 then .null else .builtin id) else none
  else
    match slots[id - 1000]? with
    | none => none
    | some none => some .null
    | some (some _) => some (.user (id - 1000))

end Verif.Schema
