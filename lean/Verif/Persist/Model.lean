import Verif.Schema.Model
/-!
# Saving and loading objects

Paths are relative to `/repo/repos/plywood/src`; `reflect/` stands for `reflect/ply-reflect/`.  Types and
formats are those of `Verif.Schema` (property C41).
-/
namespace Verif.Persist
open Verif Schema

/-- The address of an object held by an `Owned` pointer. -/
abbrev Addr := Nat

/-- The contents of an object in memory, as the functions of reflect/TypeKey.cpp see it: a number (its
bits), a string, the items of an array of any kind, the members of a struct in the order of the type, an
`Owned` pointer with its address and what is there, a null `Owned` pointer, a raw pointer, a null raw
pointer, an enum (its value), a switch (its state and the storage).  `link` is a raw pointer that holds a
link index while loading (`LoadPtrResolver::RawPtr`, reflect/PersistRead.h:47-50) together with the type
kept in `RawPtrToResolve` (52-57). -/
inductive Val where
  | num (bits : Nat)
  | str (bytes : List Byte)
  | items (vs : List Val)
  | struct (fields : List Val)
  | owned (addr : Addr) (target : Val)
  | noOwned
  | ptr (addr : Addr)
  | noPtr
  | link (index : Nat) (type : T)
  | enum (value : Nat)
  | switch (id : Nat) (state : Val)

/-- What the functions need to know of the types besides `Schema.Kind`: the values of the identifiers of
an enum (reflect/builtin/TypeDescriptor_Enum.h:17-20), the contents of a default-constructed object
(`bindings.construct`), and how the machine converts from and to `float` and `double` (by the format key
of source and destination; reflect/TypeKey.cpp:48-53, 84-87). -/
structure Env where
  kind : T → Kind
  vals : T → List Nat
  dflt : T → Val
  fcast : Nat → Nat → Nat → Nat

/-- The size of a number with this format key (reflect/FormatDescriptor.h:13-28): `Bool`, `S8`, `S16`,
`S32`, `S64`, `U8`, `U16`, `U32`, `U64`, `Float`, `Double`. -/
def width (key : Nat) : Option Nat :=
  match key with
  | 2 | 3 | 7 => some 1
  | 4 | 8 => some 2
  | 5 | 9 | 11 => some 4
  | 6 | 10 | 12 => some 8
  | _ => none

/-! ## Saving -/

/-- `WriteObjectContext` (reflect/PersistWrite.h:55-90) without the format context: what was written,
`weakPtrsToResolve` and `savedOwnedPtrs` (with address, type and file offset). -/
structure WC where
  out : List Byte
  weak : List (Addr × T × Nat)
  saved : List (Addr × T × Nat)

/-- Append to the stream. -/
def WC.emit (c : WC) (bs : List Byte) : WC := { c with out := c.out ++ bs }

/-- The items of an array, one after the other (reflect/TypeKey.cpp:244-248, 319-323, 789-792). -/
def writeItems (child : Val → WC → Option WC) : List Val → WC → Option WC
  | [], c => some c
  | v :: vs, c => match child v c with
    | none => none
    | some c => writeItems child vs c

/-- The members of a struct (reflect/TypeKey.cpp:529-532). -/
def writeFields (child : T → Val → WC → Option WC) : List (List Byte × T) → List Val → WC → Option WC
  | [], [], c => some c
  | m :: ms, v :: vs, c => match child m.2 v c with
    | none => none
    | some c => writeFields child ms vs c
  | _, _, _ => none

/-- `typeKey->write` for each kind of type (reflect/TypeKey.cpp:103-195, 208-210, 239-249, 311-324,
384-400, 527-533, 612-646, 722-734, 782-793, 856-863); `child` is the `write` of the parts.  `none` is a
failed assertion, a null pointer followed, an index out of range — or contents that do not belong to the
type.  The lookup of an address in `addrToSaveInfo` is a search for an entry with this address (C20).
`TypedArray`, `AnySavedObject` and `StaticPtr` objects are not modelled; references and functions crash. -/
def writeBody (env : Env) (child : T → Val → WC → Option WC) (t : T) (v : Val) (c : WC) : Option WC :=
  match env.kind t, v with
  | .prim key _, .num n => (width key).map fun w => c.emit (le w n)
  | .prim key _, .str s => if key = 13 then some (c.emit (boxed s)) else none
  | .fixedArray n item, .items vs => if vs.length = n then writeItems (child item) vs c else none
  | .array item, .items vs =>
    if vs.length ≤ 2 ^ 32 - 1 then writeItems (child item) vs (c.emit (le 4 vs.length)) else none
  | .owned target, .owned a v =>
    if c.saved.any (fun s => s.1 == a) then none
    else child target v { c with saved := c.saved ++ [(a, target, c.out.length)] }
  | .rawPtr target, .ptr a =>
    some ({ c with weak := c.weak ++ [(a, target, c.out.length)] }.emit (le 4 0))
  | .struct _ _ ms, .struct vs => writeFields child ms vs c
  | .enum _ size _, .enum n =>
    if n ∈ env.vals t ∧ (size = 1 ∧ (env.vals t).idxOf n ≤ 255 ∨
        size = 2 ∧ (env.vals t).idxOf n ≤ 65535 ∨ size = 4) then
      some (c.emit (le size ((env.vals t).idxOf n)))
    else none
  | .enumArray item e, .items vs =>
    if vs.length = (env.vals e).length then writeItems (child item) vs c else none
  | .switch _ ss, .switch id v =>
    match ss[id]? with
    | none => none
    | some s => child s.2 v (c.emit (le 2 id))
  | _, _ => none

/-- `typeKey->write`; the depth of the recursion is bounded by `fuel`. -/
def write (env : Env) : Nat → T → Val → WC → Option WC
  | 0, _, _, _ => none
  | fuel + 1, t, v, c => writeBody env (write env fuel) t v c

/-- The store of line 35 of reflect/PersistWriteObject.cpp into the bytes at an offset. -/
def patch (off : Nat) (bs data : List Byte) : Option (List Byte) :=
  if off + bs.length ≤ data.length then some (data.take off ++ bs ++ data.drop (off + bs.length)) else none

/-- `linkIndex` of the entries given one: the addresses in the order in which they got it. -/
abbrev Links := List Addr

/-- The first loop of `resolveLinksAndWriteLinkTable` (reflect/PersistWriteObject.cpp:22-39); `links`
are the addresses that have an index, in order. -/
def resolveWeak (saved : List (Addr × T × Nat)) :
    List (Addr × T × Nat) → Links → List Byte → Option (Links × List Byte)
  | [], links, data => some (links, data)
  | (a, t, off) :: rest, links, data =>
    match saved.find? (fun s => s.1 == a) with
    | none => none
    | some s =>
      if s.2.1 = t then
        let links := if a ∈ links then links else links ++ [a]
        match patch off (le 4 (links.idxOf a)) data with
        | none => none
        | some data => resolveWeak saved rest links data
      else none

/-- The second loop (reflect/PersistWriteObject.cpp:44-51); `n` is `entriesWritten`. -/
def linkTable (links : Links) : List (Addr × T × Nat) → Nat → Option (List Byte)
  | [], _ => some []
  | (a, _, off) :: rest, n =>
    if a ∈ links then
      if n = links.idxOf a then (linkTable links rest (n + 1)).map (le 4 off ++ ·) else none
    else linkTable links rest n

/-- `writeAsset` (reflect/Asset.cpp:15-28) with `writeObject` (reflect/PersistWriteObject.cpp:11-18). -/
def writeAsset (env : Env) (fuel : Nat) (t : T) (v : Val) : Option (List Byte) :=
  match addOrGet env.kind fuel t (start env.kind) with
  | none => none
  | some w =>
    match getId w t with
    | none => none
    | some id =>
      match write env fuel t v ⟨le 4 id, [], []⟩ with
      | none => none
      | some c =>
        match resolveWeak c.saved c.weak [] c.out with
        | none => none
        | some (links, data) =>
          match linkTable links c.saved 0 with
          | none => none
          | some table => some ((endSchema w).out ++ le 4 links.length ++ table ++ data)

/-! ## Loading -/

/-- `ReadObjectContext` (reflect/PersistRead.h:65-74): what is left of the stream, the position relative
to `objDataOffset`, the link table — split into the entries up to `linkTableIndex`, which hold a pointer
and its type or null, and the others, which hold a file offset — and the next unused address. -/
structure RC where
  input : List Byte
  pos : Nat
  done : List (Option (Addr × T))
  todo : List Nat
  next : Addr

/-- `in.read<…>()` of `k` bytes; a short read is `none`. -/
def RC.readLe (c : RC) (k : Nat) : Option (Nat × RC) :=
  match Schema.readLe k c.input with
  | none => none
  | some (n, rest) => some (n, { c with input := rest, pos := c.pos + k })

/-- `Boxed<String>::read` (runtime/ply-runtime/container/Boxed.cpp:10-17); a short read is `none`. -/
def RC.readStr (c : RC) : Option (List Byte × RC) :=
  match Schema.readBoxed c.input with
  | none => none
  | some (s, rest) => some (s, { c with input := rest, pos := c.pos + (4 + s.length) })

/-- What a format pointer points to: a built-in format, or one made when reading the schema; `none` for
null. -/
def format (slots : List (Option Desc)) : Ref → Option (Nat ⊕ Desc)
  | .null => none
  | .builtin k => some (.inl k)
  | .user i => match slots[i]? with
    | some (some d) => some (.inr d)
    | _ => none

/-- `child`, `n` times (reflect/PersistReadObject.cpp:74-77, 85-88, 113-117). -/
def skipN (child : RC → Option RC) : Nat → RC → Option RC
  | 0, c => some c
  | n + 1, c => match child c with
    | none => none
    | some c => skipN child n c

/-- `skip` of each member in turn (reflect/PersistReadObject.cpp:98-100). -/
def skipAll (child : Ref → RC → Option RC) : List Ref → RC → Option RC
  | [], c => some c
  | r :: rs, c => match child r c with
    | none => none
    | some c => skipAll child rs c

/-- The names in the format of an enum; `none` when it is another format. -/
def enumIds (slots : List (Option Desc)) (r : Ref) : Option (List (List Byte)) :=
  match format slots r with
  | some (.inr (.enum _ _ ids)) => some ids
  | _ => none

/-- One level of `skip` (reflect/PersistReadObject.cpp:16-130).  The formats `TypedArray` and `Typed` are
not modelled. -/
def skipBody (slots : List (Option Desc)) (child : Ref → RC → Option RC) (r : Ref) (c : RC) : Option RC :=
  match format slots r with
  | none => none
  | some (.inl key) =>
    match width key with
    | some w => (c.readLe w).map (·.2)
    | none => if key = 13 then c.readStr.map (·.2) else none
  | some (.inr (.fixedArray n item)) => skipN (child item) n c
  | some (.inr (.array item)) =>
    match c.readLe 4 with
    | none => none
    | some (n, c) => skipN (child item) n c
  | some (.inr (.owned target)) => child target c
  | some (.inr (.rawPtr _)) => none
  | some (.inr (.struct _ _ ms)) => skipAll child (ms.map (·.2)) c
  | some (.inr (.enum _ size _)) => if size ≤ 4 then (c.readLe size).map (·.2) else none
  | some (.inr (.enumArray item e)) =>
    match enumIds slots e with
    | none => none
    | some ids => skipN (child item) ids.length c
  | some (.inr (.switch _ ss)) =>
    match c.readLe 2 with
    | none => none
    | some (id, c) =>
      match ss[id]? with
      | none => none
      | some s => child s.2 c

/-- `skip`; the depth of the recursion is bounded by `fuel`. -/
def skip (slots : List (Option Desc)) : Nat → Ref → RC → Option RC
  | 0, _, _ => none
  | fuel + 1, r, c => skipBody slots (skip slots fuel) r c

/-- Two's complement. -/
def signed (w n : Nat) : Int := if 2 * n < 2 ^ (8 * w) then n else (n : Int) - 2 ^ (8 * w)

/-- Is this key one of `S8`, `S16`, `S32`, `S64`? -/
def isSigned (key : Nat) : Bool := 3 ≤ key && key ≤ 6

/-- The number a whole number's bits stand for. -/
def value (key n : Nat) : Int :=
  match width key with
  | some w => if isSigned key then signed w n else n
  | none => n

/-- `Numeric::cast` (runtime/ply-runtime/container/Numeric.h:72-90) after `Numeric::operator=`, with
reflect/TypeKey.cpp:20-90: the bits of the result.  Between whole numbers, the value modulo the size of
the result; for `bool`, whether the value as a `u32` is not 0.  Only loss of precision is reported. -/
def castNum (env : Env) (src dst n : Nat) : Nat :=
  if src = 11 ∨ src = 12 ∨ dst = 11 ∨ dst = 12 then env.fcast src dst n
  else if dst = 2 then (if (value src n % 2 ^ 32).toNat = 0 then 0 else 1)
  else
    match width dst with
    | some w => (value src n % 2 ^ (8 * w)).toNat
    | none => 0

/-- The loop of `TypeKey_Owned`'s `read` (reflect/TypeKey.cpp:421-440). -/
def matchLinks (pos : Nat) (a : Addr) (t : T) :
    List (Option (Addr × T)) → List Nat → List (Option (Addr × T)) × List Nat
  | done, [] => (done, [])
  | done, off :: rest =>
    if off > pos then (done, off :: rest)
    else if off = pos then (done ++ [some (a, t)], rest)
    else matchLinks pos a t (done ++ [none]) rest

/-- Read each of the objects in turn (reflect/TypeKey.cpp:275-279, 350-356). -/
def readItems (child : Val → RC → Option (Val × RC)) : List Val → RC → Option (List Val × RC)
  | [], c => some ([], c)
  | v :: vs, c =>
    match child v c with
    | none => none
    | some (v, c) =>
      match readItems child vs c with
      | none => none
      | some (vs, c) => some (v :: vs, c)

/-- Read objects found by name (reflect/TypeKey.cpp:557-568, 818-836): for each name with format in the
file, the object of that name, at the index found by `find`, or skip. -/
def readNamed (child : Nat → Ref → Val → RC → Option (Val × RC)) (skip : Ref → RC → Option RC)
    (find : List Byte → Option Nat) : List (List Byte × Ref) → List Val → RC → Option (List Val × RC)
  | [], vs, c => some (vs, c)
  | m :: ms, vs, c =>
    match find m.1 with
    | none =>
      match skip m.2 c with
      | none => none
      | some c => readNamed child skip find ms vs c
    | some i =>
      match vs[i]? with
      | none => none
      | some v =>
        match child i m.2 v c with
        | none => none
        | some (v, c) => readNamed child skip find ms (vs.set i v) c

/-- `findMember` and the loops that look for an identifier or a state by name (reflect/TypeKey.cpp:
509-517, 680-685, 822-831, 886-889): the index of the first one. -/
def findName (names : List (List Byte)) (n : List Byte) : Option Nat :=
  if n ∈ names then some (names.idxOf n) else none

/-- The names of the identifiers of an enum type. -/
def typeIds (env : Env) (t : T) : List (List Byte) :=
  match env.kind t with
  | .enum _ _ ids => ids
  | _ => []

/-- Put `child` through an option: reading something for which there may be no such place. -/
def orSkip (v : Val) (r : Option RC) : Option (Val × RC) := r.map fun c => (v, c)

/-- Read the member at an index (reflect/TypeKey.cpp:566-567). -/
def readMember (child : T → Ref → Val → RC → Option (Val × RC)) (ms : List (List Byte × T)) (i : Nat)
    (r : Ref) (v : Val) (c : RC) : Option (Val × RC) :=
  match ms[i]? with
  | some m => child m.2 r v c
  | none => none

/-- `TypeKey_Enum`'s `read` (reflect/TypeKey.cpp:657-702).  The format is taken for that of an enum
without a test: `none` if it is another. -/
def readEnum (env : Env) (t : T) (size : Nat) (ids : List (List Byte)) (f : Nat ⊕ Desc) (old : Val)
    (c : RC) : Option (Val × RC) :=
  match f with
  | .inr (.enum _ fsize fids) =>
    if fsize = 1 ∨ fsize = 2 ∨ fsize = 4 then
      match c.readLe fsize with
      | none => none
      | some (i, c) =>
        match fids[i]? with
        | none => some (old, c)
        | some name =>
          match findName ids name with
          | none => some (old, c)
          | some j =>
            match (env.vals t)[j]? with
            | none => none
            | some n =>
              if size = 1 ∧ n ≤ 255 ∨ size = 2 ∧ n ≤ 65535 ∨ size = 4 then some (.enum n, c) else none
    else none
  | _ => none

/-- `TypeKey_Switch`'s `read` (reflect/TypeKey.cpp:874-906), where the format of the state read is the one
at the *new* index (905). -/
def readSwitch (env : Env) (child : T → Ref → Val → RC → Option (Val × RC)) (skip : Ref → RC → Option RC)
    (ss : List (List Byte × T)) (fs : List (List Byte × Ref)) (oldId : Nat) (oldState : Val) (c : RC) :
    Option (Val × RC) :=
  match c.readLe 2 with
  | none => none
  | some (fid, c) =>
    match fs[fid]? with
    | none => none
    | some f =>
      match findName (ss.map (·.1)) f.1 with
      | none => orSkip (.switch oldId oldState) (skip f.2 c)
      | some id =>
        match ss[id]?, fs[id]? with
        | some s, some g =>
          match child s.2 g.2 (if oldId = id then oldState else env.dflt s.2) c with
          | none => none
          | some (v, c) => some (.switch id v, c)
        | _, _ => none

/-- `typeKey->read` for each kind of type (reflect/TypeKey.cpp:17-96, 214-222, 256-280, 331-357,
407-447, 549-571, 657-702, 741-755, 801-837, 874-906): `old` is what the object holds before, `child` and
`skip` are `read` and `skip` one level down, except `skipHere`, which is `skip` of this format. -/
def readBody (env : Env) (slots : List (Option Desc)) (child : T → Ref → Val → RC → Option (Val × RC))
    (skipHere skip : Ref → RC → Option RC) (t : T) (r : Ref) (old : Val) (c : RC) : Option (Val × RC) :=
  match format slots r with
  | none => none
  | some f =>
    match env.kind t with
    | .prim key _ =>
      if key = 13 then
        if f = .inl 13 then
          match c.readStr with
          | none => none
          | some (s, c) => some (.str s, c)
        else orSkip old (skipHere r c)
      else
        match width key with
        | none => none
        | some _ =>
          match f with
          | .inl src =>
            match width src with
            | none => orSkip old (skipHere r c)
            | some w =>
              match c.readLe w with
              | none => none
              | some (n, c) =>
                if src = 2 ∧ 1 < n then none else some (.num (castNum env src key n), c)
          | .inr _ => orSkip old (skipHere r c)
    | .fixedArray n item =>
      match f, old with
      | .inr (.fixedArray m fitem), .items vs =>
        if m = n then
          if vs.length = n then (readItems (child item fitem) vs c).map fun p => (.items p.1, p.2) else none
        else orSkip old (skipHere r c)
      | .inr (.fixedArray _ _), _ => none
      | _, _ => orSkip old (skipHere r c)
    | .array item =>
      match f with
      | .inr (.array fitem) =>
        match c.readLe 4 with
        | none => none
        | some (n, c) =>
          if n < 10000000 then
            (readItems (child item fitem) (List.replicate n (env.dflt item)) c).map
              fun p => (.items p.1, p.2)
          else none
      | _ => orSkip old (skipHere r c)
    | .owned target =>
      match f with
      | .inr (.owned ftarget) =>
        let m := matchLinks c.pos c.next target c.done c.todo
        match child target ftarget (env.dflt target)
            { c with done := m.1, todo := m.2, next := c.next + 1 } with
        | none => none
        | some (v, c') => some (.owned c.next v, c')
      | _ => orSkip old (skipHere r c)
    | .rawPtr target =>
      match c.readLe 4 with
      | none => none
      | some (i, c) => if i < c.done.length + c.todo.length then some (.link i target, c) else none
    | .struct _ _ ms =>
      match f, old with
      | .inr (.struct _ _ fms), .struct vs =>
        (readNamed (readMember child ms) skip (findName (ms.map (·.1))) fms vs c).map fun p => (.struct p.1, p.2)
      | .inr (.struct _ _ _), _ => none
      | _, _ => orSkip old (skipHere r c)
    | .enum _ size ids => readEnum env t size ids f old c
    | .enumArray item e =>
      match f, old with
      | .inr (.enumArray fitem fe), .items vs =>
        match enumIds slots fe with
        | none => none
        | some fids =>
          (readNamed (fun _ fr v c => child item fr v c) skip
            (fun name => (findName (typeIds env e) name).bind fun i => (env.vals e)[i]?)
            (fids.map fun n => (n, fitem)) vs c).map fun p => (.items p.1, p.2)
      | .inr (.enumArray _ _), _ => none
      | _, _ => orSkip old (skipHere r c)
    | .switch _ ss =>
      match f, old with
      | .inr (.switch _ fs), .switch oldId oldState => readSwitch env child skip ss fs oldId oldState c
      | .inr (.switch _ _), _ => none
      | _, _ => orSkip old (skipHere r c)
    | .other => none

/-- `typeKey->read`; the depth of the recursion is bounded by `fuel`. -/
def read (env : Env) (slots : List (Option Desc)) : Nat → T → Ref → Val → RC → Option (Val × RC)
  | 0, _, _, _, _ => none
  | fuel + 1, t, r, old, c =>
    readBody env slots (read env slots fuel) (skip slots (fuel + 1)) (skip slots fuel) t r old c

mutual
/-- The second loop of `resolveLinks` (reflect/PersistReadObject.cpp:169-180): every raw pointer read gets
the pointer of its entry, which must be there and have the type.  In C++ the places are listed in
`weakPtrsToResolve`; here they are the `link`s in the object. -/
def resolve (table : List (Option (Addr × T))) : Val → Option Val
  | .link i t =>
    match table[i]? with
    | some (some (a, t')) => if t' = t then some (.ptr a) else none
    | _ => none
  | .items vs => (resolveList table vs).map .items
  | .struct vs => (resolveList table vs).map .struct
  | .owned a v => (resolve table v).map (.owned a)
  | .switch id v => (resolve table v).map (.switch id)
  | v => some v
/-- The same for the parts. -/
def resolveList (table : List (Option (Addr × T))) : List Val → Option (List Val)
  | [] => some []
  | v :: vs => match resolve table v with
    | none => none
    | some v => (resolveList table vs).map (v :: ·)
end

/-- `n` file offsets (reflect/PersistReadObject.cpp:135-137). -/
def readOffsets : Nat → List Byte → Option (List Nat × List Byte)
  | 0, bs => some ([], bs)
  | n + 1, bs =>
    match Schema.readLe 4 bs with
    | none => none
    | some (o, bs) =>
      match readOffsets n bs with
      | none => none
      | some (os, bs) => some (o :: os, bs)

/-- `readAsset` (reflect/Asset.cpp:34-43) with `readLinkTable`, `readObject` and `resolveLinks`
(reflect/PersistReadObject.cpp:132-181) and the resolver that gives the expected type `t`
(reflect/Asset.cpp:49-51).  `next` is the first unused address.  The input ends after the object, and
what is left of it comes back. -/
def readAsset (env : Env) (fuel : Nat) (t : T) (next : Addr) (input : List Byte) :
    Option (Val × List Byte) :=
  match readSchema fuel fuel ⟨[], input⟩ with
  | none => none
  | some s =>
    match Schema.readLe 4 s.input with
    | none => none
    | some (n, bs) =>
      match readOffsets n bs with
      | none => none
      | some (offs, bs) =>
        match RC.readLe ⟨bs, 0, [], offs, next⟩ 4 with
        | none => none
        | some (id, c) =>
          match getFormatDesc s.slots id with
          | none => none
          | some r =>
            match read env s.slots fuel t r (env.dflt t) c with
            | none => none
            | some (v, c) =>
              (resolve (c.done ++ c.todo.map fun _ => none) v).map fun v => (v, c.input)

end Verif.Persist
