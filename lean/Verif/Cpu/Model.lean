import Verif.Str.Model
/-!
# The processors of the machine — model

Models rt/thread/impl/Affinity_Linux.cpp and Affinity_Linux.h: reading /proc/cpuinfo into a table of cores and their
hardware threads, and binding a thread to one of them.  Failed assertions and undefined behaviour are `none`.
-/
namespace Verif.Cpu
open Verif

/-- `isspace` in the C locale, which a blank in the format of `sscanf` skips, Affinity_Linux.cpp:29. -/
def isSpace (c : Byte) : Bool := c == 32 || (decide (9 ≤ c.toNat) && decide (c.toNat ≤ 13))

/-- A decimal digit, for `%d` in Affinity_Linux.cpp:29. -/
def isDigit (c : Byte) : Bool := decide (48 ≤ c.toNat) && decide (c.toNat ≤ 57)

/-- Value of digits, for `%d` in Affinity_Linux.cpp:29. -/
def digitsValue (ds : List Byte) : Nat := ds.foldl (fun n c => 10 * n + (c.toNat - 48)) 0

/-- The optional sign of `%d`, Affinity_Linux.cpp:29: whether it is a minus, and what follows. -/
def scanSign : List Byte → Bool × List Byte
  | [] => (false, [])
  | c :: cs => if c = 45 then (true, cs) else if c = 43 then (false, cs) else (false, c :: cs)

/-- `sscanf(…, " %d", &value)`, Affinity_Linux.cpp:29: `some none` if there is no number, `none` if it does not fit into
an `int`, which is undefined behaviour (C11 7.21.6.2 p10). -/
def scanInt (s : List Byte) : Option (Option Int) :=
  let sg := scanSign (s.dropWhile isSpace)
  let ds := sg.2.takeWhile isDigit
  if ds = [] then some none
  else
    let v : Int := if sg.1 then -(digitsValue ds : Int) else digitsValue ds
    if -2147483648 ≤ v ∧ v < 2147483648 then some (some v) else none

/-- The label, Affinity_Linux.cpp:25-27, from what is before the colon: without blanks and tabs at its end.  Before a
colon in the first place there is the colon itself. -/
def label (before : List Byte) : List Byte :=
  if before = [] then [58] else (before.reverse.dropWhile fun c => c == 32 || c == 9).reverse

/-- What a line says. -/
inductive Entry where
  | processor (v : Int)
  | physical (v : Int)
  | core (v : Int)
  | other
  deriving DecidableEq, Repr

/-- A line, Affinity_Linux.cpp:23-38. -/
def readLine (line : List Byte) : Option Entry :=
  match line.dropWhile (· != 58) with
  | [] => some .other
  | _ :: value =>
    match scanInt value with
    | none => none
    | some none => some .other
    | some (some v) =>
      let l := label (line.takeWhile (· != 58))
      if l = [112, 114, 111, 99, 101, 115, 115, 111, 114] then some (.processor v)
      else if l = [112, 104, 121, 115, 105, 99, 97, 108, 32, 105, 100] then some (.physical v)
      else if l = [99, 111, 114, 101, 32, 105, 100] then some (.core v)
      else some .other

/-- `std::getline` until the end of the file, Affinity_Linux.cpp:20-22: what is between line feeds. -/
def lines : List Byte → List (List Byte)
  | [] => [[]]
  | c :: cs => if c = 10 then [] :: lines cs else
    match lines cs with
    | [] => [[c]]
    | l :: ls => (c :: l) :: ls

/-- `CoreInfoCollector::CoreID`, Affinity_Linux.h:24-33. -/
structure CoreID where
  physical : Int
  core : Int
  deriving DecidableEq, Repr

/-- `CoreInfoCollector` and the members of `Affinity_Linux` that it fills, Affinity_Linux.h:16-38.  The map is a list of
pairs; numbers of cores are not limited to 32 bits. -/
structure St where
  vec : List (List Int)
  num : Nat
  proc : Int
  id : CoreID
  index : List (CoreID × Nat)
  deriving Repr

/-- The identification that is looked up, Affinity_Linux.h:45-50. -/
def effective (proc : Int) (id : CoreID) : CoreID := if id.physical < 0 ∧ id.core < 0 then ⟨0, proc⟩ else id

/-- `CoreInfoCollector::flush`, Affinity_Linux.h:43-66. -/
def flush (st : St) : Option St :=
  if 0 ≤ st.proc then
    let id := effective st.proc st.id
    match st.index.lookup id with
    | none => some ⟨st.vec ++ [[st.proc]], st.num + 1, -1, ⟨-1, -1⟩, st.index ++ [(id, st.vec.length)]⟩
    | some i =>
      match st.vec[i]? with
      | none => none
      | some l => some ⟨st.vec.set i (l ++ [st.proc]), st.num + 1, -1, ⟨-1, -1⟩, st.index⟩
  else some ⟨st.vec, st.num, -1, ⟨-1, -1⟩, st.index⟩

/-- One round of the loop, Affinity_Linux.cpp:30-37. -/
def step (st : St) : Entry → Option St
  | .processor v => (flush st).map fun st => { st with proc := v }
  | .physical v => some { st with id := { st.id with physical := v } }
  | .core v => some { st with id := { st.id with core := v } }
  | .other => some st

/-- The loop over the lines, Affinity_Linux.cpp:20-40, with the last `flush`. -/
def collect : St → List (List Byte) → Option St
  | st, [] => flush st
  | st, l :: ls =>
    match readLine l with
    | none => none
    | some e =>
      match step st e with
      | none => none
      | some st => collect st ls

/-- `Affinity_Linux`, Affinity_Linux.h:16-20. -/
structure Affinity where
  accurate : Bool
  cores : List (List Int)
  numThreads : Nat
  deriving DecidableEq, Repr

/-- The constructor, Affinity_Linux.cpp:16-48; `none` for a file that cannot be opened. -/
def affinity (file : Option (List Byte)) : Option Affinity :=
  let st : Option St := match file with
    | none => some ⟨[], 0, -1, ⟨-1, -1⟩, []⟩
    | some text => collect ⟨[], 0, -1, ⟨-1, -1⟩, []⟩ (lines text)
  match st with
  | none => none
  | some st =>
    if 0 < st.num then some ⟨true, st.vec, st.num⟩
    else match st.vec with
      | [] => some ⟨false, [[0]], 1⟩
      | l :: _ => some ⟨false, [l ++ [0]], 1⟩

/-- `getNumPhysicalCores`, Affinity_Linux.h:76-78. -/
def Affinity.numCores (a : Affinity) : Nat := a.cores.length

/-- `getNumHWThreadsForCore`, Affinity_Linux.h:84-86. -/
def Affinity.threadsOf (a : Affinity) (core : Nat) : Option Nat := (a.cores[core]?).map List.length

/-- The set of processors given to the kernel by `setAffinity`, Affinity_Linux.cpp:50-57.  `CPU_SET` does nothing for
numbers from 1024. -/
def Affinity.cpuSet (a : Affinity) (core hwThread : Nat) : Option (List Int) :=
  match a.cores[core]? with
  | none => none
  | some l =>
    match l[hwThread]? with
    | none => none
    | some p => some (if p < 1024 then [p] else [])

end Verif.Cpu
