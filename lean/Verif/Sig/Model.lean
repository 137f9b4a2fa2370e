import Verif.Num.Props
import Verif.Num.LemmasReal
/-!
# Signatures that tell whether something must be built again — model

Models the signatures of build/repo/ply-build-repo/RepoRegistry.cpp, BuildInstantiatorDLLs.cpp and
build/folder/ply-build-folder/BuildFolder.cpp, and `u128` of runtime/ply-runtime/container/Int128.h.  The 128-bit hash is
that of Verif.Spooky, by C28 a function of all bytes appended; here it is any function `hash` of these bytes.
-/
namespace Verif.Sig
open Verif

/-- `u128`, Int128.h:10-17. -/
structure U128 where
  lo : UInt64
  hi : UInt64
  deriving DecidableEq, Repr

/-- `u128::operator+=`, Int128.h:25-29. -/
def add (a b : U128) : U128 :=
  let hi := a.hi + b.hi
  let lo := a.lo + b.lo
  ⟨lo, hi + (if lo < b.lo then 1 else 0)⟩

/-- `StringView::right`, runtime/ply-runtime/string/StringView.h:254-257; `none` = assertion. -/
def right (n : Nat) (s : List Byte) : Option (List Byte) :=
  if n ≤ s.length then some (s.drop (s.length - n)) else none

/-- `(StringView{"0"} * 16 + String::from(fmt::Hex{w})).right(16)`, RepoRegistry.cpp:35. -/
def wordText (w : UInt64) : Option (List Byte) :=
  match Num.printU64 w.toNat 16 false with
  | none => none
  | some s => right 16 (List.replicate 16 48 ++ s)

/-- `signatureToString`, RepoRegistry.cpp:34-37. -/
def toText (sig : U128) : Option (List Byte) :=
  match wordText sig.hi, wordText sig.lo with
  | some a, some b => some (a ++ b)
  | _, _ => none

/-- `ViewInStream{…}.parse<u64>(fmt::Radix{16})`, RepoRegistry.cpp:28: errors are not looked at. -/
def parseWord (s : List Byte) : Option UInt64 := (Num.parseU64 16 s).map fun p => UInt64.ofNat p.value

/-- `parseSignatureString`, RepoRegistry.cpp:23-32. -/
def parse (s : List Byte) : Option U128 :=
  if s.length ≠ 32 then some ⟨0, 0⟩
  else match parseWord (s.take 16), parseWord (s.drop 16) with
    | some hi, some lo => some ⟨lo, hi⟩
    | _, _ => none

/-- A module definition file: its path, the bytes of its size and of its modification time, BuildInstantiatorDLLs.cpp:188-196,
and the number of errors in it (C97). -/
structure File where
  path : List Byte
  size : List Byte
  time : List Byte
  errors : Nat
  deriving DecidableEq

/-- What is hashed of a file, BuildInstantiatorDLLs.cpp:192-194. -/
def File.bytes (f : File) : List Byte := f.path ++ f.size ++ f.time

/-- `moduleDefSignature`, BuildInstantiatorDLLs.cpp:166 and 195. -/
def signature (hash : List Byte → U128) (files : List File) : U128 :=
  files.foldl (fun sig f => add sig (hash f.bytes)) ⟨1, 0⟩

/-- What a run of `buildInstantiatorDLLs` did: whether it built, the errors in module definition files it reported, and the
text saved. -/
structure Outcome where
  built : Bool
  errors : Nat
  saved : Option (List Byte)
  deriving DecidableEq

/-- `buildInstantiatorDLLs`, BuildInstantiatorDLLs.cpp:145-286.  `saved` is the text in signature.pylon (`none` if the file
cannot be read, empty if it has no signature); `works` tells whether CMake succeeds with the files as they are.  What is
saved is read back as it was written (C69).  The result of `extractInstantiatorFunctions`, line 241, is not looked at.
`none` = assertion. -/
def run (hash : List Byte → U128) (force works : Bool) (saved : Option (List Byte)) (files : List File) : Option Outcome := do
  let sig := signature hash files
  let mustBuild ← match saved with
    | none => some true
    | some t => if force then some true else (parse t).map fun s => decide (s ≠ sig)
  if mustBuild then
    let errors := (files.map File.errors).sum
    if works then
      let t ← toText sig
      return ⟨true, errors, some t⟩
    else return ⟨true, errors, saved⟩
  else return ⟨false, 0, saved⟩

/-- What is hashed by `BuildFolder::currentBuildSystemSignature`, BuildFolder.cpp:219-235; `head` is the signature of the
modules, the name of the solution and the options of CMake. -/
def folderBytes (head : List Byte) (rootTargets makeShared externSelectors : List (List Byte)) : List Byte :=
  head ++ rootTargets.flatten ++ makeShared.flatten ++ externSelectors.flatten

end Verif.Sig
