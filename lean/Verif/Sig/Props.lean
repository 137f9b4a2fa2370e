import Verif.Sig.Lemmas
/-!
# C98: signatures that tell whether something must be built again
-/
namespace Verif.Sig
open Verif Spec

/-- **Signatures are read back as they were written.**  Each signature is written as 32 hexadecimal digits that mean its
value, without failing an assertion, and read back as the same signature. -/
theorem C98_roundtrip (sig : U128) :
    ∃ t, toText sig = some t ∧ t.length = 32 ∧ (∀ c ∈ t, Hex c) ∧ number t = value sig ∧ parse t = some sig :=
  roundtrip sig

example : toText ⟨255, 1⟩ = some (List.replicate 15 48 ++ [49] ++ List.replicate 14 48 ++ [102, 102]) := by decide +kernel

/-- **Different signatures have different texts.** -/
theorem C98_distinct (a b : U128) : toText a = toText b ↔ a = b := by
  refine ⟨fun h => ?_, fun h => by rw [h]⟩
  obtain ⟨t, h1, _, _, _, h2⟩ := roundtrip a
  obtain ⟨u, h3, _, _, _, h4⟩ := roundtrip b
  rw [h1, h3] at h
  injection h with h
  rw [h, h4] at h2
  injection h2 with h2
  exact h2.symm

example : toText ⟨0, 1⟩ ≠ toText ⟨1, 0⟩ := fun h => absurd ((C98_distinct _ _).1 h) (by decide)

/-- **Addition of 128-bit numbers** is that of numbers modulo `2^128`, and equal ones are the same. -/
theorem C98_add (a b : U128) : value (add a b) = (value a + value b) % 2 ^ 128 ∧ (value a = value b ↔ a = b) :=
  ⟨value_add a b, value_inj, fun h => by rw [h]⟩

example : add ⟨0xffffffffffffffff, 3⟩ ⟨2, 4⟩ = ⟨1, 8⟩ := by decide +kernel

/-- **The order of the files does not matter**, so that different orders of the same directories build nothing. -/
theorem C98_order (hash : List Byte → U128) {files files' : List File} (h : files.Perm files') :
    signature hash files = signature hash files' := by
  refine value_inj ?_
  rw [value_signature, value_signature, (h.map fun f => value (hash f.bytes)).sum_nat]

example : signature (fun b => ⟨UInt64.ofNat b.length, 7⟩) [⟨[1], [2], [3], 0⟩, ⟨[], [2], [], 0⟩] =
    signature (fun b => ⟨UInt64.ofNat b.length, 7⟩) [⟨[], [2], [], 0⟩, ⟨[1], [2], [3], 0⟩] :=
  C98_order _ (List.Perm.swap _ _ _)

/-- **A change of one file is noticed** exactly if its hash changes; a new file exactly if its hash is not zero. -/
theorem C98_noticed (hash : List Byte → U128) (before after : List File) (f g : File) :
    (signature hash (before ++ f :: after) = signature hash (before ++ g :: after) ↔ hash f.bytes = hash g.bytes) ∧
      (signature hash (before ++ f :: after) = signature hash (before ++ after) ↔ hash f.bytes = ⟨0, 0⟩) := by
  have hf := value_lt (hash f.bytes)
  have hg := value_lt (hash g.bytes)
  have z : value ⟨0, 0⟩ = 0 := by decide
  constructor
  · rw [← (C98_add _ _).2, ← (C98_add _ _).2, value_signature, value_signature]
    simp only [List.map_append, List.map_cons, List.sum_append_nat, List.sum_cons]
    omega
  · rw [← (C98_add _ _).2, ← (C98_add _ _).2, value_signature, value_signature, z]
    simp only [List.map_append, List.map_cons, List.sum_append_nat, List.sum_cons]
    omega

example : signature (fun b => ⟨UInt64.ofNat b.length, 0⟩) ([] ++ ⟨[1], [], [], 0⟩ :: []) ≠
    signature (fun b => ⟨UInt64.ofNat b.length, 0⟩) ([] ++ ⟨[1, 2], [], [], 0⟩ :: []) :=
  fun h => absurd ((C98_noticed _ _ _ _ _).1.1 h) (by decide)

/-- **When the modules are built.**  The run never fails an assertion if the text saved is that of a run before (or there
is none); then it builds exactly if it is forced to, nothing has been saved, or the signature has changed.  If that works
its signature is saved, otherwise what was saved stays, so that it is tried again. -/
theorem C98_built (hash : List Byte → U128) (force works : Bool) (old : Option U128) (files : List File) :
    ∃ o, run hash force works (old.bind toText) files = some o ∧
      (o.built = true ↔ force = true ∨ old ≠ some (signature hash files)) ∧
      o.saved = (if o.built = true ∧ works = true then some (signature hash files) else old).bind toText := by
  obtain ⟨t, ht, _⟩ := roundtrip (signature hash files)
  cases old with
  | none => cases works <;> simp [run, ht]
  | some s =>
    obtain ⟨u, hu, _, _, _, hp⟩ := roundtrip s
    by_cases he : s = signature hash files
    · subst he
      rw [hu] at ht
      injection ht with ht
      subst ht
      cases force <;> cases works <;> simp [run, hu, hp]
    · cases force <;> cases works <;> simp [run, hu, hp, ht, he]

example : ∃ o, run (fun b => ⟨UInt64.ofNat b.length, 0⟩) false true ((some ⟨1, 0⟩ : Option U128).bind toText) [⟨[1], [], [], 0⟩] =
    some o ∧ o.built = true := by
  obtain ⟨o, h1, h2, _⟩ := C98_built (fun b => ⟨UInt64.ofNat b.length, 0⟩) false true (some ⟨1, 0⟩) [⟨[1], [], [], 0⟩]
  exact ⟨o, h1, h2.2 (.inr (by decide))⟩

/-- **Nothing is built twice.**  After a run that worked, running again with the same files builds nothing. -/
theorem C98_once (hash : List Byte → U128) (force works : Bool) (saved : Option (List Byte)) (files : List File) (o : Outcome)
    (h : run hash force true saved files = some o) (hb : o.built = true) :
    run hash false works o.saved files = some ⟨false, 0, o.saved⟩ := by
  obtain ⟨t, ht, _, _, _, hp⟩ := roundtrip (signature hash files)
  have hs : o.saved = some t := by
    cases saved with
    | none =>
      simp [run, ht] at h
      rw [← h]
    | some u =>
      cases force
      · cases hq : parse u with
        | none => simp [run, hq] at h
        | some s =>
          by_cases he : s = signature hash files
          · simp [run, hq, he] at h
            rw [← h] at hb
            cases hb
          · simp [run, hq, he, ht] at h
            rw [← h]
      · simp [run, ht] at h
        rw [← h]
  rw [hs]
  simp [run, hp]

example : ∃ o, run (fun b => ⟨UInt64.ofNat b.length, 0⟩) false true none [⟨[1], [], [], 0⟩] = some o ∧ o.built = true := by
  obtain ⟨o, h1, h2, _⟩ := C98_built (fun b => ⟨UInt64.ofNat b.length, 0⟩) false true none [⟨[1], [], [], 0⟩]
  exact ⟨o, h1, h2.2 (.inr (by simp))⟩

/-- **False of the code:** errors in module definition files are reported every time.  They are only reported when
something is built; as they do not keep the signature from being saved, the next run reports nothing, whatever the files
and however many errors are in them. -/
theorem C98_errors_once (hash : List Byte → U128) (files : List File) :
    ∃ o, run hash false true none files = some o ∧ o.errors = (files.map File.errors).sum ∧
      ∃ o', run hash false true o.saved files = some o' ∧ o'.errors = 0 := by
  obtain ⟨t, ht, _⟩ := roundtrip (signature hash files)
  have h : run hash false true none files = some ⟨true, (files.map File.errors).sum, some t⟩ := by simp [run, ht]
  exact ⟨_, h, rfl, _, C98_once hash false true none files _ h rfl, rfl⟩

example : ([⟨[1], [], [], 2⟩, ⟨[2], [], [], 3⟩].map File.errors).sum = 5 := rfl

/-- **False of the code:** the signature of a build folder tells different contents apart.  The names of targets are
hashed one after the other with nothing between: moving the last root target to the shared ones, or cutting names
differently, leaves the signature the same for every hash, so that the build system is not generated again. -/
theorem C98_folder (hash : List Byte → U128) (head : List Byte) (roots shared externs : List (List Byte)) (t u : List Byte) :
    hash (folderBytes head (roots ++ [t]) shared externs) = hash (folderBytes head roots (t :: shared) externs) ∧
      hash (folderBytes head (roots ++ [t, u]) shared externs) = hash (folderBytes head (roots ++ [t ++ u]) shared externs) := by
  constructor <;> simp [folderBytes]

example : folderBytes [] [[97], [98]] [] [] = folderBytes [] [[97]] [[98]] [] := by decide

end Verif.Sig
