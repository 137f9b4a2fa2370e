import Verif.Cpu.Lemmas
/-!
# The processors of the machine — C91
-/
namespace Verif.Cpu
open Verif

/-- C91: from a text that describes processors, if all of them tell their package or core or none does, the table of
cores is made in which processors are on the same core exactly if they have the same package and core; cores and
processors are in the order of the text. -/
theorem C91_cores_partial {pre ls : List (List Byte)} {ps : List Proc} (hpre : ∀ l ∈ pre, OtherLine l)
    (hd : Describes ls ps) (hps : ps ≠ []) (ha : Alike ps) (hl : ∀ l ∈ pre ++ ls, 10 ∉ l) :
    affinity (some ([10].intercalate (pre ++ ls))) = some ⟨true, byCore ps, ps.length⟩ := by
  obtain ⟨st, h1, h2⟩ := collect_describes hd start [] start_inv
  have hne : pre ++ ls ≠ [] := by
    cases hd with
    | nil => exact absurd rfl hps
    | proc _ _ _ => simp
  have hc : collect start (lines ([10].intercalate (pre ++ ls))) = some st := by
    rw [lines_join _ hne hl, collect_other hpre]
    exact h1
  have e : ([] : List (Int × CoreID)) ++ pending start ++ ps.map (fun p => ((p.number : Int), idOf p)) =
      ps.map fun p => ((p.number : Int), idOf p) := rfl
  rw [e] at h2
  rw [affinity_of hc h2, if_neg (by simp [hps]), byCore_group ha, List.length_map]

/-- `processor⇥: 0`, `physical id⇥: 0`, `core id⇥⇥: 3` and `processor⇥: 1`, `core id: 3`, `physical id: 0`. -/
def exampleLines : List (List Byte) :=
  [[112, 114, 111, 99, 101, 115, 115, 111, 114, 9, 58, 32, 48], [112, 104, 121, 115, 105, 99, 97, 108, 32, 105, 100, 9, 58, 32, 48],
   [99, 111, 114, 101, 32, 105, 100, 9, 9, 58, 32, 51], [],
   [112, 114, 111, 99, 101, 115, 115, 111, 114, 9, 58, 32, 49], [99, 111, 114, 101, 32, 105, 100, 58, 32, 51],
   [112, 104, 121, 115, 105, 99, 97, 108, 32, 105, 100, 58, 32, 48]]

/-- Beside it: two hardware threads of one core. -/
example : Describes exampleLines [⟨0, some 0, some 3⟩, ⟨1, some 0, some 3⟩] ∧
    Alike [⟨0, some 0, some 3⟩, ⟨1, some 0, some 3⟩] ∧ byCore [⟨0, some 0, some 3⟩, ⟨1, some 0, some 3⟩] = [[0, 1]] ∧
    affinity (some ([10].intercalate exampleLines)) = some ⟨true, [[0, 1]], 2⟩ := by
  refine ⟨?_, Or.inr (by decide), by decide, by decide⟩
  have dec : ∀ (ds : List Byte) (n : Nat), ds ≠ [] → (∀ c ∈ ds, 48 ≤ c.toNat ∧ c.toNat ≤ 57) →
      ds.foldl (fun n c => 10 * n + (c.toNat - 48)) 0 = n → IsDecimal ds n := fun _ _ a b c => ⟨a, b, c⟩
  refine Describes.proc (fs := [_, _, []]) ⟨[9], [48], rfl, by decide, dec _ _ (by decide) (by decide) rfl, by decide⟩
    (.package ⟨[9], [48], rfl, by decide, dec _ _ (by decide) (by decide) rfl, by decide⟩
      (.core ⟨[9, 9], [51], rfl, by decide, dec _ _ (by decide) (by decide) rfl, by decide⟩
        (.other (Or.inl (by decide)) .nil)))
    (Describes.proc (fs := [_, _]) (ls := []) ⟨[9], [49], rfl, by decide, dec _ _ (by decide) (by decide) rfl, by decide⟩
      (.core ⟨[], [51], rfl, by decide, dec _ _ (by decide) (by decide) rfl, by decide⟩
        (.package ⟨[], [48], rfl, by decide, dec _ _ (by decide) (by decide) rfl, by decide⟩ .nil)) .nil)

/-- C91: in such a table each processor occurs exactly as often as in the text, no core is without a processor, and there
are as many cores as different names of cores. -/
theorem C91_each_once (ps : List Proc) : (byCore ps).flatten.Perm (ps.map fun p => (p.number : Int)) ∧
    (∀ l ∈ byCore ps, l ≠ []) ∧ (byCore ps).length = (firsts (ps.map Proc.coreName)).length ∧
    (firsts (ps.map Proc.coreName)).Nodup :=
  ⟨group_perm Proc.coreName _ ps, group_nonempty Proc.coreName _ ps, List.length_map .., firsts_nodup _⟩

/-- Beside it: the second processor is on another core. -/
example : byCore [⟨0, some 0, some 0⟩, ⟨1, some 0, some 1⟩, ⟨2, some 0, some 0⟩] = [[0, 2], [1]] := by decide

/-- C91: two processors are put on the same core exactly if they have the same package and core. -/
theorem C91_same_core {ps : List Proc} {p q : Proc} (hp : p ∈ ps) (hq : q ∈ ps)
    (hu : ∀ a ∈ ps, ∀ b ∈ ps, a.number = b.number → a = b) :
    (∃ l ∈ byCore ps, (p.number : Int) ∈ l ∧ (q.number : Int) ∈ l) ↔ p.coreName = q.coreName := by
  have mem : ∀ (r : Proc) (n : CoreName), r ∈ ps →
      ((r.number : Int) ∈ (ps.filter fun p => p.coreName = n).map (fun p => (p.number : Int)) ↔ r.coreName = n) := by
    intro r n hr
    constructor
    · intro h
      obtain ⟨a, ha, he⟩ := List.mem_map.1 h
      obtain ⟨ha1, ha2⟩ := List.mem_filter.1 ha
      have := hu a ha1 r hr (by omega)
      subst this
      simpa using ha2
    · intro h
      exact List.mem_map.2 ⟨r, List.mem_filter.2 ⟨hr, by simpa using h⟩, rfl⟩
  constructor
  · rintro ⟨l, hl, h1, h2⟩
    obtain ⟨n, _, rfl⟩ := List.mem_map.1 hl
    rw [(mem p n hp).1 h1, (mem q n hq).1 h2]
  · intro h
    refine ⟨_, List.mem_map.2 ⟨p.coreName, (mem_firsts _ _).2 (List.mem_map_of_mem hp), rfl⟩, ?_, ?_⟩
    · exact (mem p _ hp).2 rfl
    · exact (mem q _ hq).2 h.symm

/-- Beside it: processors with distinct numbers. -/
example : (∀ a ∈ ([⟨0, some 0, some 0⟩, ⟨1, some 0, some 1⟩] : List Proc), ∀ b ∈ ([⟨0, some 0, some 0⟩, ⟨1, some 0, some 1⟩] : List Proc),
    a.number = b.number → a = b) ∧ (⟨0, some 0, some 0⟩ : Proc).coreName ≠ (⟨1, some 0, some 1⟩ : Proc).coreName := by
  decide

/-- C91: without a file, or with one that tells of no processor, there is one core with one thread, and the table says of
itself that it is not accurate. -/
theorem C91_fallback {pre : List (List Byte)} (hpre : ∀ l ∈ pre, OtherLine l ∧ 10 ∉ l) (hne : pre ≠ []) :
    affinity none = some ⟨false, [[0]], 1⟩ ∧
    affinity (some ([10].intercalate pre)) = some ⟨false, [[0]], 1⟩ := by
  refine ⟨rfl, ?_⟩
  have hc : collect start (lines ([10].intercalate pre)) = some start := by
    rw [lines_join _ hne fun l hl => (hpre l hl).2]
    have := collect_other (fun l hl => (hpre l hl).1) start []
    rw [List.append_nil] at this
    rw [this]
    rfl
  rw [affinity_of hc start_inv, if_pos rfl]

/-- Beside it: an empty file. -/
example : (∀ l ∈ ([[]] : List (List Byte)), OtherLine l ∧ 10 ∉ l) :=
  fun l hl => by rw [List.mem_singleton] at hl; subst hl; exact ⟨Or.inl (by decide), by decide⟩

/-- C91: whatever the text, unless a number does not fit into an `int`: there is a core, each core has a thread, the
number of threads is the sum over the cores, and binding works for exactly these numbers of cores and threads. -/
theorem C91_any (text : List Byte) (h : ∀ l ∈ lines text, readLine l ≠ none) :
    ∃ a, affinity (some text) = some a ∧ 0 < a.numCores ∧ (∀ c < a.numCores, ∃ n, a.threadsOf c = some n ∧ 0 < n) ∧
      a.numThreads = a.cores.flatten.length ∧
      ∀ c t, (∃ s, a.cpuSet c t = some s) ↔ c < a.numCores ∧ ∃ n, a.threadsOf c = some n ∧ t < n := by
  obtain ⟨st, fs, h1, h2⟩ := (collect_any (lines text) start [] start_inv).2 h
  have bind : ∀ a : Affinity, ∀ c t, (∃ s, a.cpuSet c t = some s) ↔ c < a.numCores ∧ ∃ n, a.threadsOf c = some n ∧ t < n := by
    intro a c t
    unfold Affinity.cpuSet Affinity.numCores Affinity.threadsOf
    cases hc : a.cores[c]? with
    | none =>
      rw [List.getElem?_eq_none_iff] at hc
      constructor
      · rintro ⟨s, hs⟩; cases hs
      · rintro ⟨h, _⟩; omega
    | some l =>
      have hlt := (List.getElem?_eq_some_iff.1 hc).1
      dsimp only
      cases ht : l[t]? with
      | none =>
        rw [List.getElem?_eq_none_iff] at ht
        constructor
        · rintro ⟨s, hs⟩; cases hs
        · rintro ⟨_, n, hn, h⟩
          simp only [Option.map_some, Option.some.injEq] at hn
          omega
      | some p =>
        have := (List.getElem?_eq_some_iff.1 ht).1
        exact ⟨fun _ => ⟨hlt, _, rfl, this⟩, fun _ => ⟨_, rfl⟩⟩
  refine ⟨_, affinity_of h1 h2, ?_, ?_, ?_, bind _⟩
  · split
    · exact Nat.one_pos
    · rename_i hf
      unfold Affinity.numCores group
      dsimp only
      rw [List.length_map]
      cases fs with
      | nil => exact absurd rfl hf
      | cons f fs => simp [firsts]
  · intro c hc
    split at hc
    · rename_i hf
      rw [if_pos hf]
      have : c = 0 := by unfold Affinity.numCores at hc; simpa using hc
      subst this
      exact ⟨1, rfl, Nat.one_pos⟩
    · rename_i hf
      rw [if_neg hf]
      unfold Affinity.threadsOf
      have hc' : c < (group Prod.snd Prod.fst fs).length := hc
      dsimp only
      rw [List.getElem?_eq_getElem hc']
      refine ⟨_, rfl, ?_⟩
      have := group_nonempty Prod.snd Prod.fst fs _ (List.getElem_mem hc')
      exact List.length_pos_iff.2 this
  · split
    · rfl
    · have := (group_perm Prod.snd Prod.fst fs).length_eq
      rw [List.length_map] at this
      exact this.symm

/-- Beside it: `core id: x`, a line without a number. -/
example : ∀ l ∈ lines [99, 111, 114, 101, 32, 105, 100, 58, 32, 120], readLine l ≠ none := by decide

/-- C91: the behaviour is undefined exactly if in some line a number follows the first colon that does not fit into an
`int`, whatever the line is about. -/
theorem C91_overflow (text : List Byte) : affinity (some text) = none ↔ ∃ l ∈ lines text, readLine l = none := by
  constructor
  · intro h
    refine Classical.byContradiction fun hn => ?_
    obtain ⟨a, ha, _⟩ := C91_any text fun l hl he => hn ⟨l, hl, he⟩
    rw [h] at ha
    cases ha
  · intro h
    unfold affinity
    have := (collect_any (lines text) start [] start_inv).1 h
    have h' : collect ⟨[], 0, -1, ⟨-1, -1⟩, []⟩ (lines text) = none := this
    dsimp only
    rw [h']

/-- Beside it: `Serial: 1000000012345678`, as on some single-board computers. -/
example : affinity (some [83, 101, 114, 105, 97, 108, 58, 32, 49, 48, 48, 48, 48, 48, 48, 48, 49, 50, 51, 52, 53, 54, 55, 56]) =
    none := by decide

/-- C91: every processor with a number below 1024 can be bound to, by some core and thread; binding to any core and
thread asks the kernel for exactly one processor of the text, or for none if its number is not below 1024. -/
theorem C91_bind (ps : List Proc) (acc : Bool) (num : Nat) :
    (∀ p ∈ ps, p.number < 1024 → ∃ c t, (⟨acc, byCore ps, num⟩ : Affinity).cpuSet c t = some [(p.number : Int)]) ∧
    ∀ c t s, (⟨acc, byCore ps, num⟩ : Affinity).cpuSet c t = some s →
      ∃ p ∈ ps, (p.number < 1024 ∧ s = [(p.number : Int)]) ∨ (1024 ≤ p.number ∧ s = []) := by
  have hperm := (C91_each_once ps).1
  constructor
  · intro p hp hlt
    have hm : (p.number : Int) ∈ (byCore ps).flatten := hperm.mem_iff.2 (List.mem_map_of_mem hp)
    obtain ⟨l, hl, hpl⟩ := List.mem_flatten.1 hm
    obtain ⟨c, hc⟩ := List.getElem?_of_mem hl
    obtain ⟨t, ht⟩ := List.getElem?_of_mem hpl
    refine ⟨c, t, ?_⟩
    unfold Affinity.cpuSet
    dsimp only
    rw [hc]
    dsimp only
    rw [ht]
    dsimp only
    rw [if_pos (by omega)]
  · intro c t s h
    unfold Affinity.cpuSet at h
    dsimp only at h
    cases hc : (byCore ps)[c]? with
    | none => rw [hc] at h; cases h
    | some l =>
      rw [hc] at h
      dsimp only at h
      cases ht : l[t]? with
      | none => rw [ht] at h; cases h
      | some q =>
        rw [ht] at h
        have hm : q ∈ (byCore ps).flatten := List.mem_flatten.2 ⟨l, List.mem_of_getElem? hc, List.mem_of_getElem? ht⟩
        obtain ⟨p, hp, rfl⟩ := List.mem_map.1 (hperm.mem_iff.1 hm)
        refine ⟨p, hp, ?_⟩
        dsimp only at h
        split at h
        · exact Or.inl ⟨by omega, by cases h; rfl⟩
        · exact Or.inr ⟨by omega, by cases h; rfl⟩

/-- Beside it: thread 1 of core 0. -/
example : (⟨true, [[4, 6], [5]], 3⟩ : Affinity).cpuSet 0 1 = some [6] ∧
    (⟨true, [[2000]], 1⟩ : Affinity).cpuSet 0 0 = some [] := by decide

/-- The description of processors need not be alike: `processor: 0`, `physical id: 0`, `core id: 1`, and `processor: 1`. -/
def mixedLines : List (List Byte) :=
  [[112, 114, 111, 99, 101, 115, 115, 111, 114, 58, 32, 48], [112, 104, 121, 115, 105, 99, 97, 108, 32, 105, 100, 58, 32, 48],
   [99, 111, 114, 101, 32, 105, 100, 58, 32, 49], [112, 114, 111, 99, 101, 115, 115, 111, 114, 58, 32, 49]]

/-- C91, false without `Alike`: a processor that tells nothing is put on the core of package 0 that has its number. -/
theorem C91_mixed : affinity (some ([10].intercalate mixedLines)) = some ⟨true, [[0, 1]], 2⟩ ∧
    byCore [⟨0, some 0, some 1⟩, ⟨1, none, none⟩] = [[0], [1]] := by decide

/-- C91: if packages are told but no cores, each package counts as one core. -/
theorem C91_packages_only {ps : List Proc} (h : ∀ p ∈ ps, p.package ≠ none ∧ p.core = none) :
    byCore ps = group (fun p => p.package) (fun p => (p.number : Int)) ps := by
  refine group_congr Proc.coreName _ _ ps ?_
  intro a ha b hb
  unfold Proc.coreName
  rw [if_neg (fun hh => (h a ha).1 hh.1), if_neg (fun hh => (h b hb).1 hh.1)]
  simp [(h a ha).2, (h b hb).2]

/-- Beside it: four processors of one package. -/
example : byCore [⟨0, some 0, none⟩, ⟨1, some 0, none⟩, ⟨2, some 0, none⟩, ⟨3, some 0, none⟩] = [[0, 1, 2, 3]] := by decide

end Verif.Cpu
