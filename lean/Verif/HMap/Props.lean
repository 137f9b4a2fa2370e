import Verif.HMap.LemmasClient
/-!
# C20: the hash map is a map

`Spec` says what a map answers.  `AtMost 128` programs are answered rightly whatever the hash function,
and always come back; programs of any size which erase nothing are answered rightly if they come back.
Beyond that both promises fail: `C20_may_hang`, `C20_erase_loses`.
-/
namespace Verif.HMap
open Spec

variable {K V : Type} [DecidableEq K]

/-- Every program that never puts into a map of more than 128 entries, whatever the hash function and
the initial size (up to 256): every operation returns, no assertion fails, and every answer is that of
a map.  Partial: the code claims no such bound. -/
theorem C20_small_map_partial (T : Traits K V) (size : Nat) (hs : size ≤ 256) (t : Table K V)
    (ht : create size = some t) (ops : List (Op K V)) (hb : AtMost 128 (fun _ => none) ops) (n : Nat) :
    ∃ outs t', run T (n + 2) t ops = some (outs, t') ∧ Answers (fun _ => none) ops outs := by
  obtain ⟨h1, h2⟩ := Rel.create (T := T) ht
  exact run_small n ops h1 (by omega) hb

/-- Any power of two from 4 on is an initial size. -/
theorem C20_sizes (k : Nat) (h2 : 2 ≤ k) (h31 : k ≤ 31) : ∃ t, create (K := K) (V := V) (2 ^ k) = some t := by
  unfold create
  rw [createTable_pow h2 h31]
  exact ⟨_, rfl⟩

/-- Every program which erases nothing, of any length, whatever the hash function: if its operations
return, the answers are those of a map.  Partial: nothing is erased, and it may not return. -/
theorem C20_no_erase_partial (T : Traits K V) (size : Nat) (t : Table K V) (ht : create size = some t)
    (ops : List (Op K V)) (hne : NoErase ops) (fuel : Nat) (outs : List (Out K V)) (t' : Table K V)
    (h : run T fuel t ops = some (outs, t')) : Answers (fun _ => none) ops outs :=
  run_noErase fuel ops (Rel.create (T := T) ht).1 hne h

/-- Two keys with the same hash in a full table of four cells, one erased: not vacuous. -/
example : AtMost (K := Nat) (V := Nat) 128 (fun _ => none)
    [.put 1 10, .put 5 50, .erase 1, .get 5, .all] := by
  refine ⟨fun k v _ => ⟨[], ⟨List.nodup_nil, by simp⟩, by simp⟩, fun k v _ => ⟨[(1, 10)], ⟨by simp, ?_⟩, by simp⟩,
    ?_, ?_, ?_, trivial⟩
  · intro k v
    simp only [List.mem_singleton, Prod.mk.injEq, after]
    split
    · next e => subst e; simp; exact eq_comm
    · next e => simp [e]
  all_goals intro k v h; cases h

/-- The identity as hash function. -/
def idTraits : Traits Nat Nat := ⟨id, 0⟩

theorem stuck (S : Table Nat Nat) (k : Nat)
    (h1 : insertOrFind idTraits S.cells k true = some (.overflow, S.cells))
    (h2 : migrate S = some S) : ∀ fuel, findWithInsert idTraits k fuel S = none := by
  intro fuel
  induction fuel with
  | zero => rfl
  | succ n ih =>
    simp only [findWithInsert, h1]
    rw [show (⟨S.cells, S.pop⟩ : Table Nat Nat) = S from rfl, h2, Option.bind_some]
    exact ih

/-- The keys 0 to 128. -/
def crowd : List (Op Nat Nat) := (List.range 129).map fun k => .put k 0

/-- Putting the keys 0 to 128 and then 512 into a map of the default size, keys being their own hash,
never returns: the bucket's cells stay full however often the table is rebuilt, at the same size. -/
theorem C20_may_hang : ∃ t0 outs t, create 8 = some t0 ∧ run idTraits 2 t0 crowd = some (outs, t) ∧
    ∀ fuel, step idTraits fuel t (.put 512 0) = none := by
  have h : (create 8).any (fun t0 => (run idTraits 2 t0 crowd).any fun r => (migrate r.2).any fun S =>
      decide (insertOrFind idTraits r.2.cells 512 true = some (.overflow, r.2.cells)) &&
      decide (insertOrFind idTraits S.cells 512 true = some (.overflow, S.cells)) &&
      decide (migrate S = some S)) = true := by
    decide +kernel
  rw [Option.any_eq_true] at h
  obtain ⟨t0, ht0, h⟩ := h
  rw [Option.any_eq_true] at h
  obtain ⟨⟨outs, t⟩, hr, h⟩ := h
  rw [Option.any_eq_true] at h
  obtain ⟨S, hS, h⟩ := h
  simp only [Bool.and_eq_true, decide_eq_true_eq] at h
  refine ⟨t0, outs, t, ht0, hr, fun fuel => ?_⟩
  have : findWithInsert idTraits 512 fuel t = none := by
    cases fuel with
    | zero => rfl
    | succ n =>
      simp only [findWithInsert, h.1.1]
      rw [show (⟨t.cells, t.pop⟩ : Table Nat Nat) = t from rfl, hS, Option.bind_some]
      exact stuck S 512 h.1.2 h.2 n
  simp only [step, this]

/-- Keys whose chain has two gaps adding up to 255. -/
def gaps : List (Op Nat Nat) :=
  (0 :: 512 :: (List.range 127).map (· + 2) ++ 1024 :: (List.range 126).map (· + 130) ++ [1536]).map
    fun k => .put k 0

/-- In a map of initial size 512, erasing the key 1024 makes finding the key 512 fail an assertion: the
distance 255 left in its cell marks the cell as empty. -/
theorem C20_erase_loses : ∃ t0 outs t outs' t', create 512 = some t0 ∧
    run idTraits 2 t0 gaps = some (outs, t) ∧
    (run idTraits 2 t [.get 512, .erase 1024]).isSome = true ∧
    run idTraits 2 t [.erase 1024] = some (outs', t') ∧
    step idTraits 2 t' (.get 512) = none := by
  have h : (create 512).any (fun t0 => (run idTraits 2 t0 gaps).any fun r =>
      (run idTraits 2 r.2 [.get 512, .erase 1024]).isSome &&
      (run idTraits 2 r.2 [.erase 1024]).any fun r' =>
        (step idTraits 2 r'.2 (.get 512)).isNone) = true := by
    decide +kernel
  rw [Option.any_eq_true] at h
  obtain ⟨t0, ht0, h⟩ := h
  rw [Option.any_eq_true] at h
  obtain ⟨⟨outs, t⟩, hr, h⟩ := h
  rw [Bool.and_eq_true, Option.any_eq_true] at h
  obtain ⟨h1, ⟨outs', t'⟩, h2, h3⟩ := h
  exact ⟨t0, outs, t, outs', t', ht0, hr, h1, h2, by simpa using h3⟩

end Verif.HMap
