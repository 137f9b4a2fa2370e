import Verif.Spooky.Lemmas
/-!
# C28: the 128-bit hash of a stream

`junk` is whatever was in the hasher's memory before construction: no result depends on it.
-/
namespace Verif.Spooky
open Verif

/-- An arbitrary memory image for examples. -/
def junk0 : State :=
  ⟨List.replicate 192 7, ⟨1, 2, 3, 4, 5, 6, 7, 8, 9, 10, 11, 12⟩, 99, 5⟩

/-- C28.  Whatever is appended in whatever pieces, with `get` called at any points in between, nothing
outside the hasher or the messages is touched and every `get` gives the one-shot hash of all bytes
appended so far. -/
theorem C28_stream (junk : State) (hj : junk.data.length = 192) (ops : List Op) :
    ∃ rs, run (hasherInit junk) ops = some rs ∧
      expected (fun t => hash128 t 0 0) [] ops = some rs := by
  obtain ⟨e, h⟩ := run_eq ops [] _ (Inv_init junk hj 0 0)
  obtain ⟨rs, hr⟩ := Option.isSome_iff_exists.mp h
  exact ⟨rs, hr, e ▸ hr⟩

/-- Pieces crossing the 192-byte limit and the 96-byte blocks, with `get`s in between. -/
example :
    run (hasherInit junk0) [.append (List.replicate 150 1), .get, .append (List.replicate 100 2), .get,
      .append (List.replicate 130 3), .get] =
    expected (fun t => hash128 t 0 0) [] [.append (List.replicate 150 1), .get,
      .append (List.replicate 100 2), .get, .append (List.replicate 130 3), .get] := by decide +kernel

/-- C28.  Two ways of cutting up the same bytes give the same hash. -/
theorem C28_cut (junk junk' : State) (hj : junk.data.length = 192) (hj' : junk'.data.length = 192)
    (ps qs : List (List Byte)) (h : ps.flatten = qs.flatten) :
    run (hasherInit junk) (ps.map Op.append ++ [.get]) =
      run (hasherInit junk') (qs.map Op.append ++ [.get]) := by
  have aux : ∀ (ps : List (List Byte)) (t : List Byte),
      expected (fun t => hash128 t 0 0) t (ps.map Op.append ++ [.get]) =
        (hash128 (t ++ ps.flatten) 0 0).map fun r => [r] := by
    intro ps
    induction ps with
    | nil =>
      intro t
      simp only [List.map_nil, List.nil_append, expected, List.flatten_nil, List.append_nil]
      cases hash128 t 0 0 <;> rfl
    | cons p ps ih =>
      intro t
      simp only [List.map_cons, List.cons_append, expected, ih, List.flatten_cons, List.append_assoc]
  unfold hasherInit
  rw [(run_eq _ [] _ (Inv_init junk hj 0 0)).1, (run_eq _ [] _ (Inv_init junk' hj' 0 0)).1, aux, aux, h]

example : ([[1, 2], [], [3]] : List (List Byte)).flatten = [[1], [2, 3]].flatten := rfl

/-- C28.  The one-call form gives the one-shot hash. -/
theorem C28_compute (junk : State) (hj : junk.data.length = 192) (m : List Byte) :
    ∃ r, compute junk m = some r ∧ hash128 m 0 0 = some r := by
  obtain ⟨s, e, i⟩ := Inv_update (Inv_init junk hj 0 0) m
  obtain ⟨r, s', e2, e3, -⟩ := Inv_final i
  refine ⟨r, ?_, e3⟩
  simp only [compute, hasherInit, Option.bind_eq_bind]
  rw [e, Option.bind_some, e2]
  rfl

example : compute junk0 (List.replicate 300 65) = hash128 (List.replicate 300 65) 0 0 := by decide +kernel

/-- C28.  `get` leaves the hasher as good as it was: a later `get` gives the same value, and so does any
continuation. -/
theorem C28_get_harmless (junk : State) (hj : junk.data.length = 192) (a b : List Op) :
    ∃ r ra rb, run (hasherInit junk) (a ++ [.get] ++ b) = some (ra ++ r :: rb) ∧
      run (hasherInit junk) (a ++ b) = some (ra ++ rb) := by
  have aux : ∀ (a : List Op) (t : List Byte) (s : State), Inv 0 0 t s → ∃ r ra rb,
      run s (a ++ [.get] ++ b) = some (ra ++ r :: rb) ∧ run s (a ++ b) = some (ra ++ rb) := by
    intro a
    induction a with
    | nil =>
      intro t s i
      obtain ⟨r, s', e, eh, i'⟩ := Inv_final i
      obtain ⟨e2, e3⟩ := run_eq b t s' i'
      obtain ⟨rb, e4⟩ := Option.isSome_iff_exists.mp e3
      refine ⟨r, [], rb, ?_, ?_⟩
      · simp only [List.nil_append, List.cons_append, run, e, e4]
      · rw [List.nil_append, (run_eq b t s i).1, ← e2, e4]; rfl
    | cons op a ih =>
      intro t s i
      cases op with
      | append m =>
        obtain ⟨s', e, i'⟩ := Inv_update i m
        simp only [List.cons_append, run, e]
        exact ih _ _ i'
      | get =>
        obtain ⟨r', s', e, eh, i'⟩ := Inv_final i
        obtain ⟨r, ra, rb, e1, e2⟩ := ih _ _ i'
        refine ⟨r, r' :: ra, rb, ?_, ?_⟩
        · simp only [List.cons_append, run, e, e1]
        · simp only [List.cons_append, run, e, e2]
  exact aux a [] _ (Inv_init junk hj 0 0)

example : ∃ r, run (hasherInit junk0) [.append (List.replicate 200 1), .get, .append [2], .get] =
      some (r :: (run (hasherInit junk0) [.append (List.replicate 200 1), .append [2], .get]).getD []) :=
  ⟨((run (hasherInit junk0) [.append (List.replicate 200 1), .get]).getD []).head (by decide +kernel),
    by decide +kernel⟩

/-- C28.  In a short message every one of the last bytes enters in its own place: what is mixed in is the
remaining bytes, little-endian and padded with zeroes to two words. -/
theorem C28_short_tail (r : List Byte) (h0 : r ≠ []) (hr : r.length < 16) :
    shortTail r.length r = some (padded (r.take 8), padded (r.drop 8)) := by
  rw [shortTail_eq r hr, if_neg (by simpa using h0)]

example : shortTail 11 [1, 2, 3, 4, 5, 6, 7, 8, 9, 10, 11] =
    some (0x0807060504030201, 0x0b0a09) := by decide +kernel

end Verif.Spooky
