import Verif.FLoc.Lemmas
/-!
# C32: file offsets to lines and columns
-/
namespace Verif.FLoc
open Verif Spec

/-- C32, where it holds.  The map gives the line, the column and the bytes into the line that reading the
text from its start gives, for every offset at the start of a character (or at the end of the text), if a
character starts at the last multiple of 256 before it, and if the offset is not the length of a text of a
whole number of 256-byte chunks.  (The column is kept in 28 bits.) -/
theorem C32_partial (t : List Byte) (ht : t.length < 2 ^ 32) (offset : Nat)
    (ds cs : List (Int × Nat)) (hd : Prefix t offset ds) (hc : Prefix t (256 * (offset / 256)) cs)
    (hend : offset = t.length → offset % 256 ≠ 0 ∨ offset = 0) :
    getFileLocation t (fromView t) offset =
      some ⟨line ds, bytesIntoLine ds, column ds % 2 ^ 28, 0⟩ := by
  obtain ⟨c, ha, he⟩ := get_eq_scan ht hd.le hc hend
  rw [he]
  exact scan_hit hd _ _ _ _ (by omega) hc ha (by omega)

/-- A text with a two-byte character, a line feed and a tab. -/
example : getFileLocation [0x61, 0x0a, 0xc3, 0xa9, 0x09, 0x62] (fromView [0x61, 0x0a, 0xc3, 0xa9, 0x09, 0x62]) 5 =
    some ⟨2, 3, 4, 0⟩ := by decide

/-- C32 for texts of ASCII characters: every offset inside the text. -/
theorem C32_ascii (t : List Byte) (ht : t.length < 2 ^ 32) (ha : ∀ b ∈ t, b.toNat < 0x80) (offset : Nat)
    (ho : offset < t.length) :
    ∃ l, getFileLocation t (fromView t) offset = some l ∧
      l.lineNumber = 1 + (t.take offset).countP (fun b => b = 10) ∧
      l.numBytesIntoLine = ((t.take offset).reverse.takeWhile fun b => b ≠ 10).length ∧
      l.numBytesIntoColumn = 0 := by
  have hd := prefix_ascii ha offset (by omega)
  have hc := prefix_ascii ha (256 * (offset / 256)) (by omega)
  refine ⟨_, C32_partial t ht offset _ _ hd hc (fun h => by omega), ?_, ?_, rfl⟩
  · dsimp only
    unfold line
    rw [List.countP_map]
    congr 1
    apply List.countP_congr
    intro b _
    simp only [Function.comp, decide_eq_true_eq]
    constructor
    · intro h
      exact byte_ext (by simpa using (by exact_mod_cast h : b.toNat = 10))
    · intro h; subst h; rfl
  · dsimp only
    unfold bytesIntoLine thisLine
    rw [← List.map_reverse]
    generalize (t.take offset).reverse = r
    induction r with
    | nil => rfl
    | cons b r ih =>
      rw [List.map_cons, List.takeWhile_cons, List.takeWhile_cons]
      by_cases h : b = 10
      · subst h; rfl
      · have h' : ((b.toNat : Int)) ≠ 10 := by
          intro e
          exact h (byte_ext (by simpa using (by exact_mod_cast e : b.toNat = 10)))
        simp only [h', h, ne_eq, not_false_eq_true, decide_true, if_true]
        rw [List.reverse_cons, List.map_append, List.sum_append, List.length_cons]
        simpa using ih

example : getFileLocation (List.replicate 300 97 ++ [10, 98, 99]) (fromView (List.replicate 300 97 ++ [10, 98, 99]))
    302 = some ⟨2, 1, 2, 0⟩ := by decide +kernel

/-- The table has one entry for each started chunk of 256 bytes, and one for an empty text: the end of a
text of a whole number of chunks has none, and asking for it reads outside the table. -/
theorem C32_end_of_chunk (t : List Byte) (ht : t.length < 2 ^ 32) (h0 : t ≠ []) (h : t.length % 256 = 0) :
    getFileLocation t (fromView t) t.length = none := by
  obtain ⟨K, hK, hK1, hKl, hK2, -⟩ := fromView_table ht
  have hlen : 0 < t.length := List.length_pos_iff.mpr h0
  have : (fromView t)[t.length / 256]? = none := by
    apply List.getElem?_eq_none
    rcases hK2 with h | h <;> omega
  unfold getFileLocation
  rw [if_pos (Nat.le_refl _), this]

example : (List.replicate 256 (97 : Byte)).length % 256 = 0 := by decide +kernel

/-- An offset inside a character fails an assertion (if a character starts at the chunk): the distance
computed is negative. -/
theorem C32_inside_character (t : List Byte) (ht : t.length < 2 ^ 32) (offset : Nat) (ho : offset < t.length)
    (hn : ∀ ds, ¬ Prefix t offset ds) (cs : List (Int × Nat)) (hc : Prefix t (256 * (offset / 256)) cs) :
    getFileLocation t (fromView t) offset = none := by
  obtain ⟨c, ha, he⟩ := get_eq_scan ht (by omega) hc (fun h => by omega)
  rw [he]
  exact scan_miss (by omega) hn _ _ _ _ hc

example : getFileLocation [0xc3, 0xa9, 0x61] (fromView [0xc3, 0xa9, 0x61]) 1 = none := by decide

/-- 255 letters, a two-byte character over the chunk boundary, more letters. -/
def straddle : List Byte := List.replicate 255 97 ++ [0xc3, 0xa9] ++ List.replicate 10 98

/-- C32 is false of the code when a character lies across a multiple of 256: the right column of offset
257 is 257, the map says 271. -/
theorem C32_counterexample :
    (∃ ds, Prefix straddle 257 ds ∧ column ds = 257) ∧
      getFileLocation straddle (fromView straddle) 257 = some ⟨1, 257, 271, 0⟩ := by
  constructor
  · have hl : straddle.length = 267 := by decide +kernel
    have hds : ∀ p < 255, Enc.decodeUTF8 (straddle.drop p) = ⟨97, .valid, 1⟩ := by decide +kernel
    have hstep : ∀ p : Nat, p ≤ 255 → Prefix straddle p (List.replicate p (97, 1)) := by
      intro p
      induction p with
      | zero => intro _; exact .nil
      | succ p ih =>
        intro hp
        have h1 := Prefix.snoc (ih (by omega)) (show p < straddle.length by omega)
        rw [hds p (by omega)] at h1
        rw [List.replicate_succ']
        exact h1
    have h1 := Prefix.snoc (hstep 255 (by omega)) (show 255 < straddle.length by omega)
    have hd : Enc.decodeUTF8 (straddle.drop 255) = ⟨0xe9, .valid, 2⟩ := by decide +kernel
    rw [hd] at h1
    refine ⟨_, h1, ?_⟩
    decide +kernel
  · decide +kernel

end Verif.FLoc
