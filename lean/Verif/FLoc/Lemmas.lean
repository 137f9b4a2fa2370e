import Verif.FLoc.Model
import Verif.FLoc.Spec
import Verif.Enc.Props
/-!
# Lemmas about the file location map
-/
namespace Verif.FLoc
open Verif Spec

/-- The scanner's state after the characters `cs` that end at `p`, column modulo 2^28. -/
def At (p : Nat) (cs : List (Int × Nat)) (c : Cur) : Prop :=
  c.line = line cs ∧ c.col % 2 ^ 28 = column cs % 2 ^ 28 ∧ c.lineStart + bytesIntoLine cs = p

theorem thisLine_snoc (cs : List (Int × Nat)) (c : Int × Nat) :
    thisLine (cs ++ [c]) = if c.1 = 10 then [] else thisLine cs ++ [c] := by
  unfold thisLine
  rw [List.reverse_append]
  simp only [List.reverse_singleton, List.singleton_append, List.takeWhile_cons]
  by_cases h : c.1 = 10 <;> simp [h]

theorem At.advance {p : Nat} {cs : List (Int × Nat)} {c : Cur} (h : At p cs c) (point : Int) (n : Nat) :
    At (p + n) (cs ++ [(point, n)]) (c.advance point (p + n)) := by
  obtain ⟨h1, h2, h3⟩ := h
  unfold At Cur.advance line column bytesIntoLine at *
  rw [thisLine_snoc]
  by_cases hp : point = 10
  · simp [hp, h1]; omega
  · simp only [hp, if_false]
    simp only [List.foldl_append, List.foldl_cons, List.foldl_nil, List.map_append, List.map_cons,
      List.map_nil, List.sum_append, List.sum_cons, List.sum_nil, List.countP_append,
      List.countP_singleton, hp, decide_false]
    generalize List.foldl _ 1 (thisLine cs) = k at *
    by_cases ht : point = 9
    · simp only [ht, if_true, place]
      refine ⟨by simp [h1], ?_, by omega⟩
      omega
    · by_cases hr : point = 13
      · simp only [hr, place]
        refine ⟨by simp [h1], by simpa using h2, ?_⟩
        simp; omega
      · simp only [ht, hr, if_false, place]
        refine ⟨by simp [h1], ?_, by omega⟩
        omega

theorem decode_pos {v : List Byte} (h : v ≠ []) :
    1 ≤ (Enc.decodeUTF8 v).numBytes ∧ (Enc.decodeUTF8 v).numBytes ≤ v.length ∧
      (Enc.decodeUTF8 v).numBytes ≤ 4 := by
  obtain ⟨a1, a2, -⟩ := (Enc.C02_progress v).2 h
  refine ⟨a1, a2, ?_⟩
  cases v with
  | nil => exact absurd rfl h
  | cons a rest =>
    rcases Enc.decode_cases a rest with ⟨s, p, hs, hp, he⟩ | ⟨_, he⟩ | ⟨_, he⟩
    · rw [he]; exact hs.length_le
    · rw [he]; simp
    · rw [he]; simp

/-- Bytes of the character at `p`. -/
abbrev nb (t : List Byte) (p : Nat) : Nat := (Enc.decodeUTF8 (t.drop p)).numBytes

theorem nb_bounds {t : List Byte} {p : Nat} (h : p < t.length) :
    1 ≤ nb t p ∧ p + nb t p ≤ t.length ∧ nb t p ≤ 4 := by
  have hne : t.drop p ≠ [] := by
    intro e
    have := congrArg List.length e
    simp at this; omega
  obtain ⟨a, b, c⟩ := decode_pos hne
  rw [List.length_drop] at b
  unfold nb
  omega

theorem Spec.Prefix.le {t : List Byte} {p : Nat} {cs : List (Int × Nat)} (h : Prefix t p cs) : p ≤ t.length := by
  induction h with
  | nil => omega
  | snoc _ hp _ => exact (nb_bounds hp).2.1

theorem Spec.Prefix.cmp {t : List Byte} {q : Nat} {ds : List (Int × Nat)} (hq : Prefix t q ds) :
    ∀ {p : Nat} {cs : List (Int × Nat)}, Prefix t p cs → p ≤ q →
      (p = q ∧ cs = ds) ∨ (p < q ∧ p + nb t p ≤ q) := by
  induction hq with
  | nil =>
    intro p cs hp hle
    cases hp with
    | nil => exact .inl ⟨rfl, rfl⟩
    | snoc h hl => have := nb_bounds hl; unfold nb at this; omega
  | @snoc q' ds' hq' hl ih =>
    intro p cs hp hle
    have hb := nb_bounds hl
    have key : ∀ {p : Nat} {cs : List (Int × Nat)}, Prefix t p cs → q' < p → p ≤ q' + nb t q' →
        p = q' + nb t q' ∧
        cs = ds' ++ [((Enc.decodeUTF8 (t.drop q')).point, (Enc.decodeUTF8 (t.drop q')).numBytes)] := by
      intro p cs hp
      induction hp with
      | nil => intro h; omega
      | @snoc p' cs' hp' hl' ih' =>
        intro h1 h2
        have hb' := nb_bounds hl'
        by_cases hc2 : p' ≤ q'
        · rcases ih hp' hc2 with ⟨e, e'⟩ | ⟨e1, e2⟩
          · subst e; subst e'; exact ⟨rfl, rfl⟩
          · unfold nb at *; omega
        · obtain ⟨e, -⟩ := ih' (by omega) (by unfold nb at *; omega)
          unfold nb at *; omega
    by_cases hc : p ≤ q'
    · rcases ih hp hc with ⟨e, -⟩ | ⟨e1, e2⟩
      · right; subst e; unfold nb at *; omega
      · right; unfold nb at *; omega
    · exact .inl (key hp (by omega) hle)

/-- What an entry of the table says: the state at the start of the character that covers byte `256 k`. -/
def Entry (t : List Byte) (k : Nat) (l : Loc) : Prop :=
  ∃ ofs cs c, Prefix t ofs cs ∧ At ofs cs c ∧ ofs ≤ 256 * k ∧ 256 * k < ofs + 256 ∧
    (k ≠ 0 → 256 * k < ofs + nb t ofs) ∧
    l = Loc.mk' c.line (256 * k - c.lineStart) c.col ofs

theorem Loc.mk'_sub (line intoLine col ofs : Nat) (h : ofs < 2 ^ 32) :
    Loc.mk' line intoLine col (u32 (ofs + 2 ^ 32 - 256)) = Loc.mk' line intoLine col ofs := by
  have : u32 (ofs + 2 ^ 32 - 256) % 2 ^ 4 = ofs % 2 ^ 4 := by unfold u32; omega
  simp only [Loc.mk', this]

theorem build_table {t : List Byte} (ht : t.length < 2 ^ 32) (fuel : Nat) :
    ∀ (ofs : Nat) (cs : List (Int × Nat)) (c : Cur) (K : Nat) (table : List Loc),
    t.length - ofs ≤ fuel → Prefix t ofs cs → At ofs cs c → 1 ≤ K → ofs ≤ 256 * K →
    (256 * (K - 1) < ofs ∨ K = 1) → table.length = K →
    (∀ (k : Nat) l, table[k]? = some l → Entry t k l) →
    ∃ K', (build fuel (t.drop ofs) c ofs (256 * K) table).length = K' ∧ 1 ≤ K' ∧ t.length ≤ 256 * K' ∧
      (256 * (K' - 1) < t.length ∨ K' = 1) ∧
      (∀ (k : Nat) l, (build fuel (t.drop ofs) c ofs (256 * K) table)[k]? = some l → Entry t k l) := by
  induction fuel with
  | zero =>
    intro ofs cs c K table hf hp ha hK h1 h2 hlen he
    have : ofs = t.length := by have := hp.le; omega
    subst this
    exact ⟨K, hlen, hK, h1, h2, he⟩
  | succ fuel ih =>
    intro ofs cs c K table hf hp ha hK h1 h2 hlen he
    have hple := hp.le
    unfold build
    by_cases hz : (t.drop ofs).length = 0
    · rw [if_pos hz]
      rw [List.length_drop] at hz
      have : ofs = t.length := by omega
      subst this
      exact ⟨K, hlen, hK, h1, h2, he⟩
    · rw [if_neg hz]
      rw [List.length_drop] at hz
      have hlt : ofs < t.length := by omega
      have hb := nb_bounds hlt
      dsimp only
      rw [show (Enc.decodeUTF8 (t.drop ofs)).numBytes = nb t ofs from rfl, List.drop_drop] at *
      by_cases hc : ofs + nb t ofs > 256 * K
      · rw [if_pos hc, if_pos hc, Loc.mk'_sub _ _ _ _ (by omega)]
        rw [show 256 * K + 256 = 256 * (K + 1) by omega]
        refine ih (ofs + nb t ofs) _ _ (K + 1) _ (by omega) (.snoc hp hlt) (ha.advance _ _) (by omega) (by omega)
          (by left; omega) (by simp [hlen]) ?_
        intro k l hk
        rcases Nat.lt_or_ge k K with hkK | hkK
        · rw [List.getElem?_append_left (by omega)] at hk
          exact he k l hk
        · rw [List.getElem?_append_right (by omega)] at hk
          have hkK' : k = K := by
            rcases Nat.eq_or_lt_of_le hkK with h | h
            · exact h.symm
            · rw [List.getElem?_eq_none (by simp; omega)] at hk; exact absurd hk (by simp)
          subst hkK'
          rw [hlen, Nat.sub_self] at hk
          simp at hk
          exact ⟨ofs, cs, c, hp, ha, by omega, by omega, fun _ => by omega, hk.symm⟩
      · rw [if_neg hc, if_neg hc]
        exact ih (ofs + nb t ofs) _ _ K table (by omega) (.snoc hp hlt) (ha.advance _ _) hK (by omega)
          (by rcases h2 with h | h
              · left; omega
              · right; exact h) hlen he

theorem at_zero : At 0 [] ⟨1, 1, 0⟩ := ⟨rfl, rfl, rfl⟩

theorem fromView_table {t : List Byte} (ht : t.length < 2 ^ 32) :
    ∃ K', (fromView t).length = K' ∧ 1 ≤ K' ∧ t.length ≤ 256 * K' ∧
      (256 * (K' - 1) < t.length ∨ K' = 1) ∧
      (∀ (k : Nat) l, (fromView t)[k]? = some l → Entry t k l) := by
  have := build_table ht t.length 0 [] ⟨1, 1, 0⟩ 1 [Loc.mk' 1 0 1 0] (by omega) .nil at_zero (by omega)
    (by omega) (.inr rfl) rfl (by
      intro k l hk
      cases k with
      | zero =>
        simp at hk
        exact ⟨0, [], ⟨1, 1, 0⟩, .nil, at_zero, by omega, by omega, fun h => absurd rfl h, hk.symm⟩
      | succ k => exact absurd hk (by simp))
  exact this

/-- Scanning on from a character reaches any later character. -/
theorem scan_hit {t : List Byte} {target : Nat} {ds : List (Int × Nat)} (ht : Prefix t target ds)
    (fuel : Nat) : ∀ (pos : Nat) (cs : List (Int × Nat)) (c : Cur), target - pos < fuel →
    Prefix t pos cs → At pos cs c → pos ≤ target →
    scan t target fuel pos c = some ⟨line ds, bytesIntoLine ds, column ds % 2 ^ 28, 0⟩ := by
  induction fuel with
  | zero => intro pos cs c hf; omega
  | succ fuel ih =>
    intro pos cs c hf hp ha hle
    unfold scan
    rcases Prefix.cmp ht hp hle with ⟨e, e'⟩ | ⟨e1, e2⟩
    · subst e; subst e'
      obtain ⟨h1, h2, h3⟩ := ha
      rw [if_pos (Nat.le_refl _), if_pos ⟨Nat.le_refl _, by omega⟩]
      unfold Loc.mk'
      rw [h1, h2, Nat.sub_self]
      congr 2
      omega
    · rw [if_neg (by omega)]
      have hlt : pos < t.length := by have := ht.le; omega
      have := nb_bounds hlt
      exact ih _ _ _ (by unfold nb at *; omega) (.snoc hp hlt) (ha.advance _ _) e2

/-- Scanning on from a character to a byte inside a later one fails. -/
theorem scan_miss {t : List Byte} {target : Nat} (hl : target ≤ t.length)
    (hn : ∀ ds, ¬ Prefix t target ds) (fuel : Nat) :
    ∀ (pos : Nat) (cs : List (Int × Nat)) (c : Cur), Prefix t pos cs →
    scan t target fuel pos c = none := by
  induction fuel with
  | zero => intros; rfl
  | succ fuel ih =>
    intro pos cs c hp
    unfold scan
    by_cases hc : pos ≥ target
    · rw [if_pos hc, if_neg]
      rintro ⟨h1, -⟩
      have : pos = target := by omega
      subst this
      exact hn _ hp
    · rw [if_neg hc]
      have hlt : pos < t.length := by omega
      exact ih _ _ _ (.snoc hp hlt)

/-- An entry whose character starts at the chunk. -/
theorem get_eq_scan {t : List Byte} (ht : t.length < 2 ^ 32) {offset : Nat} (ho : offset ≤ t.length)
    {cs : List (Int × Nat)} (hp : Prefix t (256 * (offset / 256)) cs)
    (hend : offset = t.length → offset % 256 ≠ 0 ∨ offset = 0) :
    ∃ c, At (256 * (offset / 256)) cs c ∧
      getFileLocation t (fromView t) offset = scan t offset (offset + 1) (256 * (offset / 256)) c := by
  obtain ⟨K, hK, hK1, hKl, hK2, he⟩ := fromView_table ht
  have hin : offset / 256 < K := by
    rcases Nat.lt_or_ge offset t.length with h | h
    · omega
    · have := hend (by omega)
      rcases hK2 with h2 | h2 <;> omega
  obtain ⟨l, hl⟩ : ∃ l, (fromView t)[offset / 256]? = some l :=
    ⟨_, List.getElem?_eq_getElem (by omega)⟩
  obtain ⟨ofs, cs', c, hp', ha, h1, h2, h3, hle⟩ := he _ _ hl
  have heq : ofs = 256 * (offset / 256) ∧ cs' = cs := by
    rcases Prefix.cmp hp hp' h1 with h | ⟨e1, e2⟩
    · exact h
    · by_cases h0 : offset / 256 = 0
      · omega
      · have := h3 h0; omega
  obtain ⟨e1, e2⟩ := heq
  subst e2
  unfold getFileLocation
  rw [if_pos ho, hl]
  dsimp only
  have hmod : ofs % 2 ^ 4 = 0 := by omega
  have hl1 : l.numBytesIntoLine = 256 * (offset / 256) - c.lineStart := by rw [hle]; rfl
  have hl2 : l.numBytesIntoColumn = 0 := by rw [hle]; exact hmod
  have hl3 : l.lineNumber = c.line := by rw [hle]; rfl
  have hl4 : l.columnNumber = c.col % 2 ^ 28 := by rw [hle]; rfl
  obtain ⟨a1, a2, a3⟩ := ha
  rw [if_pos ⟨by omega, by omega⟩, hl1, hl2, hl3, hl4]
  refine ⟨⟨c.line, c.col % 2 ^ 28, offset / 256 * 256 - (256 * (offset / 256) - c.lineStart)⟩, ⟨a1, ?_, ?_⟩, ?_⟩
  · dsimp only
    rw [Nat.mod_mod, a2]
  · dsimp only; omega
  · rw [Nat.sub_zero, Nat.mul_comm (offset / 256) 256]

theorem prefix_ascii {t : List Byte} (h : ∀ b ∈ t, b.toNat < 0x80) (p : Nat) (hp : p ≤ t.length) :
    Prefix t p ((t.take p).map fun b => ((b.toNat : Int), 1)) := by
  induction p with
  | zero => exact .nil
  | succ p ih =>
    have hd : Enc.decodeUTF8 (t.drop p) = ⟨(t[p]).toNat, .valid, 1⟩ := by
      rw [List.drop_eq_getElem_cons (by omega)]
      unfold Enc.decodeUTF8
      dsimp only
      rw [if_pos (h _ (List.getElem_mem _))]
    have := Prefix.snoc (ih (by omega)) (by omega)
    rw [hd] at this
    rw [List.take_add_one, List.map_append, List.getElem?_eq_getElem (by omega)]
    exact this

end Verif.FLoc
