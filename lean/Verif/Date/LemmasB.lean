import Verif.Date.Lemmas
/-!
# The model's functions in terms of day numbers
-/
namespace Verif.Date
open Verif

theorem u32i_of {x : Int} (h0 : 0 ≤ x) (h1 : x < 2 ^ 32) : u32i x = x := Int.emod_eq_of_lt h0 h1

theorem s32_of {x : Int} (h0 : -2 ^ 31 ≤ x) (h1 : x < 2 ^ 31) : s32 x = some x := by
  rw [s32, if_pos ⟨h0, h1⟩]

theorem demoteU8_of {x : Int} (h0 : 0 ≤ x) (h1 : x < 2 ^ 8) : demoteU8 x = some x := by
  rw [demoteU8, if_pos ⟨h0, h1⟩]

theorem demoteU32_of {x : Int} (h0 : 0 ≤ x) (h1 : x < 2 ^ 32) : demoteU32 x = some x := by
  rw [demoteU32, if_pos ⟨h0, h1⟩]

theorem demoteU64_of {x : Int} (h0 : 0 ≤ x) (h1 : x < 2 ^ 64) : demoteU64 x = some x := by
  rw [demoteU64, if_pos ⟨h0, h1⟩]

theorem weekdayOf_eq (n : Int) : weekdayOf n = (n + 4) % 7 := by
  unfold weekdayOf
  split
  · rw [Int.tmod_eq_emod_of_nonneg (by omega)]
  · have : (n + 5).tmod 7 = -((-(n + 5)).tmod 7) := by rw [Int.neg_tmod]; omega
    rw [this, Int.tmod_eq_emod_of_nonneg (by omega)]; omega

theorem setDate_eq {n : Int} (h0 : -2 ^ 31 ≤ n) (h1 : n < 2 ^ 31 - 719468) :
    setDateFromEpochDays n =
      some ⟨(civil n).1, (civil n).2.1, (civil n).2.2, (n + 5) % 7⟩ := by
  have hd0 : 0 ≤ (n + 719468) % 146097 := by omega
  have hd1 : (n + 719468) % 146097 < 146097 := by omega
  obtain ⟨y, y0, y1, yl, yu⟩ := exists_interval hd0 hd1
  have hyoe := yoe_of_interval y0 y1 yl yu hd1
  have hlen : A (y + 1) + (y + 1) / 400 - A y ≤ 366 := by unfold A; omega
  have hv := (civil_valid n).1
  have hA0 : 0 ≤ A y ∧ A y < 150000 := by unfold A; omega
  have hwd : weekdayOf (n + 719468) = (n + 5) % 7 := by rw [weekdayOf_eq]; omega
  unfold setDateFromEpochDays
  rw [s32_of (by omega) (by omega)]
  have hs2 : ∃ z, (if n + 719468 ≥ 0 then some 0 else s32 (n + 719468 - 146096)) = some z := by
    split
    · exact ⟨_, rfl⟩
    · exact ⟨_, s32_of (by omega) (by omega)⟩
  obtain ⟨z, hz⟩ := hs2
  rw [hz]
  dsimp only
  have e1 : u32i (n + 719468 - eraOfDays (n + 719468) * 146097) = (n + 719468) % 146097 := by
    rw [eraOfDays_eq, show n + 719468 - (n + 719468) / 146097 * 146097 = (n + 719468) % 146097 by omega,
      u32i_of hd0 (by omega)]
  rw [e1, hyoe, hwd]
  have e2 : doyOf ((n + 719468) % 146097) y = (n + 719468) % 146097 - A y := by
    unfold doyOf
    rw [show (365 * y + y / 4 - y / 100) = A y from rfl]
    exact u32i_of (by omega) (by omega)
  rw [e2]
  have hc : civil n = (y + (n + 719468) / 146097 * 400 +
      (if (if (5 * ((n + 719468) % 146097 - A y) + 2) / 153 < 10 then
        (5 * ((n + 719468) % 146097 - A y) + 2) / 153 + 3 else
        (5 * ((n + 719468) % 146097 - A y) + 2) / 153 - 9) ≤ 2 then 1 else 0),
      (if (5 * ((n + 719468) % 146097 - A y) + 2) / 153 < 10 then
        (5 * ((n + 719468) % 146097 - A y) + 2) / 153 + 3 else
        (5 * ((n + 719468) % 146097 - A y) + 2) / 153 - 9),
      (n + 719468) % 146097 - A y - (153 * ((5 * ((n + 719468) % 146097 - A y) + 2) / 153) + 2) / 5 + 1) := by
    unfold civil; dsimp only; rw [hyoe]
  obtain ⟨doy, hdoy⟩ : ∃ doy, (n + 719468) % 146097 - A y = doy := ⟨_, rfl⟩
  rw [hdoy] at hc ⊢
  have hb : 0 ≤ doy := by omega
  have hb2 : doy < 366 := by omega
  have e3 : mpOf doy = (5 * doy + 2) / 153 := by unfold mpOf; rw [u32i_of (by omega) (by omega)]
  rw [e3]
  obtain ⟨mp, hmp⟩ : ∃ mp, (5 * doy + 2) / 153 = mp := ⟨_, rfl⟩
  rw [hmp] at hc ⊢
  have m0 : 0 ≤ mp := by omega
  have m1 : mp < 12 := by omega
  have e4 : mOf mp = if mp < 10 then mp + 3 else mp - 9 := by
    unfold mOf; split
    · exact u32i_of (by omega) (by omega)
    · rw [show mp + -9 = mp - 9 by omega]; exact u32i_of (by omega) (by omega)
  have hd : 1 ≤ doy - (153 * mp + 2) / 5 + 1 ∧ doy - (153 * mp + 2) / 5 + 1 ≤ 31 := by omega
  have e5 : dOf doy mp = doy - (153 * mp + 2) / 5 + 1 := u32i_of (by omega) (by omega)
  rw [e4, e5, hc, eraOfDays_eq]
  have hm : 0 ≤ (if mp < 10 then mp + 3 else mp - 9) ∧ (if mp < 10 then mp + 3 else mp - 9) < 2 ^ 8 := by
    split <;> omega
  rw [demoteU8_of hm.1 hm.2, demoteU8_of (x := doy - (153 * mp + 2) / 5 + 1) (by omega) (by omega),
    demoteU8_of (x := (n + 5) % 7) (by omega) (by omega)]

theorem setDate_fault {n : Int} (h : 2 ^ 31 - 719468 ≤ n) : setDateFromEpochDays n = none := by
  have : s32 (n + 719468) = none := by rw [s32, if_neg (by omega)]
  unfold setDateFromEpochDays
  rw [this]

theorem getEpochDays_eq {y m d : Int} (h : Spec.Valid y m d) (h0 : -5000000 ≤ y) (h1 : y ≤ 5000000) :
    getEpochDaysFromDate y m d = some (F y m d) := by
  obtain ⟨b1, b2, b3, b4, b5, b6⟩ := doyP_bounds h
  unfold getEpochDaysFromDate
  rw [show y - (if m ≤ 2 then 1 else 0) = ym y m from rfl]
  have hy : y - 1 ≤ ym y m ∧ ym y m ≤ y := by unfold ym; split <;> omega
  have hG := G_split (ym y m)
  have hF : F y m d = G (ym y m) + doyP m d - 719468 := rfl
  generalize ym y m = Y at *
  have hA : 0 ≤ A (Y % 400) ∧ A (Y % 400) < 150000 := by unfold A; omega
  rw [s32_of (by omega) (by omega)]
  dsimp only
  have hs2 : ∃ z, (if Y ≥ 0 then some Y else s32 (Y - 399)) = some z := by
    split
    · exact ⟨_, rfl⟩
    · exact ⟨_, s32_of (by omega) (by omega)⟩
  obtain ⟨z, hz⟩ := hs2
  rw [hz]
  dsimp only
  rw [eraOfYear_eq, s32_of (by omega) (by omega), show Y - Y / 400 * 400 = Y % 400 by omega,
    u32i_of (x := Y % 400) (by omega) (by omega)]
  have hdoy : doyOfDate m d = doyP m d := by
    unfold doyOfDate
    rw [show (if m > 2 then m - 3 else m + 9) = mpm m from rfl,
      Int.tdiv_eq_ediv_of_nonneg (by omega)]
    show u32i (doyP m d) = _
    exact u32i_of b1 (by omega)
  rw [hdoy]
  have hdoe : doeOf (Y % 400) (doyP m d) = A (Y % 400) + doyP m d := by
    unfold doeOf
    rw [show Y % 400 * 365 + Y % 400 / 4 - Y % 400 / 100 + doyP m d = A (Y % 400) + doyP m d by
      unfold A; omega]
    exact u32i_of (by omega) (by omega)
  rw [hdoe]
  have hx : Y / 400 * 146097 + (A (Y % 400) + doyP m d) - 719468 = F y m d := by omega
  dsimp only
  rw [hx]
  have hr : -2 ^ 31 ≤ F y m d ∧ F y m d < 2 ^ 31 := by
    rw [hF, hG]; omega
  congr 1
  unfold toS32 u32i
  generalize F y m d = x at *
  split <;> omega

theorem floorDiv_neg {us : Int} (h : us < 0) :
    ∃ q, floorDiv us usPerDay = some q ∧ us < q * usPerDay := by
  unfold floorDiv usPerDay
  rw [if_pos (by omega), if_pos h]
  refine ⟨_, rfl, ?_⟩
  by_cases hc : us + (86400000000 - 1) ≥ 0
  · rw [Int.tdiv_eq_ediv_of_nonneg hc]; omega
  · have : (us + (86400000000 - 1)).tdiv 86400000000 =
        -((-(us + (86400000000 - 1))).tdiv 86400000000) := by rw [Int.neg_tdiv]; omega
    rw [this, Int.tdiv_eq_ediv_of_nonneg (by omega)]; omega

theorem civil_next (n : Int) : civil (n + 1) = Spec.next (civil n) := by
  obtain ⟨hv, hF⟩ := civil_valid n
  have := civil_F (next_valid hv)
  rw [F_next hv, hF] at this
  exact this

theorem civil_zero : civil 0 = (1970, 1, 1) := by
  have h := civil_F (y := 1970) (m := 1) (d := 1) (by unfold Spec.Valid; decide)
  have e : F 1970 1 1 = 0 := by decide
  rw [e] at h
  exact h

theorem after_eq (n : Nat) : Spec.after n = civil n := by
  induction n with
  | zero => exact civil_zero.symm
  | succ n ih =>
    rw [Spec.after, ih, Int.natCast_add]
    exact (civil_next n).symm

/-- Years of days. -/
theorem civil_year_bound {n : Int} (h0 : -1100000000 ≤ n) (h1 : n ≤ 1100000000) :
    -5000000 ≤ (civil n).1 ∧ (civil n).1 ≤ 5000000 := by
  obtain ⟨hv, hF⟩ := civil_valid n
  obtain ⟨b1, b2, b3, b4, b5, b6⟩ := doyP_bounds hv
  have hy : (civil n).1 - 1 ≤ ym (civil n).1 (civil n).2.1 ∧
      ym (civil n).1 (civil n).2.1 ≤ (civil n).1 := by unfold ym; split <;> omega
  unfold F at hF
  generalize ym (civil n).1 (civil n).2.1 = Y at *
  unfold G at hF
  omega

end Verif.Date
