import Verif.Date.LemmasB
/-!
# C31: calendar conversion
-/
namespace Verif.Date
open Verif

/-- Whole seconds and microseconds of a day. -/
def usOfDay (t : DateTime) : Int := ((t.hour * 60 + t.minute) * 60 + t.second) * 1000000 + t.microseconds

/-- A valid time of day. -/
def ValidTime (t : DateTime) : Prop :=
  0 ≤ t.hour ∧ t.hour < 24 ∧ 0 ≤ t.minute ∧ t.minute < 60 ∧ 0 ≤ t.second ∧ t.second < 60 ∧
    0 ≤ t.microseconds ∧ t.microseconds < 1000000

/-- The day of the week of a day number, 0 = Sunday: 1 January 1970 was a Thursday. -/
def trueWeekday (n : Int) : Int := (n + 4) % 7

/-- C31.  Every instant from 1970 on: the conversion succeeds; the date is the one found by counting days
forward from 1 January 1970; the time of day is valid and right. -/
theorem C31_from_partial (us : Int) (h0 : 0 ≤ us) (h1 : us < 2 ^ 63) :
    ∃ t, fromEpochMicroseconds us = some t ∧
      (t.year, t.month, t.day) = Spec.after (us / usPerDay).toNat ∧
      Spec.Valid t.year t.month t.day ∧ ValidTime t ∧ usOfDay t = us % usPerDay := by
  have hq : floorDiv us usPerDay = some (us / usPerDay) := by
    unfold floorDiv
    rw [if_pos (by decide), if_neg (by omega), Int.tdiv_eq_ediv_of_nonneg h0]
  have hsub : us - us / usPerDay * usPerDay = us % usPerDay := by unfold usPerDay; omega
  have hb : 0 ≤ us / usPerDay ∧ us / usPerDay < 106751992 := by unfold usPerDay; omega
  have hr : 0 ≤ us % usPerDay ∧ us % usPerDay < 86400000000 := by unfold usPerDay; omega
  obtain ⟨hv, -⟩ := civil_valid (us / usPerDay)
  unfold fromEpochMicroseconds
  rw [hq]
  dsimp only
  rw [s32_of (by omega) (by omega)]
  dsimp only
  rw [hsub, demoteU64_of (by omega) (by omega), setDate_eq (by omega) (by omega)]
  dsimp only
  rw [after_eq, show (((us / usPerDay).toNat : Nat) : Int) = us / usPerDay by omega]
  generalize us / usPerDay = n at *
  generalize us % usPerDay = r at *
  rw [demoteU32_of (by omega) (by omega)]
  dsimp only
  rw [demoteU8_of (x := r / 1000000 / 60 / 60) (by omega) (by omega),
    demoteU8_of (x := r / 1000000 / 60 - r / 1000000 / 60 / 60 * 60) (by omega) (by omega),
    demoteU8_of (x := r / 1000000 - r / 1000000 / 60 * 60) (by omega) (by omega),
    demoteU32_of (by omega) (by omega)]
  refine ⟨_, rfl, rfl, hv, ?_, ?_⟩
  · refine ⟨?_, ?_, ?_, ?_, ?_, ?_, ?_, ?_⟩ <;> dsimp only <;> omega
  · unfold usOfDay; dsimp only; omega

/-- 29 February 2000, 23:59:59.999999. -/
example : Spec.after 11016 = (2000, 2, 29) := by
  rw [after_eq]
  exact civil_F (y := 2000) (m := 2) (d := 29) (by unfold Spec.Valid; decide)

/-- C31.  Converting an instant from 1970 on and back gives the instant. -/
theorem C31_roundtrip_partial (us : Int) (h0 : 0 ≤ us) (h1 : us < 2 ^ 63) :
    ∃ t, fromEpochMicroseconds us = some t ∧ toEpochMicroseconds t = some us := by
  obtain ⟨t, e, hd, hv, -, hu⟩ := C31_from_partial us h0 h1
  refine ⟨t, e, ?_⟩
  have hb : 0 ≤ us / usPerDay ∧ us / usPerDay < 106751992 := by unfold usPerDay; omega
  rw [after_eq, show (((us / usPerDay).toNat : Nat) : Int) = us / usPerDay by omega] at hd
  have hF := (civil_valid (us / usPerDay)).2
  have hy := civil_year_bound (n := us / usPerDay) (by omega) (by omega)
  rw [← hd] at hF hy
  dsimp only at hF hy
  have hs : us / usPerDay * usPerDay + usOfDay t = us := by rw [hu]; unfold usPerDay; omega
  unfold toEpochMicroseconds
  rw [getEpochDays_eq hv hy.1 hy.2, hF]
  dsimp only
  rw [show us / usPerDay * usPerDay + ((t.hour * 60 + t.minute) * 60 + t.second) * 1000000 + t.microseconds =
    us by unfold usOfDay at hs; omega]
  rw [s64, if_pos ⟨by omega, h1⟩]

example : (0 : Int) ≤ 951868799999999 ∧ (951868799999999 : Int) < 2 ^ 63 := by decide

/-- C31.  Counting back too: for every 32-bit day number (but the last 719468 ones, where the code's
addition overflows) the date is valid, day 0 is 1 January 1970 and the date of the day after is the
calendar's next date. -/
theorem C31_days (n : Int) (h0 : -2 ^ 31 ≤ n) (h1 : n + 1 < 2 ^ 31 - 719468) :
    ∃ d d', setDateFromEpochDays n = some d ∧ setDateFromEpochDays (n + 1) = some d' ∧
      Spec.Valid d.year d.month d.day ∧
      (d'.year, d'.month, d'.day) = Spec.next (d.year, d.month, d.day) ∧
      (n = 0 → (d.year, d.month, d.day) = (1970, 1, 1)) := by
  refine ⟨_, _, setDate_eq h0 (by omega), setDate_eq (by omega) h1, (civil_valid n).1, ?_, ?_⟩
  · exact civil_next n
  · intro h
    subst h
    exact civil_zero

/-- The last day of 1969. -/
example : ∃ d, setDateFromEpochDays (-1) = some d ∧ (d.year, d.month, d.day) = (1969, 12, 31) := by
  refine ⟨_, setDate_eq (by decide) (by decide), ?_⟩
  exact civil_F (y := 1969) (m := 12) (d := 31) (by unfold Spec.Valid; decide)

/-- C31.  A day number overflows exactly in the last 719468 values of its type. -/
theorem C31_days_overflow (n : Int) (h0 : -2 ^ 31 ≤ n) :
    (setDateFromEpochDays n).isSome ↔ n < 2 ^ 31 - 719468 := by
  constructor
  · intro h
    by_cases hc : n < 2 ^ 31 - 719468
    · exact hc
    · rw [setDate_fault (by omega)] at h; exact absurd h (by simp)
  · intro h
    rw [setDate_eq h0 h]; rfl

example : (-2 ^ 31 : Int) ≤ 20000 := by decide

/-- C31.  Every date of the calendar within five million years of year 0 has a day number, and that day's
date is the date. -/
theorem C31_date_roundtrip (y m d : Int) (h : Spec.Valid y m d) (h0 : -5000000 ≤ y) (h1 : y ≤ 5000000) :
    ∃ n r, getEpochDaysFromDate y m d = some n ∧ setDateFromEpochDays n = some r ∧
      (r.year, r.month, r.day) = (y, m, d) := by
  have hb : -2 ^ 31 ≤ F y m d ∧ F y m d < 2 ^ 31 - 719468 := by
    obtain ⟨b1, b2, b3, b4, b5, b6⟩ := doyP_bounds h
    have hy : y - 1 ≤ ym y m ∧ ym y m ≤ y := by unfold ym; split <;> omega
    unfold F
    generalize ym y m = Y at *
    unfold G
    omega
  refine ⟨F y m d, _, getEpochDays_eq h h0 h1, setDate_eq hb.1 hb.2, ?_⟩
  exact civil_F h

example : Spec.Valid (-44) 2 29 ∧ ¬ Spec.Valid 1900 2 29 := by unfold Spec.Valid; decide

/-- C31.  A valid date and time from 1970 on (year below 290000) comes back from its count of
microseconds, except for the weekday. -/
theorem C31_to_partial (t : DateTime) (hd : Spec.Valid t.year t.month t.day) (ht : ValidTime t)
    (h0 : 1970 ≤ t.year) (h1 : t.year < 290000) :
    ∃ us t', toEpochMicroseconds t = some us ∧ fromEpochMicroseconds us = some t' ∧
      t' = { t with weekday := t'.weekday } := by
  have hF : 0 ≤ F t.year t.month t.day ∧ F t.year t.month t.day < 106000000 := by
    obtain ⟨b1, b2, b3, b4, b5, b6⟩ := doyP_bounds hd
    have hy : t.year - 1 ≤ ym t.year t.month ∧ ym t.year t.month ≤ t.year ∧
        (ym t.year t.month = t.year - 1 → mpm t.month ≥ 10) := by
      unfold ym mpm; obtain ⟨h1, h2, -⟩ := hd; split <;> split <;> omega
    have hdd := hd.2.2.1
    have hdoy : doyP t.month t.day = (153 * mpm t.month + 2) / 5 + t.day - 1 := rfl
    unfold F
    generalize ym t.year t.month = Y at *
    unfold G
    omega
  obtain ⟨a1, a2, a3, a4, a5, a6, a7, a8⟩ := ht
  have hu : 0 ≤ usOfDay t ∧ usOfDay t < 86400000000 := by unfold usOfDay; omega
  have he : toEpochMicroseconds t = some (F t.year t.month t.day * usPerDay + usOfDay t) := by
    unfold toEpochMicroseconds
    rw [getEpochDays_eq hd (by omega) (by omega)]
    dsimp only
    rw [show F t.year t.month t.day * usPerDay + ((t.hour * 60 + t.minute) * 60 + t.second) * 1000000 +
      t.microseconds = F t.year t.month t.day * usPerDay + usOfDay t by unfold usOfDay; omega]
    rw [s64, if_pos]
    unfold usPerDay; omega
  obtain ⟨t', e', hdate, hv', ⟨c1, c2, c3, c4, c5, c6, c7, c8⟩, hus⟩ := C31_from_partial
    (F t.year t.month t.day * usPerDay + usOfDay t) (by unfold usPerDay; omega) (by unfold usPerDay; omega)
  refine ⟨_, t', he, e', ?_⟩
  have hq : (F t.year t.month t.day * usPerDay + usOfDay t) / usPerDay = F t.year t.month t.day := by
    unfold usPerDay; omega
  have hm : (F t.year t.month t.day * usPerDay + usOfDay t) % usPerDay = usOfDay t := by
    unfold usPerDay; omega
  rw [hq, after_eq, show (((F t.year t.month t.day).toNat : Nat) : Int) = F t.year t.month t.day by omega,
    civil_F hd] at hdate
  rw [hm] at hus
  obtain ⟨y', m', d', w', h', mi', s', us'⟩ := t'
  obtain ⟨y, m, d, w, hh, mi, s, us⟩ := t
  simp only [Prod.mk.injEq] at hdate
  simp only [usOfDay] at hus
  dsimp only at *
  simp only [DateTime.mk.injEq, true_and]
  refine ⟨hdate.1, hdate.2.1, hdate.2.2, ?_, ?_, ?_, ?_⟩ <;> omega

example : Spec.Valid 2024 2 29 ∧ ValidTime ⟨2024, 2, 29, 0, 23, 59, 59, 999999⟩ := by
  unfold Spec.Valid ValidTime; decide

/-- C31 is false before 1970: no instant before the epoch can be converted, the rounding goes the wrong
way and an assertion fails. -/
theorem C31_before_epoch (us : Int) (h : us < 0) : fromEpochMicroseconds us = none := by
  obtain ⟨q, hq, hlt⟩ := floorDiv_neg h
  unfold fromEpochMicroseconds
  rw [hq]
  dsimp only
  cases hs : s32 q with
  | none => rfl
  | some d =>
    have hd : q = d := by
      unfold s32 at hs; split at hs
      · exact Option.some.inj hs
      · exact absurd hs (by simp)
    subst hd
    dsimp only
    have : demoteU64 (us - q * usPerDay) = none := by rw [demoteU64, if_neg (by omega)]
    rw [this]

/-- C31 is false for the weekday: on every day the code gives the weekday of the following day. -/
theorem C31_weekday_wrong (n : Int) (h0 : -2 ^ 31 ≤ n) (h1 : n < 2 ^ 31 - 719468) :
    ∃ d, setDateFromEpochDays n = some d ∧ d.weekday = trueWeekday (n + 1) ∧
      d.weekday ≠ trueWeekday n := by
  refine ⟨_, setDate_eq h0 h1, ?_, ?_⟩ <;> unfold trueWeekday <;> dsimp only <;> omega

/-- The epoch, a Thursday (4), is called a Friday (5). -/
example : ∃ d, setDateFromEpochDays 0 = some d ∧ d.weekday = 5 ∧ trueWeekday 0 = 4 := by
  obtain ⟨d, h1, h2, -⟩ := C31_weekday_wrong 0 (by decide) (by decide)
  exact ⟨d, h1, h2, rfl⟩

end Verif.Date
