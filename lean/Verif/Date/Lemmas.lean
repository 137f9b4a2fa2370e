import Verif.Date.Model
import Verif.Date.Spec
/-!
# Lemmas about the calendar
-/
namespace Verif.Date
open Verif

/-- Days before year `y` of an era. -/
def A (y : Int) : Int := 365 * y + y / 4 - y / 100

def f (x : Int) : Int := x - x / 1460 + x / 36524 - x / 146096

theorem f_step (x : Int) : f x ≤ f (x + 1) := by unfold f; omega

theorem f_mono (x : Int) (k : Nat) : f x ≤ f (x + k) := by
  induction k with
  | zero => simp
  | succ k ih =>
    have := f_step (x + k)
    rw [show x + ((k + 1 : Nat) : Int) = x + k + 1 by omega]
    omega

theorem f_le {x y : Int} (h : x ≤ y) : f x ≤ f y := by
  have := f_mono x (y - x).toNat
  rwa [show x + ((y - x).toNat : Int) = y by omega] at this

theorem table : ∀ y : Nat, y < 400 →
    365 * (y : Int) ≤ f (A y) ∧ f (A (y + 1) + ((y : Int) + 1) / 400 - 1) < 365 * ((y : Int) + 1) := by
  decide +kernel

theorem yoe_of_interval {doe y : Int} (h0 : 0 ≤ y) (h1 : y < 400) (hl : A y ≤ doe)
    (hu : doe < A (y + 1) + (y + 1) / 400) (hd : doe < 146097) : yoeOfDoe doe = y := by
  have ht := table y.toNat (by omega)
  rw [show ((y.toNat : Nat) : Int) = y by omega] at ht
  have a := f_le hl
  have b := f_le (x := doe) (y := A (y + 1) + (y + 1) / 400 - 1) (by omega)
  have c1 : 365 * y ≤ f doe := Int.le_trans ht.1 a
  have c2 : f doe < 365 * (y + 1) := Int.lt_of_le_of_lt b ht.2
  clear ht a b hl hu
  show u32i (f doe) / 365 = y
  generalize f doe = z at *
  rw [u32i, Int.emod_eq_of_lt (by omega) (by omega)]
  omega

theorem exists_interval {doe : Int} (h0 : 0 ≤ doe) (hd : doe < 146097) :
    ∃ y, 0 ≤ y ∧ y < 400 ∧ A y ≤ doe ∧ doe < A (y + 1) + (y + 1) / 400 := by
  have : ∀ n : Nat, doe < A n + (n : Int) / 400 → n ≤ 400 →
      ∃ y, 0 ≤ y ∧ y < 400 ∧ A y ≤ doe ∧ doe < A (y + 1) + (y + 1) / 400 := by
    intro n
    induction n with
    | zero => intro h; simp [A] at h; omega
    | succ n ih =>
      intro h hn
      by_cases hc : A n ≤ doe
      · exact ⟨n, by omega, by omega, hc, by simpa using h⟩
      · exact ih (by omega) (by omega)
  exact this 400 (by simpa [A] using hd) (by omega)

/-- Days before 1 March of year `y`, from 1 March of year 0. -/
def G (y : Int) : Int := 365 * y + y / 4 - y / 100 + y / 400

theorem G_split (y : Int) : G y = y / 400 * 146097 + A (y % 400) := by unfold G A; omega

/-- Month counted from March. -/
def mpm (m : Int) : Int := if m > 2 then m - 3 else m + 9

/-- Day in a year that starts in March. -/
def doyP (m d : Int) : Int := (153 * mpm m + 2) / 5 + d - 1

/-- The year that starts in March. -/
def ym (y m : Int) : Int := y - (if m ≤ 2 then 1 else 0)

/-- Day number of a date. -/
def F (y m d : Int) : Int := G (ym y m) + doyP m d - 719468

theorem month_cases {m : Int} (h1 : 1 ≤ m) (h2 : m ≤ 12) :
    m = 1 ∨ m = 2 ∨ m = 3 ∨ m = 4 ∨ m = 5 ∨ m = 6 ∨ m = 7 ∨ m = 8 ∨ m = 9 ∨ m = 10 ∨ m = 11 ∨ m = 12 := by
  omega

theorem G_step (y : Int) : G y = G (y - 1) + 365 + (if Spec.leap y then 1 else 0) := by
  unfold G Spec.leap
  simp only [decide_eq_true_eq]
  split <;> omega

theorem doyP_bounds {y m d : Int} (h : Spec.Valid y m d) :
    0 ≤ doyP m d ∧ doyP m d < G (ym y m + 1) - G (ym y m) ∧ doyP m d < 366 ∧
      (5 * doyP m d + 2) / 153 = mpm m ∧ 0 ≤ mpm m ∧ mpm m < 12 := by
  obtain ⟨h1, h2, h3, h4⟩ := h
  have hs := G_step y
  have hs1 := G_step (y + 1)
  have e : y + 1 - 1 = y := by omega
  have e2 : y - 1 + 1 = y := by omega
  rw [e] at hs1
  rcases month_cases h1 h2 with h | h | h | h | h | h | h | h | h | h | h | h <;> subst h <;>
    simp [Spec.daysIn, doyP, mpm, ym, e2] at h4 ⊢ <;> (try split at hs) <;> (try split at hs1) <;>
    (try simp_all) <;> (try omega)

theorem F_next {y m d : Int} (h : Spec.Valid y m d) :
    F (Spec.next (y, m, d)).1 (Spec.next (y, m, d)).2.1 (Spec.next (y, m, d)).2.2 = F y m d + 1 := by
  obtain ⟨h1, h2, h3, h4⟩ := h
  have hs := G_step y
  by_cases hd : d < Spec.daysIn y m
  · simp only [Spec.next, if_pos hd, F, doyP]; omega
  · simp only [Spec.next, if_neg hd]
    have hd' : d = Spec.daysIn y m := by omega
    subst hd'
    rcases month_cases h1 h2 with h | h | h | h | h | h | h | h | h | h | h | h <;> subst h <;>
      simp [Spec.daysIn, F, doyP, mpm, ym] <;> (try split at hs) <;> (try simp_all) <;> (try omega)

theorem next_valid {y m d : Int} (h : Spec.Valid y m d) :
    Spec.Valid (Spec.next (y, m, d)).1 (Spec.next (y, m, d)).2.1 (Spec.next (y, m, d)).2.2 := by
  obtain ⟨h1, h2, h3, h4⟩ := h
  have hpos : ∀ y m, 1 ≤ Spec.daysIn y m := by
    intro y m; unfold Spec.daysIn; split
    · split <;> omega
    · split <;> omega
  unfold Spec.next
  dsimp only
  split
  · exact ⟨h1, h2, by dsimp only; omega, by dsimp only; omega⟩
  · split
    · exact ⟨by dsimp only; omega, by dsimp only; omega, by simp, hpos _ _⟩
    · exact ⟨by simp, by simp, by simp, hpos _ _⟩

theorem eraOfDays_eq (n : Int) : eraOfDays n = n / 146097 := by
  unfold eraOfDays
  split
  · rw [Int.tdiv_eq_ediv_of_nonneg (by omega)]
  · have : (n - 146096).tdiv 146097 = -((-(n - 146096)).tdiv 146097) := by rw [Int.neg_tdiv]; omega
    rw [this, Int.tdiv_eq_ediv_of_nonneg (by omega)]; omega

theorem eraOfYear_eq (n : Int) : eraOfYear n = n / 400 := by
  unfold eraOfYear
  split
  · rw [Int.tdiv_eq_ediv_of_nonneg (by omega)]
  · have : (n - 399).tdiv 400 = -((-(n - 399)).tdiv 400) := by rw [Int.neg_tdiv]; omega
    rw [this, Int.tdiv_eq_ediv_of_nonneg (by omega)]; omega

/-- The date of a day number. -/
def civil (n : Int) : Int × Int × Int :=
  let doe := (n + 719468) % 146097
  let yoe := yoeOfDoe doe
  let doy := doe - A yoe
  let mp := (5 * doy + 2) / 153
  let m := if mp < 10 then mp + 3 else mp - 9
  (yoe + (n + 719468) / 146097 * 400 + (if m ≤ 2 then 1 else 0), m, doy - (153 * mp + 2) / 5 + 1)

theorem civil_F {y m d : Int} (h : Spec.Valid y m d) : civil (F y m d) = (y, m, d) := by
  obtain ⟨b1, b2, b3, b4, b5, b6⟩ := doyP_bounds h
  have hG : F y m d + 719468 = ym y m / 400 * 146097 + (A (ym y m % 400) + doyP m d) := by
    have := G_split (ym y m)
    unfold F; omega
  generalize hy : ym y m = Y at *
  have hA : G (Y + 1) - G Y = A (Y % 400 + 1) + (Y % 400 + 1) / 400 - A (Y % 400) := by
    unfold G A; omega
  have hA0 : 0 ≤ A (Y % 400) := by unfold A; omega
  have hA1 : A (Y % 400 + 1) + (Y % 400 + 1) / 400 ≤ 146097 := by unfold A; omega
  have hdoe : (F y m d + 719468) % 146097 = A (Y % 400) + doyP m d := by omega
  have hera : (F y m d + 719468) / 146097 = Y / 400 := by omega
  have hyoe : yoeOfDoe (A (Y % 400) + doyP m d) = Y % 400 :=
    yoe_of_interval (by omega) (by omega) (by omega) (by omega) (by omega)
  unfold civil
  dsimp only
  rw [hdoe, hera, hyoe]
  rw [show A (Y % 400) + doyP m d - A (Y % 400) = doyP m d by omega, b4]
  obtain ⟨h1, h2, h3, h4⟩ := h
  have hm : (if mpm m < 10 then mpm m + 3 else mpm m - 9) = m := by
    unfold mpm
    split <;> split <;> omega
  rw [hm]
  refine Prod.ext ?_ (Prod.ext rfl ?_)
  · show Y % 400 + Y / 400 * 400 + (if m ≤ 2 then 1 else 0) = y
    rw [← hy]; unfold ym; split <;> omega
  · show doyP m d - (153 * mpm m + 2) / 5 + 1 = d
    unfold doyP; omega

theorem civil_valid (n : Int) :
    Spec.Valid (civil n).1 (civil n).2.1 (civil n).2.2 ∧ F (civil n).1 (civil n).2.1 (civil n).2.2 = n := by
  have hd0 : 0 ≤ (n + 719468) % 146097 := by omega
  have hd1 : (n + 719468) % 146097 < 146097 := by omega
  obtain ⟨y, y0, y1, yl, yu⟩ := exists_interval hd0 hd1
  have hyoe := yoe_of_interval y0 y1 yl yu hd1
  have hlen : A (y + 1) + (y + 1) / 400 - A y = 365 + (if Spec.leap (y + 1) then 1 else 0) := by
    unfold A Spec.leap; simp only [decide_eq_true_eq]; split <;> omega
  have hleap : Spec.leap (y + (n + 719468) / 146097 * 400 + 1) = Spec.leap (y + 1) := by
    unfold Spec.leap; congr 1
    rw [show (y + (n + 719468) / 146097 * 400 + 1) % 4 = (y + 1) % 4 by omega,
      show (y + (n + 719468) / 146097 * 400 + 1) % 100 = (y + 1) % 100 by omega,
      show (y + (n + 719468) / 146097 * 400 + 1) % 400 = (y + 1) % 400 by omega]
  have hG := G_split (y + (n + 719468) / 146097 * 400)
  rw [show (y + (n + 719468) / 146097 * 400) / 400 = (n + 719468) / 146097 by omega,
    show (y + (n + 719468) / 146097 * 400) % 400 = y by omega] at hG
  have hn : n + 719468 = (n + 719468) / 146097 * 146097 + (n + 719468) % 146097 := by omega
  unfold civil
  dsimp only
  rw [hyoe]
  generalize (n + 719468) % 146097 = doe at *
  generalize (n + 719468) / 146097 = era at *
  obtain ⟨doy, hdoy⟩ : ∃ doy, doe - A y = doy := ⟨_, rfl⟩
  rw [hdoy]
  have hb : 0 ≤ doy := by omega
  have hb2 : doy < 365 + (if Spec.leap (y + 1) then 1 else 0) := by omega
  obtain ⟨mp, hmp⟩ : ∃ mp, (5 * doy + 2) / 153 = mp := ⟨_, rfl⟩
  rw [hmp]
  have m0 : 0 ≤ mp := by omega
  have m1 : mp < 12 := by split at hb2 <;> omega
  have hmc : mp = 0 ∨ mp = 1 ∨ mp = 2 ∨ mp = 3 ∨ mp = 4 ∨ mp = 5 ∨ mp = 6 ∨ mp = 7 ∨ mp = 8 ∨ mp = 9 ∨
    mp = 10 ∨ mp = 11 := by omega
  constructor
  · rcases hmc with h | h | h | h | h | h | h | h | h | h | h | h <;> subst h <;>
      simp [Spec.Valid, Spec.daysIn, hleap] <;> (try split at hb2) <;> (try simp_all) <;> (try omega)
  · unfold F
    have e1 : ym (y + era * 400 + (if (if mp < 10 then mp + 3 else mp - 9) ≤ 2 then 1 else 0))
        (if mp < 10 then mp + 3 else mp - 9) = y + era * 400 := by unfold ym; omega
    have e2 : mpm (if mp < 10 then mp + 3 else mp - 9) = mp := by unfold mpm; split <;> split <;> omega
    rw [e1, doyP, e2]
    omega

end Verif.Date
