/-!
# The Gregorian calendar, by counting days
-/
namespace Verif.Date.Spec

/-- The leap year rule. -/
def leap (y : Int) : Bool := y % 4 = 0 ∧ (y % 100 ≠ 0 ∨ y % 400 = 0)

/-- Days of each month. -/
def daysIn (y m : Int) : Int :=
  if m = 2 then (if leap y then 29 else 28)
  else if m = 4 ∨ m = 6 ∨ m = 9 ∨ m = 11 then 30 else 31

/-- A date of the calendar. -/
def Valid (y m d : Int) : Prop := 1 ≤ m ∧ m ≤ 12 ∧ 1 ≤ d ∧ d ≤ daysIn y m

/-- The next day. -/
def next : Int × Int × Int → Int × Int × Int
  | (y, m, d) =>
    if d < daysIn y m then (y, m, d + 1)
    else if m < 12 then (y, m + 1, 1)
    else (y + 1, 1, 1)

/-- The date `n` days after 1 January 1970. -/
def after : Nat → Int × Int × Int
  | 0 => (1970, 1, 1)
  | n + 1 => next (after n)

end Verif.Date.Spec
