import Verif.Spec.Calendar
/-!
# Counting on from dates that are not in the calendar
-/
namespace Licensecc.Spec

/-- A day of the calendar of any year. -/
structure CalendarDay (y m d : Int) : Prop where
  month : 1 ≤ m ∧ m ≤ 12
  day : 1 ≤ d ∧ d ≤ monthLength y m

/-- The day that is meant by year, month and day if months count on into other years and days into other months: the 31st of February is the 2nd or 3rd of March, month 13
    is January of the next year, day 0 is the last day of the month before. -/
inductive Carry : Int → Int → Int → Int → Int → Int → Prop
  | day {y m d} : CalendarDay y m d → Carry y m d y m d
  | nextYear {y m d y' m' d'} : 12 < m → Carry (y + 1) (m - 12) d y' m' d' → Carry y m d y' m' d'
  | lastYear {y m d y' m' d'} : m < 1 → Carry (y - 1) (m + 12) d y' m' d' → Carry y m d y' m' d'
  | nextMonth {y m d y' m' d'} : 1 ≤ m → m ≤ 12 → monthLength y m < d → Carry y (m + 1) (d - monthLength y m) y' m' d' → Carry y m d y' m' d'
  | lastMonth {y m d y' m' d'} : 1 < m → m ≤ 12 → d < 1 → Carry y (m - 1) (d + monthLength y (m - 1)) y' m' d' → Carry y m d y' m' d'
  | lastDecember {y d y' m' d'} : d < 1 → Carry (y - 1) 12 (d + 31) y' m' d' → Carry y 1 d y' m' d'

/-- `mktime` takes a date for the day that it counts on to (C11 7.27.2.3: the members of the structure are not restricted to their ranges). -/
def Normalises (mk : Int → Int → Int → Int) : Prop := ∀ {y m d y' m' d'}, Carry y m d y' m' d' → mk y m d = mk y' m' d'

end Licensecc.Spec
