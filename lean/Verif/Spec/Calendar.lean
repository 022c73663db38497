/-!
# The Gregorian calendar and conforming `mktime`s
-/
namespace Licensecc.Spec

def Leap (y : Int) : Prop := y % 4 = 0 ∧ (y % 100 ≠ 0 ∨ y % 400 = 0)

instance (y : Int) : Decidable (Leap y) := by unfold Leap; infer_instance

/-- Thirty days hath September ... -/
def monthLength (y m : Int) : Int :=
  if m = 2 then (if Leap y then 29 else 28)
  else if m = 4 ∨ m = 6 ∨ m = 9 ∨ m = 11 then 30
  else 31

/-- A day of the calendar. -/
structure ValidDate (y m d : Int) : Prop where
  year : 0 ≤ y ∧ y ≤ 9999
  month : 1 ≤ m ∧ m ≤ 12
  day : 1 ≤ d ∧ d ≤ monthLength y m

/-- Chronological order. -/
def Earlier (y m d y' m' d' : Int) : Prop := y < y' ∨ (y = y' ∧ (m < m' ∨ (m = m' ∧ d < d')))

/-- Days in the years before `y`, counted from year 0. -/
def daysBeforeYear (y : Int) : Int := 365 * y + (y + 3) / 4 - (y + 99) / 100 + (y + 399) / 400

/-- Days in the months of the year before `m`. -/
def daysBeforeMonth (y m : Int) : Int :=
  (if m ≤ 1 then 0 else if m = 2 then 31 else if m = 3 then 59 else if m = 4 then 90 else if m = 5 then 120 else if m = 6 then 151
   else if m = 7 then 181 else if m = 8 then 212 else if m = 9 then 243 else if m = 10 then 273 else if m = 11 then 304 else 334)
  + (if 3 ≤ m ∧ Leap y then 1 else 0)

/-- Days since 1 January 1970.  `dayNumber_epoch` and `dayNumber_next` (Props/Dates) show that this is the count of days: it is
    0 for the epoch and grows by one from each day to the next. -/
def dayNumber (y m d : Int) : Int := daysBeforeYear y + daysBeforeMonth y m + (d - 1) - daysBeforeYear 1970

/-- `mk` computes the time of local midnight in a time zone that uses the offsets (seconds east of Greenwich) in `zone`: for
    every day of the calendar, midnight counted from the epoch less one of the offsets.  (If midnight is skipped or repeated
    by a clock change the implementation chooses one of them.) -/
def MidnightIn (zone : Int → Prop) (mk : Int → Int → Int → Int) : Prop :=
  ∀ y m d, ValidDate y m d → ∃ o, zone o ∧ mk y m d = 86400 * dayNumber y m d - o

/-- `mktime` for Greenwich time as glibc computes it: months outside 1..12 carry into the year, days outside the month just
    count on. -/
def mktimeUtc (y m d : Int) : Int :=
  86400 * (dayNumber (y + (m - 1) / 12) ((m - 1) % 12 + 1) 1 + (d - 1))

end Licensecc.Spec
