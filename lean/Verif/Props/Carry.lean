import Verif.Spec.Carry
import Verif.Props.Dates
/-!
# C81: dates that are not in the calendar
-/
namespace Licensecc
open Spec

namespace Carried

theorem length_28 (y m : Int) : 28 ≤ monthLength y m ∧ monthLength y m ≤ 31 := by unfold monthLength; grind

theorem month_first (n : Nat) : ∀ y m d : Int, 1 ≤ m → m ≤ 12 → d.natAbs ≤ n → ∃ y' m' d', Carry y m d y' m' d' := by
  induction n using Nat.strongRecOn with
  | _ n ih =>
    intro y m d h1 h2 hd
    have hl := length_28 y m
    by_cases hup : monthLength y m < d
    · by_cases h12 : m = 12
      · subst h12
        obtain ⟨a, b, c, h⟩ := ih (d - monthLength y 12).natAbs (by omega) (y + 1) (1) (d - monthLength y 12) (by omega) (by omega) (by omega)
        exact ⟨a, b, c, .nextMonth h1 h2 hup (.nextYear (by omega) (by simpa using h))⟩
      · obtain ⟨a, b, c, h⟩ := ih (d - monthLength y m).natAbs (by omega) (y) (m + 1) (d - monthLength y m) (by omega) (by omega) (by omega)
        exact ⟨a, b, c, .nextMonth h1 h2 hup h⟩
    · by_cases hdn : d < 1
      · by_cases hm1 : m = 1
        · subst hm1
          by_cases hpos : 1 ≤ d + 31
          · have h31 : monthLength (y - 1) 12 = 31 := by unfold monthLength; simp
            exact ⟨_, _, _, .lastDecember hdn (.day ⟨by omega, by omega, by omega⟩)⟩
          · obtain ⟨a, b, c, h⟩ := ih (d + 31).natAbs (by omega) (y - 1) (12) (d + 31) (by omega) (by omega) (by omega)
            exact ⟨a, b, c, .lastDecember hdn h⟩
        · have hl' := length_28 y (m - 1)
          by_cases hpos : 1 ≤ d + monthLength y (m - 1)
          · exact ⟨_, _, _, .lastMonth (by omega) h2 hdn (.day ⟨by omega, hpos, by omega⟩)⟩
          · obtain ⟨a, b, c, h⟩ := ih (d + monthLength y (m - 1)).natAbs (by omega) (y) (m - 1) (d + monthLength y (m - 1)) (by omega) (by omega) (by omega)
            exact ⟨a, b, c, .lastMonth (by omega) h2 hdn h⟩
      · exact ⟨_, _, _, .day ⟨⟨h1, h2⟩, by omega, by omega⟩⟩

theorem exists_carry (n : Nat) : ∀ y m d : Int, m.natAbs ≤ n → ∃ y' m' d', Carry y m d y' m' d' := by
  induction n using Nat.strongRecOn with
  | _ n ih =>
    intro y m d hm
    by_cases h1 : 12 < m
    · obtain ⟨a, b, c, h⟩ := ih (m - 12).natAbs (by omega) (y + 1) (m - 12) (d) (by omega)
      exact ⟨a, b, c, .nextYear h1 h⟩
    · by_cases h2 : m < 1
      · by_cases h3 : 1 ≤ m + 12
        · obtain ⟨a, b, c, h⟩ := month_first d.natAbs (y - 1) (m + 12) d h3 (by omega) (by omega)
          exact ⟨a, b, c, .lastYear h2 h⟩
        · obtain ⟨a, b, c, h⟩ := ih (m + 12).natAbs (by omega) (y - 1) (m + 12) (d) (by omega)
          exact ⟨a, b, c, .lastYear h2 h⟩
      · exact month_first d.natAbs y m d (by omega) (by omega) (by omega)

/-- The number of the day. -/
def number (y m d : Int) : Int := dayNumber (y + (m - 1) / 12) ((m - 1) % 12 + 1) 1 + (d - 1)

theorem number_day {y m : Int} (d : Int) (h1 : 1 ≤ m) (h2 : m ≤ 12) : number y m d = dayNumber y m d := by
  unfold number
  rw [show (m - 1) / 12 = 0 by omega, show (m - 1) % 12 + 1 = m by omega, Int.add_zero]
  unfold dayNumber; omega

theorem number_year (y m d : Int) : number (y + 1) (m - 12) d = number y m d := by
  unfold number
  rw [show y + 1 + (m - 12 - 1) / 12 = y + (m - 1) / 12 by omega, show (m - 12 - 1) % 12 = (m - 1) % 12 by omega]

theorem number_month {y m : Int} (d : Int) (h1 : 1 ≤ m) (h2 : m ≤ 12) : number y (m + 1) (d - monthLength y m) = number y m d := by
  have hn := dayNumber_next y m 1 ⟨h1, h2⟩
  by_cases h12 : m = 12
  · subst h12
    rw [← number_year, number_day _ (by omega) (by omega), number_day _ (by omega) (by omega)]
    have := hn.2.2
    simp only [show (12 : Int) + 1 - 12 = 1 by omega]
    unfold dayNumber at this ⊢; omega
  · rw [number_day _ (by omega) (by omega), number_day _ h1 h2]
    have := hn.2.1 (by omega)
    unfold dayNumber at this ⊢; omega

theorem carry_number {y m d y' m' d' : Int} (h : Carry y m d y' m' d') : CalendarDay y' m' d' ∧ dayNumber y' m' d' = number y m d := by
  induction h with
  | @day y m d h => exact ⟨h, (number_day d h.month.1 h.month.2).symm⟩
  | @nextYear y m d y' m' d' h1 h2 ih => exact ⟨ih.1, by rw [ih.2, number_year]⟩
  | @lastYear y m d y' m' d' h1 h2 ih =>
    refine ⟨ih.1, ?_⟩
    rw [ih.2, ← number_year]
    simp only [show y - 1 + 1 = y by omega, show m + 12 - 12 = m by omega]
  | @nextMonth y m d y' m' d' h1 h2 h3 h4 ih => exact ⟨ih.1, by rw [ih.2, number_month d h1 h2]⟩
  | @lastMonth y m d y' m' d' h1 h2 h3 h4 ih =>
    refine ⟨ih.1, ?_⟩
    rw [ih.2, ← number_month _ (by omega) (by omega)]
    simp only [show m - 1 + 1 = m by omega, show d + monthLength y (m - 1) - monthLength y (m - 1) = d by omega]
  | @lastDecember y d y' m' d' h1 h2 ih =>
    refine ⟨ih.1, ?_⟩
    rw [ih.2, ← number_month _ (by omega) (by omega), ← number_year, show monthLength (y - 1) 12 = 31 by unfold monthLength; simp]
    simp only [show y - 1 + 1 = y by omega, show (12 : Int) + 1 - 12 = 1 by omega, show d + 31 - 31 = d by omega]

theorem day_lt {y m d y' m' d' : Int} (h : CalendarDay y m d) (h' : CalendarDay y' m' d') (he : Earlier y m d y' m' d') :
    dayNumber y m d < dayNumber y' m' d' := by
  obtain ⟨hm, hd⟩ := h
  obtain ⟨hm', hd'⟩ := h'
  unfold dayNumber
  rcases he with he | ⟨rfl, he | ⟨rfl, he⟩⟩
  · have h1 := daysBeforeYear_le he
    have h2 : daysBeforeMonth y m + monthLength y m ≤ 365 + (if Leap y then 1 else 0) := by
      by_cases h12 : m = 12
      · subst h12; simp only [daysBeforeMonth, monthLength]; by_cases hl : Leap y <;> simp [hl]
      · have := daysBeforeMonth_le (y := y) hm.1 (show m < 12 by omega) (by omega)
        have h31 := (length_28 y m).2
        have h334 : daysBeforeMonth y 12 = 334 + (if Leap y then 1 else 0) := by
          unfold daysBeforeMonth; by_cases hl : Leap y <;> simp [hl]
        omega
    have h3 : 0 ≤ daysBeforeMonth y' m' := by unfold daysBeforeMonth; (repeat' split) <;> omega
    omega
  · have := daysBeforeMonth_le (y := y) hm.1 he hm'.2
    omega
  · omega

theorem earlier_total (y m d y' m' d' : Int) : Earlier y m d y' m' d' ∨ Earlier y' m' d' y m d ∨ (y = y' ∧ m = m' ∧ d = d') := by
  unfold Earlier; omega

theorem day_le {y m d y' m' d' : Int} (h : CalendarDay y m d) (h' : CalendarDay y' m' d') (hle : dayNumber y m d ≤ dayNumber y' m' d') :
    ¬ Earlier y' m' d' y m d := fun he => by have := day_lt h' h he; omega

end Carried
open Carried

/-- **C81**: every year, month and day means exactly one day of the calendar, and a day of the calendar means itself. -/
theorem C81_day (y m d : Int) :
    (∃ y' m' d', Carry y m d y' m' d' ∧ CalendarDay y' m' d' ∧ ∀ y2 m2 d2, Carry y m d y2 m2 d2 → y2 = y' ∧ m2 = m' ∧ d2 = d')
    ∧ (CalendarDay y m d → Carry y m d y m d) := by
  refine ⟨?_, .day⟩
  obtain ⟨a, b, c, h⟩ := exists_carry m.natAbs y m d (by omega)
  refine ⟨a, b, c, h, (carry_number h).1, ?_⟩
  intro a2 b2 c2 h2
  obtain ⟨k1, k2⟩ := carry_number h
  obtain ⟨k3, k4⟩ := carry_number h2
  rcases earlier_total a2 b2 c2 a b c with he | he | he
  · have := day_lt k3 k1 he; omega
  · have := day_lt k1 k3 he; omega
  · exact he

/-- **C81**: a text is read as a time exactly if it has one of the forms of C33, and the time is that of the day it counts on to; no text is refused because there is no such
    day. -/
theorem C81_text {mk : Int → Int → Int → Int} (hmk : Normalises mk) (s : Bytes) (t : Int) :
    secondsFromEpoch mk s = .ok t ↔ ∃ y m d y' m' d', DateText s y m d ∧ Carry y m d y' m' d' ∧ CalendarDay y' m' d' ∧ t = mk y' m' d' := by
  rw [C33_accepted_iff]
  constructor
  · rintro ⟨y, m, d, h, rfl⟩
    obtain ⟨⟨a, b, c, h1, h2, _⟩, _⟩ := C81_day y m d
    exact ⟨y, m, d, a, b, c, h, h1, h2, hmk h1⟩
  · rintro ⟨y, m, d, a, b, c, h, h1, _, rfl⟩
    exact ⟨y, m, d, h, (hmk h1).symm⟩

namespace Carried

theorem number_mono {y m m' : Int} (h : m ≤ m') : number y m 1 ≤ number y m' 1 := by
  unfold number
  have f : ∀ y m : Int, CalendarDay (y + (m - 1) / 12) ((m - 1) % 12 + 1) 1 := fun y m => ⟨by omega, by omega, by have := length_28 (y + (m - 1) / 12) ((m - 1) % 12 + 1); omega⟩
  by_cases he : m = m'
  · subst he; omega
  · have := day_lt (f y m) (f y m') (by unfold Earlier; omega)
    omega

theorem carry_of_number {y m d y' m' d' : Int} (h : CalendarDay y' m' d') (hn : dayNumber y' m' d' = number y m d) : Carry y m d y' m' d' := by
  obtain ⟨⟨a, b, c, h1, h2, _⟩, _⟩ := C81_day y m d
  have h3 := (carry_number h1).2
  rcases earlier_total a b c y' m' d' with he | he | ⟨rfl, rfl, rfl⟩
  · have := day_lt h2 h he; omega
  · have := day_lt h h2 he; omega
  · exact h1

theorem number_add (y m d : Int) : number y m d = number y m 1 + (d - 1) := by unfold number; omega

end Carried

/-- **C81**: with two digits each for month and day the day that is meant is not before the 30th of November of the year before and not after the 7th of June eight years later;
    both are reached, by 00/00 and 99/99. -/
theorem C81_span {y m d y' m' d' : Int} (h : Carry y m d y' m' d') (hm : 0 ≤ m ∧ m ≤ 99) (hd : 0 ≤ d ∧ d ≤ 99) :
    ¬ Earlier y' m' d' (y - 1) 11 30 ∧ ¬ Earlier (y + 8) 6 7 y' m' d'
    ∧ Carry y 0 0 (y - 1) 11 30 ∧ Carry y 99 99 (y + 8) 6 7 := by
  obtain ⟨h1, h2⟩ := carry_number h
  have l11 : monthLength (y - 1) 11 = 30 := by unfold monthLength; simp
  have l3 : monthLength (y + 8) 3 = 31 := by unfold monthLength; simp
  have l4 : monthLength (y + 8) 4 = 30 := by unfold monthLength; simp
  have l5 : monthLength (y + 8) 5 = 31 := by unfold monthLength; simp
  have l6 : monthLength (y + 8) 6 = 30 := by unfold monthLength; simp
  have c0 : Carry y 0 0 (y - 1) 11 30 := by
    refine carry_of_number ⟨by omega, by omega⟩ ?_
    have e : number y 0 0 = dayNumber (y - 1) 12 1 + (0 - 1) := rfl
    have := (dayNumber_next (y - 1) 11 30 (by omega)).2.1 (by omega)
    rw [l11] at this
    simp only [show (11 : Int) + 1 = 12 by omega] at this
    omega
  have c99 : Carry y 99 99 (y + 8) 6 7 := by
    refine carry_of_number ⟨by omega, by omega⟩ ?_
    have e : number y 99 99 = dayNumber (y + 8) 3 1 + (99 - 1) := rfl
    rw [e]
    simp only [dayNumber, daysBeforeMonth]
    by_cases hl : Leap (y + 8) <;> simp [hl] <;> omega
  refine ⟨?_, ?_, c0, c99⟩
  · obtain ⟨k1, k2⟩ := carry_number c0
    apply day_le k1 h1
    rw [k2, h2]
    have := number_mono (y := y) hm.1
    rw [number_add y m d, number_add y 0 0]
    omega
  · obtain ⟨k1, k2⟩ := carry_number c99
    apply day_le h1 k1
    rw [k2, h2]
    have := number_mono (y := y) hm.2
    rw [number_add y m d, number_add y 99 99]
    omega

/-- **C81**: dates in the order of their digits need not be in the order of time: in every year and in every time zone whose offsets differ by less than a day, the 31st of
    February is after the 1st of March. -/
theorem C81_order {zone : Int → Prop} {mk : Int → Int → Int → Int} (hmk : MidnightIn zone mk) (hn : Normalises mk)
    (hz : ∀ o o', zone o → zone o' → o - o' < 86400) {y1 y2 y3 y4 : Fin 10} {s s' : Bytes}
    (hs : IsNotation s ⟨y1, y2, y3, y4, 0, 2, 3, 1⟩) (hs' : IsNotation s' ⟨y1, y2, y3, y4, 0, 3, 0, 1⟩) :
    ∃ t t', secondsFromEpoch mk s = .ok t ∧ secondsFromEpoch mk s' = .ok t' ∧ t' < t := by
  refine ⟨_, _, seconds_of_notation hs mk, seconds_of_notation hs' mk, ?_⟩
  have hy : ∀ a b c d : Fin 10, (DateDigits.mk y1 y2 y3 y4 a b c d).year = 1000 * (y1.val : Int) + 100 * y2.val + 10 * y3.val + y4.val := fun _ _ _ _ => rfl
  rw [hy, hy]
  have hy0 : 0 ≤ 1000 * (y1.val : Int) + 100 * y2.val + 10 * y3.val + y4.val ∧ 1000 * (y1.val : Int) + 100 * y2.val + 10 * y3.val + y4.val ≤ 9999 := by omega
  generalize 1000 * (y1.val : Int) + 100 * y2.val + 10 * y3.val + y4.val = y at hy0
  show mk y 3 1 < mk y 2 31
  have l3 : monthLength y 3 = 31 := by unfold monthLength; simp
  have hfeb : ∃ d', 2 ≤ d' ∧ d' ≤ 3 ∧ Carry y 2 31 y 3 d' := by
    by_cases hl : Leap y
    · refine ⟨2, by omega, by omega, carry_of_number ⟨by omega, by omega⟩ ?_⟩
      rw [number_day _ (by omega) (by omega)]
      simp only [dayNumber, daysBeforeMonth]; simp [hl]; omega
    · refine ⟨3, by omega, by omega, carry_of_number ⟨by omega, by omega⟩ ?_⟩
      rw [number_day _ (by omega) (by omega)]
      simp only [dayNumber, daysBeforeMonth]; simp [hl]; omega
  obtain ⟨d', h1, h2, h3⟩ := hfeb
  rw [hn h3]
  obtain ⟨o, ho, e1⟩ := hmk y 3 1 ⟨hy0, by omega, by omega⟩
  obtain ⟨o', ho', e2⟩ := hmk y 3 d' ⟨hy0, by omega, by omega⟩
  have := hz o' o ho' ho
  rw [e1, e2]
  unfold dayNumber
  omega

/-- **C81**: a license whose expiry date is written with any eight digits is good to the midnight of the day these count on to. -/
theorem C81_expiry {w : World} (hn : Normalises w.mktime) {feature text v : Bytes} {d : DateDigits} {y' m' d' : Int}
    (hv : IsLimit (entriesFor feature text) (b!"valid-to") v) (hd : IsNotation v d) (hc : Carry d.year d.month d.day y' m' d') (now : Int) :
    NotExpired w feature text now ↔ now ≤ w.mktime y' m' d' := by
  rw [C03_exact_second hv hd, hn hc]

/-- The `mktime` of Greenwich counts on. -/
theorem normalises_utc : Normalises mktimeUtc := by
  intro y m d y' m' d' h
  obtain ⟨h1, h2⟩ := carry_number h
  have e : ∀ y m d, mktimeUtc y m d = 86400 * number y m d := fun _ _ _ => rfl
  rw [e, e, ← h2, number_day _ h1.month.1 h1.month.2]

/-- What is written '2020-1-1' is read as month -1 and day -1 (C33), which is the 30th of October 2019. -/
example : Carry 2020 (-1) (-1) 2019 10 30 ∧ Carry 2024 2 31 2024 3 2 ∧ Carry 2023 13 1 2024 1 1 ∧ Carry 2024 12 0 2024 11 30 := by
  refine ⟨carry_of_number ⟨?_, ?_⟩ ?_, carry_of_number ⟨?_, ?_⟩ ?_, carry_of_number ⟨?_, ?_⟩ ?_, carry_of_number ⟨?_, ?_⟩ ?_⟩ <;> decide

/-- Both hypotheses of C81_order and C81_text hold of Greenwich time. -/
example : MidnightIn (fun o => o = 0) mktimeUtc ∧ Normalises mktimeUtc ∧ secondsFromEpoch mktimeUtc b!"20240231" = secondsFromEpoch mktimeUtc b!"20240302" :=
  ⟨midnight_utc, normalises_utc, by decide +kernel⟩

end Licensecc
