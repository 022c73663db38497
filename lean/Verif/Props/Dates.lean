import Verif.Spec.Calendar
import Verif.Spec.DateText
import Verif.Props.Acquire
import Verif.Props.Identify
/-!
# C33: which texts are dates; C34: later dates give later times
-/
namespace Licensecc
open Spec

theorem scanDigits_spec (w : Nat) : ∀ (s : Bytes) (v k v' k' : Nat) (t : Bytes), scanDigits w s v k = (v', k', t) ↔
    ∃ ds, s = ds ++ t ∧ (∀ d ∈ ds, isDigit d = true) ∧ ds.length ≤ w ∧ k' = k + ds.length
      ∧ (ds.length = w ∨ ∀ c, t.head? = some c → isDigit c = false)
      ∧ v' = ds.foldl (fun v d => v * 10 + (d.toNat - 48)) v := by
  induction w with
  | zero =>
    intro s v k v' k' t
    simp only [scanDigits, Prod.mk.injEq]
    constructor
    · rintro ⟨rfl, rfl, rfl⟩; exact ⟨[], rfl, by simp, by simp, rfl, .inl rfl, rfl⟩
    · rintro ⟨ds, rfl, _, hl, rfl, _, rfl⟩
      have : ds = [] := by simpa using hl
      subst this; simp
  | succ w ih =>
    intro s v k v' k' t
    cases s with
    | nil =>
      simp only [scanDigits, Prod.mk.injEq]
      constructor
      · rintro ⟨rfl, rfl, rfl⟩; exact ⟨[], rfl, by simp, by simp, rfl, .inr (by simp), rfl⟩
      · rintro ⟨ds, he, _, hl, rfl, _, rfl⟩
        have : ds = [] ∧ t = [] := by simpa using he.symm
        obtain ⟨rfl, rfl⟩ := this; simp
    | cons b s =>
      rw [scanDigits]
      by_cases hb : isDigit b = true
      · rw [if_pos hb, ih]
        constructor
        · rintro ⟨ds, rfl, h1, h2, rfl, h3, rfl⟩
          exact ⟨b :: ds, rfl, by simpa [hb] using h1, by simp; omega, by simp; omega, by
            rcases h3 with h3 | h3
            · exact .inl (by simp [h3])
            · exact .inr h3, rfl⟩
        · rintro ⟨ds, he, h1, h2, rfl, h3, rfl⟩
          cases ds with
          | nil =>
            rcases h3 with h3 | h3
            · simp at h3
            · have := h3 b (by simp at he; rw [← he]; rfl); rw [hb] at this; simp at this
          | cons d ds =>
            simp at he; obtain ⟨rfl, rfl⟩ := he
            exact ⟨ds, rfl, fun x hx => h1 x (by simp [hx]), by simp at h2; omega, by simp; omega, by
              rcases h3 with h3 | h3
              · exact .inl (by simpa using h3)
              · exact .inr h3, rfl⟩
      · rw [if_neg hb]
        simp only [Prod.mk.injEq]
        constructor
        · rintro ⟨rfl, rfl, rfl⟩
          exact ⟨[], rfl, by simp, by simp, rfl, .inr (by simpa using hb), rfl⟩
        · rintro ⟨ds, he, h1, h2, rfl, h3, rfl⟩
          cases ds with
          | nil => simp at he; simp [he]
          | cons d ds => simp at he; exact absurd (h1 d (by simp)) (by rw [← he.1]; exact hb)

theorem scanInt_iff (w : Nat) (hw : 1 ≤ w) (s : Bytes) (v : Int) (rest : Bytes) :
    scanInt w s = some (v, rest) ↔ NumberField w s v rest := by
  have hdig : ∀ ds : Bytes, (∀ d ∈ ds, isDigit d = true) ↔ ∀ d ∈ ds, 48 ≤ d ∧ d ≤ 57 := by
    intro ds; simp only [isDigit_iff]
  have hrest : ∀ r : Bytes, (∀ c, r.head? = some c → isDigit c = false) ↔ ∀ c, r.head? = some c → ¬ (48 ≤ c ∧ c ≤ 57) := by
    intro r; simp only [← isDigit_iff, Bool.not_eq_true]
  have hnodig : isDigit 45 = false ∧ isDigit 43 = false := by decide
  have hnosp : isSpace 45 = false ∧ isSpace 43 = false := by decide
  have hds : ∀ d : UInt8, isDigit d = true → isSpace d = false := forall_uint8 (by decide +kernel)
  unfold scanInt
  constructor
  · intro h
    have hcat := (List.takeWhile_append_dropWhile (p := isSpace) (l := s)).symm
    have hsp : ∀ c ∈ s.takeWhile isSpace, c ∈ ([32, 9, 10, 11, 12, 13] : Bytes) :=
      fun c hc => (isSpace_mem c).mp (takeWhile_holds s c hc)
    cases hx : s.dropWhile isSpace with
    | nil => rw [hx] at h; simp at h
    | cons b r =>
      rw [hx] at h hcat
      simp only at h
      split at h
      · rename_i hb; have hb : b = 45 := by simpa using hb
        subst hb
        cases hsd : scanDigits (w - 1) r 0 0 with
        | mk v' p =>
          obtain ⟨k', t⟩ := p
          rw [hsd] at h
          simp only at h
          split at h
          · simp at h
          · rename_i hk
            simp only [Option.some.injEq, Prod.mk.injEq] at h
            obtain ⟨rfl, rfl⟩ := h
            obtain ⟨ds, rfl, h1, h2, rfl, h3, rfl⟩ := (scanDigits_spec ..).mp hsd
            refine ⟨_, [45], ds, by simpa using hcat, hsp, (hdig ds).mp h1, by rintro rfl; simp at hk, by simp; omega, ?_, .inl ⟨rfl, rfl⟩⟩
            rcases h3 with h3 | h3
            · exact .inl (by simp; omega)
            · exact .inr ((hrest t).mp h3)
      · split at h
        · rename_i hb; have hb : b = 43 := by simpa using hb
          subst hb
          cases hsd : scanDigits (w - 1) r 0 0 with
          | mk v' p =>
            obtain ⟨k', t⟩ := p
            rw [hsd] at h
            simp only at h
            split at h
            · simp at h
            · rename_i hk
              simp only [Option.some.injEq, Prod.mk.injEq] at h
              obtain ⟨rfl, rfl⟩ := h
              obtain ⟨ds, rfl, h1, h2, rfl, h3, rfl⟩ := (scanDigits_spec ..).mp hsd
              refine ⟨_, [43], ds, by simpa using hcat, hsp, (hdig ds).mp h1, by rintro rfl; simp at hk, by simp; omega, ?_,
                .inr (.inl ⟨rfl, rfl⟩)⟩
              rcases h3 with h3 | h3
              · exact .inl (by simp; omega)
              · exact .inr ((hrest t).mp h3)
        · cases hsd : scanDigits w (b :: r) 0 0 with
          | mk v' p =>
            obtain ⟨k', t⟩ := p
            rw [hsd] at h
            simp only at h
            split at h
            · simp at h
            · rename_i hk
              simp only [Option.some.injEq, Prod.mk.injEq] at h
              obtain ⟨rfl, rfl⟩ := h
              obtain ⟨ds, he, h1, h2, rfl, h3, rfl⟩ := (scanDigits_spec ..).mp hsd
              refine ⟨_, [], ds, by rw [he] at hcat; simpa using hcat, hsp, (hdig ds).mp h1, by rintro rfl; simp at hk,
                by simp; omega, ?_, .inr (.inr ⟨rfl, rfl⟩)⟩
              rcases h3 with h3 | h3
              · exact .inl (by simp; omega)
              · exact .inr ((hrest t).mp h3)
  · rintro ⟨sp, sign, ds, rfl, h1, h2, h3, h4, h5, h6⟩
    have h1' : ∀ c ∈ sp, isSpace c = true := fun c hc => (isSpace_mem c).mpr (h1 c hc)
    have h2' := (hdig ds).mpr h2
    have hlen : ds.length ≠ 0 := by simpa using h3
    have sd : ∀ n, n = w - sign.length → scanDigits n (ds ++ rest) 0 0 = (numeral ds, ds.length, rest) := by
      intro n hn
      refine (scanDigits_spec ..).mpr ⟨ds, rfl, h2', by omega, by omega, ?_, rfl⟩
      rcases h5 with h5 | h5
      · exact .inl (by omega)
      · exact .inr ((hrest rest).mpr h5)
    rcases h6 with ⟨rfl, rfl⟩ | ⟨rfl, rfl⟩ | ⟨rfl, rfl⟩
    · rw [show sp ++ [45] ++ ds ++ rest = sp ++ (45 :: (ds ++ rest)) by simp,
        dropWhile_append_of _ _ h1' (by simp [hnosp])]
      simp [sd (w - 1) (by simp), hlen]
    · rw [show sp ++ [43] ++ ds ++ rest = sp ++ (43 :: (ds ++ rest)) by simp,
        dropWhile_append_of _ _ h1' (by simp [hnosp])]
      simp [sd (w - 1) (by simp), hlen]
    · cases ds with
      | nil => exact absurd rfl h3
      | cons d ds =>
        have hd : isDigit d = true := h2' d (by simp)
        rw [show sp ++ [] ++ (d :: ds) ++ rest = sp ++ (d :: (ds ++ rest)) by simp,
          dropWhile_append_of _ _ h1' (by simp [hds d hd])]
        have hn : d ≠ 45 ∧ d ≠ 43 := by
          constructor
          · rintro rfl; rw [hnodig.1] at hd; simp at hd
          · rintro rfl; rw [hnodig.2] at hd; simp at hd
        have := sd w (by simp)
        rw [List.cons_append] at this
        simp only [beq_iff_eq, hn.1, hn.2, if_false, this, hlen]

theorem scanLit_iff (c : UInt8) (s r : Bytes) : scanLit c s = some r ↔ s = c :: r := by
  cases s with
  | nil => simp [scanLit]
  | cons b s => simp only [scanLit, beq_iff_eq]; split <;> grind

theorem scanCompact_iff (s : Bytes) (y m d : Int) : scanCompact s = some (y, m, d) ↔ CompactDate (s.takeWhile (· ≠ 0)) y m d := by
  unfold scanCompact CompactDate
  simp only [← scanInt_iff 4 (by omega), ← scanInt_iff 2 (by omega), Option.bind_eq_bind, Option.pure_def]
  constructor
  · intro h
    obtain ⟨⟨y', r1⟩, h1, h⟩ := Option.bind_eq_some_iff.mp h
    obtain ⟨⟨m', r2⟩, h2, h⟩ := Option.bind_eq_some_iff.mp h
    obtain ⟨⟨d', r3⟩, h3, h⟩ := Option.bind_eq_some_iff.mp h
    simp only [Option.some.injEq, Prod.mk.injEq] at h
    obtain ⟨rfl, rfl, rfl⟩ := h
    exact ⟨r1, r2, r3, h1, h2, h3⟩
  · rintro ⟨r1, r2, r3, h1, h2, h3⟩
    rw [h1]; simp [h2, h3]

theorem scanSeparated_iff (sep : UInt8) (s : Bytes) (y m d : Int) :
    scanSeparated sep s = some (y, m, d) ↔ SeparatedDate sep (s.takeWhile (· ≠ 0)) y m d := by
  unfold scanSeparated SeparatedDate
  simp only [← scanInt_iff 4 (by omega), ← scanInt_iff 2 (by omega), Option.bind_eq_bind, Option.pure_def]
  constructor
  · intro h
    obtain ⟨⟨y', r1⟩, h1, h⟩ := Option.bind_eq_some_iff.mp h
    obtain ⟨r1', h1', h⟩ := Option.bind_eq_some_iff.mp h
    obtain ⟨⟨m', r2⟩, h2, h⟩ := Option.bind_eq_some_iff.mp h
    obtain ⟨r2', h2', h⟩ := Option.bind_eq_some_iff.mp h
    obtain ⟨⟨d', r3⟩, h3, h⟩ := Option.bind_eq_some_iff.mp h
    simp only [Option.some.injEq, Prod.mk.injEq] at h
    obtain ⟨rfl, rfl, rfl⟩ := h
    rw [scanLit_iff] at h1' h2'
    dsimp only at h1' h2' h2
    subst h1' h2'
    exact ⟨r1', r2', r3, h1, h2, h3⟩
  · rintro ⟨r1, r2, r3, h1, h2, h3⟩
    have l1 := (scanLit_iff sep (sep :: r1) r1).mpr rfl
    have l2 := (scanLit_iff sep (sep :: r2) r2).mpr rfl
    rw [h1]; simp [l1, l2, h2, h3]

theorem parseDate_iff (s : Bytes) (y m d : Int) : parseDate s = .ok (y, m, d) ↔ DateText s y m d := by
  unfold parseDate DateText
  by_cases h8 : s.length = 8
  · simp only [h8, if_true, true_and, ← scanCompact_iff]
    cases scanCompact s <;> simp
  · by_cases h10 : s.length = 10
    · simp only [h10, if_true, true_and, ← scanSeparated_iff]
      have excl : ∀ p q, scanSeparated 45 s = some p → scanSeparated 47 s = some q → False := by
        rintro ⟨y, m, d⟩ ⟨y', m', d'⟩ h1 h2
        obtain ⟨r1, r2, r3, a1, _⟩ := (scanSeparated_iff ..).mp h1
        obtain ⟨q1, q2, q3, b1, _⟩ := (scanSeparated_iff ..).mp h2
        rw [← scanInt_iff 4 (by omega)] at a1 b1
        rw [a1] at b1; simp at b1
      cases h1 : scanSeparated 45 s with
      | some p =>
        cases h2 : scanSeparated 47 s with
        | some q => exact absurd (excl p q h1 h2) id
        | none => simp
      | none => cases h2 : scanSeparated 47 s <;> simp
    · simp [h8, h10]

/-- **C33**: exactly which texts are read as dates, and as which. -/
theorem C33_accepted_iff (mk : Int → Int → Int → Int) (s : Bytes) (t : Int) :
    secondsFromEpoch mk s = .ok t ↔ ∃ y m d, DateText s y m d ∧ t = mk y m d := by
  simp only [← parseDate_iff, secondsFromEpoch]
  cases h : parseDate s with
  | ok p => obtain ⟨y, m, d⟩ := p; simp; exact ⟨fun h => ⟨y, m, d, ⟨rfl, rfl, rfl⟩, h.symm⟩, by rintro ⟨_, _, _, ⟨rfl, rfl, rfl⟩, rfl⟩; rfl⟩
  | throw e => simp
  | ub => simp

/-- **C33**: every other text is rejected with `std::invalid_argument`. -/
theorem C33_rejected_iff (mk : Int → Int → Int → Int) (s : Bytes) (x : Exn) :
    secondsFromEpoch mk s = .throw x ↔ x = .invalidArgument ∧ ¬ ∃ y m d, DateText s y m d := by
  have hx : ∀ e, parseDate s = .throw e → e = .invalidArgument := by
    intro e; unfold parseDate
    repeat' split
    all_goals simp
    all_goals (rintro rfl; rfl)
  have hu : parseDate s ≠ .ub := by
    unfold parseDate
    repeat' split
    all_goals simp
  simp only [← parseDate_iff, secondsFromEpoch]
  cases h : parseDate s with
  | ok p => obtain ⟨y, m, d⟩ := p; simp
  | throw e => simp [hx e h, eq_comm]
  | ub => exact absurd h hu

example : DateText b!"2020-1-1" 2020 (-1) (-1) := (parseDate_iff ..).mp (by decide)

/-- The epoch is day 0. -/
theorem dayNumber_epoch : dayNumber 1970 1 1 = 0 := by decide

/-- The day after a day has the next number: within a month, at the end of a month and at the end of a year. -/
theorem dayNumber_next (y m d : Int) (hm : 1 ≤ m ∧ m ≤ 12) :
    dayNumber y m (d + 1) = dayNumber y m d + 1
    ∧ (m < 12 → dayNumber y (m + 1) 1 = dayNumber y m (monthLength y m) + 1)
    ∧ dayNumber (y + 1) 1 1 = dayNumber y 12 (monthLength y 12) + 1 := by
  refine ⟨?_, ?_, ?_⟩
  · simp only [dayNumber]; omega
  · intro h
    have : m = 1 ∨ m = 2 ∨ m = 3 ∨ m = 4 ∨ m = 5 ∨ m = 6 ∨ m = 7 ∨ m = 8 ∨ m = 9 ∨ m = 10 ∨ m = 11 := by omega
    rcases this with rfl | rfl | rfl | rfl | rfl | rfl | rfl | rfl | rfl | rfl | rfl <;>
      simp only [dayNumber, daysBeforeMonth, monthLength] <;> by_cases hl : Leap y <;> simp [hl] <;> omega
  · simp only [dayNumber, daysBeforeMonth, monthLength, daysBeforeYear]
    by_cases hl : Leap y
    · simp [hl]; unfold Leap at hl; omega
    · simp [hl]; unfold Leap at hl; omega

theorem daysBeforeYear_le {y y' : Int} (h : y < y') : daysBeforeYear y + 365 + (if Leap y then 1 else 0) ≤ daysBeforeYear y' := by
  unfold daysBeforeYear
  by_cases hl : Leap y
  · simp only [hl, if_true]; unfold Leap at hl; omega
  · simp only [hl, if_false]; omega

theorem daysBeforeMonth_le {y m m' : Int} (h0 : 1 ≤ m) (h : m < m') (h1 : m' ≤ 12) :
    daysBeforeMonth y m + monthLength y m ≤ daysBeforeMonth y m' := by
  have step : ∀ m, 1 ≤ m → m < 12 → daysBeforeMonth y (m + 1) = daysBeforeMonth y m + monthLength y m := by
    intro m h1 h2
    have := (dayNumber_next y m 1 (by omega)).2.1 h2
    unfold dayNumber at this; omega
  have pos : ∀ m, 28 ≤ monthLength y m := by intro m; unfold monthLength; grind
  obtain ⟨k, hk⟩ := Int.eq_ofNat_of_zero_le (show 0 ≤ m' - (m + 1) by omega)
  induction k generalizing m' with
  | zero => have : m' = m + 1 := by omega
            rw [this, step m h0 (by omega)]; omega
  | succ k ih =>
    have h2 := ih (m' := m' - 1) (by omega) (by omega) (by omega)
    have h3 := step (m' - 1) (by omega) (by omega)
    have h4 := pos (m' - 1)
    rw [show m' - 1 + 1 = m' by omega] at h3
    omega

/-- Chronological order is the order of the day numbers. -/
theorem dayNumber_lt {y m d y' m' d' : Int} (h : ValidDate y m d) (h' : ValidDate y' m' d') (he : Earlier y m d y' m' d') :
    dayNumber y m d < dayNumber y' m' d' := by
  obtain ⟨_, hm, hd⟩ := h
  obtain ⟨_, hm', hd'⟩ := h'
  unfold dayNumber
  rcases he with he | ⟨rfl, he | ⟨rfl, he⟩⟩
  · have h1 := daysBeforeYear_le he
    have h2 : daysBeforeMonth y m + monthLength y m ≤ 365 + (if Leap y then 1 else 0) := by
      by_cases h12 : m = 12
      · subst h12; simp only [daysBeforeMonth, monthLength]; by_cases hl : Leap y <;> simp [hl]
      · have := daysBeforeMonth_le (y := y) hm.1 (show m < 12 by omega) (by omega)
        have h31 : monthLength y m ≤ 31 := by unfold monthLength; grind
        have h334 : daysBeforeMonth y 12 = 334 + (if Leap y then 1 else 0) := by
          unfold daysBeforeMonth; by_cases hl : Leap y <;> simp [hl]
        omega
    have h3 : 0 ≤ daysBeforeMonth y' m' := by unfold daysBeforeMonth; (repeat' split) <;> omega
    omega
  · have := daysBeforeMonth_le (y := y) hm.1 he hm'.2
    omega
  · omega

/-- The day denoted by the digits exists. -/
def Spec.DateDigits.Valid (d : DateDigits) : Prop := ValidDate d.year d.month d.day

/-- Chronological order of dates written with digits. -/
def Spec.DateDigits.Before (d d' : DateDigits) : Prop := Earlier d.year d.month d.day d'.year d'.month d'.day

/-- **C34**: in every time zone whose offsets differ by less than a day, a later date gives a later time, whichever of the
    documented notations the two dates are written in. -/
theorem C34_later_date_later_time {zone : Int → Prop} {mk : Int → Int → Int → Int} (hmk : MidnightIn zone mk)
    (hz : ∀ o o', zone o → zone o' → o - o' < 86400) {d d' : DateDigits} (hv : d.Valid) (hv' : d'.Valid) (hlt : d.Before d')
    {s s' : Bytes} (hs : IsNotation s d) (hs' : IsNotation s' d') :
    ∃ t t', secondsFromEpoch mk s = .ok t ∧ secondsFromEpoch mk s' = .ok t' ∧ t < t' := by
  refine ⟨_, _, seconds_of_notation hs mk, seconds_of_notation hs' mk, ?_⟩
  obtain ⟨o, ho, h1⟩ := hmk _ _ _ hv
  obtain ⟨o', ho', h2⟩ := hmk _ _ _ hv'
  have h3 := dayNumber_lt hv hv' hlt
  have h4 := hz o' o ho' ho
  omega

/-- **C34**: where the clock was once moved by a whole day, a later date still never gives an earlier time. -/
theorem C34_never_earlier {zone : Int → Prop} {mk : Int → Int → Int → Int} (hmk : MidnightIn zone mk)
    (hz : ∀ o o', zone o → zone o' → o - o' ≤ 86400) {d d' : DateDigits} (hv : d.Valid) (hv' : d'.Valid) (hlt : d.Before d')
    {s s' : Bytes} (hs : IsNotation s d) (hs' : IsNotation s' d') :
    ∃ t t', secondsFromEpoch mk s = .ok t ∧ secondsFromEpoch mk s' = .ok t' ∧ t ≤ t' := by
  refine ⟨_, _, seconds_of_notation hs mk, seconds_of_notation hs' mk, ?_⟩
  obtain ⟨o, ho, h1⟩ := hmk _ _ _ hv
  obtain ⟨o', ho', h2⟩ := hmk _ _ _ hv'
  have h3 := dayNumber_lt hv hv' hlt
  have h4 := hz o' o ho' ho
  omega

/-- **C34** (the limit of the property): in a zone that moved its clock by 24 hours (Samoa, end of 2011: from -10 h to
    +14 h) two successive dates can give the same time, the skipped day and the one after it. -/
theorem C34_skipped_day : ∃ zone mk, MidnightIn zone mk ∧ (∀ o o', zone o → zone o' → o - o' ≤ 86400)
    ∧ mk 2011 12 30 = mk 2011 12 31 := by
  refine ⟨fun o => o = -36000 ∨ o = 50400,
    fun y m d => 86400 * dayNumber y m d - (if dayNumber y m d ≤ dayNumber 2011 12 30 then -36000 else 50400), ?_, ?_, ?_⟩
  · intro y m d _
    refine ⟨_, ?_, rfl⟩
    split <;> simp
  · grind
  · decide +kernel

/-- **C34**: of two licence texts with dates, the one with the later `valid-to` is good at every moment at which the other
    one is. -/
theorem C34_later_expiry_never_refused_earlier {w : World} {zone : Int → Prop} (hmk : MidnightIn zone w.mktime)
    (hz : ∀ o o', zone o → zone o' → o - o' ≤ 86400) {feature text text' v v' : Bytes} {d d' : DateDigits}
    (hl : IsLimit (entriesFor feature text) (b!"valid-to") v) (hl' : IsLimit (entriesFor feature text') (b!"valid-to") v')
    (hs : IsNotation v d) (hs' : IsNotation v' d') (hv : d.Valid) (hv' : d'.Valid) (hlt : d.Before d') {now : Int}
    (h : NotExpired w feature text now) : NotExpired w feature text' now := by
  rw [C03_exact_second hl' hs']
  have h1 := (C03_exact_second hl hs now).mp h
  obtain ⟨t, t', h2, h3, h4⟩ := C34_never_earlier hmk hz hv hv' hlt hs hs'
  rw [seconds_of_notation hs] at h2
  rw [seconds_of_notation hs'] at h3
  simp only [Outcome.ok.injEq] at h2 h3
  omega

/-- **C34**: a signed licence that differs from a granting one only in a later `valid-to` (and its signature) grants as well. -/
theorem C34_extended_licence_grants {cfg : Config} {w : World} {zone : Int → Prop} (hmk : MidnightIn zone w.mktime)
    (hz : ∀ o o', zone o → zone o' → o - o' ≤ 86400) {magic : Nat} {feature text text' v v' : Bytes} {d d' : DateDigits}
    (hl : IsLimit (entriesFor feature text) (b!"valid-to") v) (hl' : IsLimit (entriesFor feature text') (b!"valid-to") v')
    (hs : IsNotation v d) (hs' : IsNotation v' d') (hv : d.Valid) (hv' : d'.Valid) (hlt : d.Before d')
    (hsame : ∀ k x, k = b!"valid-from" ∨ k = b!"client-signature" →
      IsLimit (entriesFor feature text') k x → IsLimit (entriesFor feature text) k x)
    (hc : Complete feature text') (hsig : Signed w feature text') {now : Int} (h : Grants cfg w magic feature text now) :
    Grants cfg w magic feature text' now where
  complete := hc
  signed := hsig
  magic := h.magic
  notExpired := C34_later_expiry_never_refused_earlier hmk hz hl hl' hs hs' hv hv' hlt h.notExpired
  started := fun x hx => h.started x (hsame _ _ (.inl rfl) hx)
  machine := fun x hx => h.machine x (hsame _ _ (.inr rfl) hx)

/-- Greenwich time satisfies the assumption about `mktime`. -/
theorem midnight_utc : MidnightIn (fun o => o = 0) mktimeUtc := by
  intro y m d h
  refine ⟨0, rfl, ?_⟩
  have h1 : (m - 1) / 12 = 0 := by have := h.month; omega
  have h2 : (m - 1) % 12 + 1 = m := by have := h.month; omega
  simp only [mktimeUtc, h1, h2, dayNumber, Int.add_zero]
  omega

/-- A zone given by its offset at every moment: if `mk` returns for each day a moment at which the local clock shows its
    midnight, the assumption holds with the offsets of the zone. -/
theorem midnight_of_zone (offset : Int → Int) (mk : Int → Int → Int → Int)
    (h : ∀ y m d, ValidDate y m d → mk y m d + offset (mk y m d) = 86400 * dayNumber y m d) :
    MidnightIn (fun o => ∃ t, o = offset t) mk := by
  intro y m d hv
  exact ⟨offset (mk y m d), ⟨_, rfl⟩, by have := h y m d hv; omega⟩

def sampleDay : DateDigits := ⟨2, 0, 2, 4, 0, 2, 2, 9⟩
def sampleNextDay : DateDigits := ⟨2, 0, 2, 4, 0, 3, 0, 1⟩

example : sampleDay.Valid ∧ sampleNextDay.Valid ∧ sampleDay.Before sampleNextDay
    ∧ IsNotation b!"20240229" sampleDay ∧ IsNotation b!"2024/03/01" sampleNextDay :=
  ⟨⟨by decide, by decide, by decide⟩, ⟨by decide, by decide, by decide⟩, by unfold DateDigits.Before Earlier; decide,
    .inl (by decide), .inr (.inr (by decide))⟩

/-- 2000-03-01 was day 11017; the malformed text 2020-1-1 means 30 October 2019. -/
example : mktimeUtc 2000 3 1 = 951868800 ∧ secondsFromEpoch mktimeUtc b!"2020-1-1" = .ok (mktimeUtc 2019 10 30) := by decide +kernel

end Licensecc
