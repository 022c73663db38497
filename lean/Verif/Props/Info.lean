import Verif.Lemmas.Located
import Verif.Props.Stages
/-!
# Properties of the information handed back: C09, C10, C39
-/
namespace Licensecc
open Licensecc.Spec

/-! ## C10 days_left -/

/-- **C10**: the number of days computed is the nearest one, halves away from zero. -/
theorem C10_nearest (secs : Int) : NearestDays secs (roundDays secs) := by
  unfold NearestDays roundDays
  split <;> constructor <;> omega

theorem nearestDays_unique {secs n m : Int} (h : NearestDays secs n) (h' : NearestDays secs m) : n = m := by
  unfold NearestDays at h h'
  omega

/-- **C10**: more time never gives fewer days. -/
theorem C10_monotone {s s' n n' : Int} (h : NearestDays s n) (h' : NearestDays s' n') (hs : s ≤ s') : n ≤ n' := by
  rw [nearestDays_unique h (C10_nearest s), nearestDays_unique h' (C10_nearest s')]
  unfold roundDays
  split <;> split <;> omega

/-- Twelve hours before midnight count as one day, one second less as none; after the expiry the count is zero. -/
example : NearestDays 43200 1 ∧ NearestDays 43199 0 ∧ NearestDays (-43200) (-1) ∧ NearestDays 864000 10 := by
  unfold NearestDays; omega

theorem describes_of_info {w : World} {f src text : Bytes} {l : FullLicense} (hl : IsLicence f src text l) {k k' : Nat} {i : LicInfo}
    (h : toLicenseInfo w l k = .ok (i, k')) : Describes w f text (w.clock k) i := by
  have hlim := hl.limits
  have hnone : ∀ {key}, (¬ ∃ v, IsLimit (entriesFor f text) key v) ↔ SMap.find? key l.limits = none := by
    intro key
    constructor
    · intro hn
      cases hf : SMap.find? key l.limits with
      | none => rfl
      | some v => exact absurd ⟨v, (hlim _ _).mp hf⟩ hn
    · rintro hf ⟨v, hv⟩
      rw [(hlim _ _).mpr hv] at hf; simp at hf
  simp only [toLicenseInfo] at h
  cases he : SMap.find? kExpiry l.limits with
  | some d0 =>
    simp only [he] at h
    obtain ⟨t, ht, h⟩ := Outcome.bind_eq_ok.mp h
    split at h
    · rename_i hrange
      simp only [Outcome.pure_eq, Outcome.ok.injEq, Prod.mk.injEq] at h
      obtain ⟨rfl, _⟩ := h
      refine ⟨?_, ?_, ?_, ?_, ?_⟩
      · intro d hd
        have := (hlim _ _).mpr hd
        rw [show SMap.find? (b!"valid-to") l.limits = some d0 from he] at this
        simp only [Option.some.injEq] at this; subst this
        exact ⟨rfl, rfl, t, _, ht, C10_nearest _, hrange.1, hrange.2, rfl⟩
      · intro hn
        have := hnone.mp hn
        rw [show SMap.find? (b!"valid-to") l.limits = some d0 from he] at this
        simp at this
      · simp only [Option.isSome_iff_exists]
        exact ⟨fun ⟨s, hs⟩ => ⟨s, (hlim _ _).mp hs⟩, fun ⟨s, hs⟩ => ⟨s, (hlim _ _).mpr hs⟩⟩
      · intro v hv
        simp only [show SMap.find? kExtra l.limits = some v from (hlim _ _).mpr hv, Option.map_some]
        rfl
      · intro hn
        simp only [show SMap.find? kExtra l.limits = none from hnone.mp hn, Option.map_none]
    · simp at h
  | none =>
    simp only [he] at h
    simp only [Outcome.pure_eq, Outcome.ok.injEq, Prod.mk.injEq] at h
    obtain ⟨rfl, _⟩ := h
    refine ⟨?_, ?_, ?_, ?_, ?_⟩
    · intro d hd
      have := (hlim _ _).mpr hd
      rw [show SMap.find? (b!"valid-to") l.limits = none from he] at this
      simp at this
    · intro _; exact ⟨rfl, rfl, rfl⟩
    · simp only [Option.isSome_iff_exists]
      exact ⟨fun ⟨s, hs⟩ => ⟨s, (hlim _ _).mp hs⟩, fun ⟨s, hs⟩ => ⟨s, (hlim _ _).mpr hs⟩⟩
    · intro v hv
      simp only [show SMap.find? kExtra l.limits = some v from (hlim _ _).mpr hv, Option.map_some]
      rfl
    · intro hn
      simp only [show SMap.find? kExtra l.limits = none from hnone.mp hn, Option.map_none]

/-- The description determines the report. -/
theorem describes_unique {w : World} {f text : Bytes} {now : Int} {i i' : LicInfo} (h : Describes w f text now i)
    (h' : Describes w f text now i') : i = i' := by
  have hl : i.linkedToPc = i'.linkedToPc := by
    have := h.linked.trans h'.linked.symm
    revert this; cases i.linkedToPc <;> cases i'.linkedToPc <;> simp
  have hp : i.proprietary = i'.proprietary := by
    by_cases hv : ∃ v, IsLimit (entriesFor f text) (b!"extra-data") v
    · obtain ⟨v, hv⟩ := hv; rw [h.extra v hv, h'.extra v hv]
    · rw [h.noExtra hv, h'.noExtra hv]
  have he : i.hasExpiry = i'.hasExpiry ∧ i.expiryDate = i'.expiryDate ∧ i.daysLeft = i'.daysLeft := by
    by_cases hd : ∃ d, IsLimit (entriesFor f text) (b!"valid-to") d
    · obtain ⟨d, hd⟩ := hd
      obtain ⟨a1, a2, t, n, a3, a4, _, _, a5⟩ := h.expires d hd
      obtain ⟨b1, b2, t', n', b3, b4, _, _, b5⟩ := h'.expires d hd
      rw [a3] at b3; simp only [Outcome.ok.injEq] at b3; subst b3
      rw [nearestDays_unique b4 a4] at b5
      exact ⟨by rw [a1, b1], by rw [a2, b2], by rw [a5, b5]⟩
    · obtain ⟨a1, a2, a3⟩ := h.unlimited hd
      obtain ⟨b1, b2, b3⟩ := h'.unlimited hd
      exact ⟨by rw [a1, b1], by rw [a2, b2], by rw [a3, b3]⟩
  obtain ⟨x1, x2, x3⟩ := he
  cases i; cases i'; simp_all

/-- **C10** for two licences: the one that expires later has at least as many days left, and it is never negative. -/
theorem C10_later_expiry {w : World} {f text text' : Bytes} {now : Int} {i i' : LicInfo} (h : Describes w f text now i)
    (h' : Describes w f text' now i') {d d' : Bytes} (hd : IsLimit (entriesFor f text) (b!"valid-to") d)
    (hd' : IsLimit (entriesFor f text') (b!"valid-to") d') {t t' : Int} (ht : secondsFromEpoch w.mktime d = .ok t)
    (ht' : secondsFromEpoch w.mktime d' = .ok t') (hle : t ≤ t') : 0 ≤ i.daysLeft ∧ i.daysLeft ≤ i'.daysLeft := by
  obtain ⟨_, _, t1, n, a3, a4, _, _, a5⟩ := h.expires d hd
  obtain ⟨_, _, t2, n', b3, b4, _, _, b5⟩ := h'.expires d' hd'
  rw [ht] at a3; simp only [Outcome.ok.injEq] at a3; subst a3
  rw [ht'] at b3; simp only [Outcome.ok.injEq] at b3; subst b3
  have := C10_monotone a4 b4 (by omega)
  omega

/-! ## C09 the best licence -/

/-- **C09** for a list of candidates: the first one that is not beaten. -/
theorem C09_merge {ls : List LicInfo} (hne : ls ≠ []) (hd : ∀ l ∈ ls, -2147483648 < l.daysLeft) (out : LicInfo) :
    ∃ pre post, ls = pre ++ mergeLicenses ls out :: post ∧ (∀ y ∈ pre, Better (mergeLicenses ls out) y)
      ∧ ∀ y ∈ post, ¬ Better y (mergeLicenses ls out) := by
  -- the state of the loop: the candidate chosen so far with what was seen before it
  have loop : ∀ (ls : List LicInfo) (days : Int) (best : LicInfo) (pre mid : List LicInfo),
      best.hasExpiry = true → best.daysLeft = days → (∀ y ∈ pre, Better best y) →
      (∀ y ∈ mid, ¬ Better y best ∧ y.hasExpiry = true) →
      ∃ pre' post, pre ++ best :: mid ++ ls = pre' ++ mergeLoop days best ls :: post
        ∧ (∀ y ∈ pre', Better (mergeLoop days best ls) y) ∧ ∀ y ∈ post, ¬ Better y (mergeLoop days best ls) := by
    intro ls
    induction ls with
    | nil => intro days best pre mid _ _ h3 h4; exact ⟨pre, mid, by simp [mergeLoop], h3, fun y hy => (h4 y hy).1⟩
    | cons l ls ih =>
      intro days best pre mid h1 h2 h3 h4
      simp only [mergeLoop]
      have hall : ∀ y ∈ pre ++ best :: mid, y.hasExpiry = true ∧ y.daysLeft ≤ days := by
        intro y hy
        rcases List.mem_append.mp hy with hy | hy
        · obtain ⟨a, b⟩ := h3 y hy
          rcases b with b | b
          · rw [h1] at b; simp at b
          · exact ⟨a, by omega⟩
        · rcases List.mem_cons.mp hy with rfl | hy
          · exact ⟨h1, by omega⟩
          · obtain ⟨a, b⟩ := h4 y hy
            refine ⟨b, ?_⟩
            apply Classical.byContradiction
            intro hlt
            exact a ⟨h1, .inr (by omega)⟩
      by_cases hx : l.hasExpiry = false
      · rw [if_pos hx]
        refine ⟨pre ++ best :: mid, ls, by simp, ?_, ?_⟩
        · intro y hy; exact ⟨(hall y hy).1, .inl hx⟩
        · rintro y _ ⟨hb, _⟩; rw [hx] at hb; simp at hb
      · have hxt : l.hasExpiry = true := by simpa using hx
        rw [if_neg hx]
        by_cases hlt : days < l.daysLeft
        · rw [if_pos hlt]
          obtain ⟨pre', post, g1, g2, g3⟩ := ih l.daysLeft l (pre ++ best :: mid) [] hxt rfl
            (fun y hy => ⟨(hall y hy).1, .inr (by have := (hall y hy).2; omega)⟩) (by simp)
          exact ⟨pre', post, by simpa using g1, g2, g3⟩
        · rw [if_neg hlt]
          obtain ⟨pre', post, g1, g2, g3⟩ := ih days best pre (mid ++ [l]) h1 h2 h3 (by
            intro y hy
            rcases List.mem_append.mp hy with hy | hy
            · exact h4 y hy
            · simp only [List.mem_singleton] at hy; subst hy
              refine ⟨?_, hxt⟩
              rintro ⟨_, hb | hb⟩
              · rw [hxt] at hb; simp at hb
              · omega)
          exact ⟨pre', post, by simpa using g1, g2, g3⟩
  cases ls with
  | nil => exact absurd rfl hne
  | cons l ls =>
    unfold mergeLicenses
    simp only [mergeLoop]
    by_cases hx : l.hasExpiry = false
    · rw [if_pos hx]
      exact ⟨[], ls, rfl, by simp, by rintro y _ ⟨hb, _⟩; rw [hx] at hb; simp at hb⟩
    · rw [if_neg hx, if_pos (hd l (by simp))]
      obtain ⟨pre', post, g1, g2, g3⟩ := loop ls l.daysLeft l [] [] (by simpa using hx) rfl (by simp) (by simp)
      exact ⟨pre', post, by simpa using g1, g2, g3⟩

theorem info_days {w : World} {l : FullLicense} {k k' : Nat} {i : LicInfo} (h : toLicenseInfo w l k = .ok (i, k')) :
    0 ≤ i.daysLeft := by
  simp only [toLicenseInfo] at h
  split at h
  · obtain ⟨t, ht, h⟩ := Outcome.bind_eq_ok.mp h
    split at h
    · simp only [Outcome.pure_eq, Outcome.ok.injEq, Prod.mk.injEq] at h
      obtain ⟨rfl, _⟩ := h
      dsimp only; omega
    · simp at h
  · simp only [Outcome.pure_eq, Outcome.ok.injEq, Prod.mk.injEq] at h
    obtain ⟨rfl, _⟩ := h
    dsimp only; omega

theorem judged_days {cfg : Config} {w : World} {caller : Option Caller} {k k' : Nat} {ls : List FullLicense}
    {oks errs : List LicInfo} (h : Judged cfg w caller k ls k' oks errs) :
    (∀ i ∈ oks, 0 ≤ i.daysLeft) ∧ ∀ i ∈ errs, 0 ≤ i.daysLeft := by
  induction h with
  | nil => simp
  | ok h1 _ _ ih =>
    refine ⟨?_, ih.2⟩
    intro x hx
    rcases List.mem_cons.mp hx with rfl | hx
    · exact info_days h1
    · exact ih.1 x hx
  | bad h1 _ _ _ _ ih =>
    refine ⟨ih.1, ?_⟩
    intro x hx
    rcases List.mem_cons.mp hx with rfl | hx
    · exact info_days h1
    · exact ih.2 x hx

/-- Where the texts of the accepted and of the other licences are, when the clock stands still. -/
theorem judged_located {cfg : Config} {w : World} {caller : Option Caller} {now : Int} (hclock : ∀ k, w.clock k = now) {f : Bytes}
    {ps : List (Bytes × Bytes)} {ls : List FullLicense} (hl : LicencesOf f ps ls) :
    ∀ {k k' : Nat} {oks errs : List LicInfo}, Judged cfg w caller k ls k' oks errs →
    (∀ pre i post, oks = pre ++ i :: post → ∃ p1 src text p2, ps = p1 ++ (src, text) :: p2
      ∧ Grants cfg w (magicOf caller) f text now ∧ Describes w f text now i
      ∧ (∀ q ∈ p1, Grants cfg w (magicOf caller) f q.2 now → ∀ x, Describes w f q.2 now x → x ∈ pre)
      ∧ (∀ q ∈ p2, Grants cfg w (magicOf caller) f q.2 now → ∀ x, Describes w f q.2 now x → x ∈ post))
    ∧ (oks = [] → ∀ pre i post, errs = pre ++ i :: post → ∃ p1 src text p2, ps = p1 ++ (src, text) :: p2
      ∧ Complete f text ∧ Describes w f text now i
      ∧ (∀ q ∈ p1, Complete f q.2 → ∀ x, Describes w f q.2 now x → x ∈ pre)
      ∧ (∀ q ∈ p2, Complete f q.2 → ∀ x, Describes w f q.2 now x → x ∈ post))
    ∧ (∀ q ∈ ps, Grants cfg w (magicOf caller) f q.2 now → ∀ x, Describes w f q.2 now x → x ∈ oks)
    ∧ (oks = [] → ∀ q ∈ ps, Complete f q.2 → ∀ x, Describes w f q.2 now x → x ∈ errs) := by
  induction hl with
  | nil =>
    intro k k' oks errs h
    cases h
    simp
  | @skip src text ps ls hc _ ih =>
    intro k k' oks errs h
    obtain ⟨i1, i2, i3, i4⟩ := ih h
    refine ⟨?_, ?_, ?_, ?_⟩
    · intro pre i post ho
      obtain ⟨p1, s, t, p2, g1, g2, g3, g4, g5⟩ := i1 pre i post ho
      refine ⟨(src, text) :: p1, s, t, p2, by rw [g1]; rfl, g2, g3, ?_, g5⟩
      intro q hq hg
      rcases List.mem_cons.mp hq with rfl | hq
      · exact absurd hg.complete hc
      · exact g4 q hq hg
    · intro ho pre i post he
      obtain ⟨p1, s, t, p2, g1, g2, g3, g4, g5⟩ := i2 ho pre i post he
      refine ⟨(src, text) :: p1, s, t, p2, by rw [g1]; rfl, g2, g3, ?_, g5⟩
      intro q hq hg
      rcases List.mem_cons.mp hq with rfl | hq
      · exact absurd hg hc
      · exact g4 q hq hg
    · intro q hq hg
      rcases List.mem_cons.mp hq with rfl | hq
      · exact absurd hg.complete hc
      · exact i3 q hq hg
    · intro ho q hq hg
      rcases List.mem_cons.mp hq with rfl | hq
      · exact absurd hg hc
      · exact i4 ho q hq hg
  | @take src text ps l ls hlic _ ih =>
    intro k k' oks errs h
    cases h with
    | @ok _ _ _ k1 _ oks' _ i0 h1 h2 h3 =>
      obtain ⟨i1, i2, i3, i4⟩ := ih h3
      have hd := describes_of_info hlic h1
      rw [hclock] at hd h2
      have hg := (accepted_iff hlic now).mp h2
      refine ⟨?_, by simp, ?_, by simp⟩
      · intro pre i post ho
        cases pre with
        | nil =>
          simp only [List.nil_append, List.cons.injEq] at ho
          obtain ⟨rfl, rfl⟩ := ho
          exact ⟨[], src, text, ps, rfl, hg, hd, by simp, i3⟩
        | cons a pre =>
          simp only [List.cons_append, List.cons.injEq] at ho
          obtain ⟨rfl, ho⟩ := ho
          obtain ⟨p1, s, t, p2, g1, g2, g3, g4, g5⟩ := i1 pre i post ho
          refine ⟨(src, text) :: p1, s, t, p2, by rw [g1]; rfl, g2, g3, ?_, g5⟩
          intro q hq hg x hx
          rcases List.mem_cons.mp hq with rfl | hq
          · rw [describes_unique hx hd]; simp
          · exact List.mem_cons_of_mem _ (g4 q hq hg x hx)
      · intro q hq hg x hx
        rcases List.mem_cons.mp hq with rfl | hq
        · rw [describes_unique hx hd]; simp
        · exact List.mem_cons_of_mem _ (i3 q hq hg x hx)
    | @bad _ _ _ k1 k2 _ _ errs' i0 h1 _ _ h2 h3 =>
      obtain ⟨i1, i2, i3, i4⟩ := ih h3
      have hd := describes_of_info hlic h1
      rw [hclock] at hd h2
      have hg : ¬ Grants cfg w (magicOf caller) f text now := fun h => h2 ((accepted_iff hlic now).mpr h)
      have hcomp := complete_of_licence hlic
      refine ⟨?_, ?_, ?_, ?_⟩
      · intro pre i post ho
        obtain ⟨p1, s, t, p2, g1, g2, g3, g4, g5⟩ := i1 pre i post ho
        refine ⟨(src, text) :: p1, s, t, p2, by rw [g1]; rfl, g2, g3, ?_, g5⟩
        intro q hq hg'
        rcases List.mem_cons.mp hq with rfl | hq
        · exact absurd hg' hg
        · exact g4 q hq hg'
      · intro ho pre i post he
        cases pre with
        | nil =>
          simp only [List.nil_append, List.cons.injEq] at he
          obtain ⟨rfl, rfl⟩ := he
          exact ⟨[], src, text, ps, rfl, hcomp, hd, by simp, i4 ho⟩
        | cons a pre =>
          simp only [List.cons_append, List.cons.injEq] at he
          obtain ⟨rfl, he⟩ := he
          obtain ⟨p1, s, t, p2, g1, g2, g3, g4, g5⟩ := i2 ho pre i post he
          refine ⟨(src, text) :: p1, s, t, p2, by rw [g1]; rfl, g2, g3, ?_, g5⟩
          intro q hq hg x hx
          rcases List.mem_cons.mp hq with rfl | hq
          · rw [describes_unique hx hd]; simp
          · exact List.mem_cons_of_mem _ (g4 q hq hg x hx)
      · intro q hq hg'
        rcases List.mem_cons.mp hq with rfl | hq
        · exact absurd hg' hg
        · exact i3 q hq hg'
      · intro ho q hq hg x hx
        rcases List.mem_cons.mp hq with rfl | hq
        · rw [describes_unique hx hd]; simp
        · exact List.mem_cons_of_mem _ (i4 ho q hq hg x hx)

/-- **C09**: during one second, a successful call hands back the description of a licence that grants the feature, of
    the first (in the order of the search) that no other granting licence beats. -/
theorem C09_best_granting {cfg : Config} {w : World} {caller : Option Caller} {hint : Option LicenseLocation} {o0 : LicInfo}
    {res : AcquireResult} (h : acquire cfg w caller hint (some o0) = .ok res) (hok : res.ret = .licenseOk) {f : Bytes}
    (hf : FeatureIs cfg caller f) {now : Int} (hclock : ∀ k, w.clock k = now) :
    ∃ o p1 src text p2, res.out = some o ∧ located cfg w hint = p1 ++ (src, text) :: p2
      ∧ Grants cfg w (magicOf caller) f text now ∧ Describes w f text now o.info
      ∧ (∀ q ∈ p1, Grants cfg w (magicOf caller) f q.2 now → ∀ x, Describes w f q.2 now x → Better o.info x)
      ∧ (∀ q ∈ p2, Grants cfg w (magicOf caller) f q.2 now → ∀ x, Describes w f q.2 now x → ¬ Better x o.info) := by
  obtain ⟨f', r, lics, es, hf', hr, hes, hcases, _⟩ := acquire_cases h
  have := featureIs_unique hf hf'; subst this
  have hlo := (licencesOf_located hes).1
  rcases hcases with ⟨_, _, href, _⟩ | ⟨_, vs, es', oks, errs, r1, _, hloop, ⟨_, hne, _, _, _, hout⟩ | ⟨_, _, href, _⟩⟩
  · have := (refused_failure href).1; rw [hok] at this; simp [IsFailure, stage] at this
  · have hj := judgeLoop_judged hloop
    cases ho : res.out with
    | none => rw [ho] at hout; simp at hout
    | some o =>
      rw [ho] at hout; simp only [Option.map_some, Option.some.injEq] at hout
      obtain ⟨pre, post, g1, g2, g3⟩ := C09_merge hne (fun l hl => by have := (judged_days hj).1 l hl; omega) o0
      rw [← hout] at g1 g2 g3
      obtain ⟨p1, s, t, p2, k1, k2, k3, k4, k5⟩ := (judged_located hclock hlo hj).1 pre o.info post g1
      exact ⟨o, p1, s, t, p2, rfl, k1, k2, k3, fun q hq hg x hx => g2 x (k4 q hq hg x hx),
        fun q hq hg x hx => g3 x (k5 q hq hg x hx)⟩
  · have := (refused_failure href).1; rw [hok] at this; simp [IsFailure, stage] at this

/-- **C09** for refused calls: if some licence was checked, the first unbeaten one of the licences checked is described
    (which is not necessarily the one whose failure is reported); otherwise the expiry date and the expiry flag are
    those the caller passed in. -/
theorem C09_best_refused {cfg : Config} {w : World} {caller : Option Caller} {hint : Option LicenseLocation} {o0 : LicInfo}
    {res : AcquireResult} (h : acquire cfg w caller hint (some o0) = .ok res) (hne : res.ret ≠ .licenseOk) {f : Bytes}
    (hf : FeatureIs cfg caller f) {now : Int} (hclock : ∀ k, w.clock k = now) :
    ∃ o, res.out = some o ∧
      ((∃ p1 src text p2, located cfg w hint = p1 ++ (src, text) :: p2 ∧ Complete f text ∧ Describes w f text now o.info
        ∧ (∀ q ∈ p1, Complete f q.2 → ∀ x, Describes w f q.2 now x → Better o.info x)
        ∧ (∀ q ∈ p2, Complete f q.2 → ∀ x, Describes w f q.2 now x → ¬ Better x o.info))
      ∨ ((∀ q ∈ located cfg w hint, ¬ Complete f q.2) ∧ o.info.proprietary = some [] ∧ o.info.linkedToPc = false
        ∧ o.info.daysLeft = 0 ∧ o.info.hasExpiry = o0.hasExpiry ∧ o.info.expiryDate = o0.expiryDate)) := by
  obtain ⟨f', r, lics, es, hf', hr, hes, hcases, _⟩ := acquire_cases h
  have := featureIs_unique hf hf'; subst this
  have hlo := (licencesOf_located hes).1
  rcases hcases with ⟨hnil, _, _, hout⟩ | ⟨_, vs, es', oks, errs, r1, _, hloop, ⟨_, _, hok, _⟩ | ⟨_, hoks, _, hout⟩⟩
  · cases ho : res.out with
    | none => rw [ho] at hout; simp at hout
    | some o =>
      rw [ho] at hout; simp only [Option.map_some, Option.some.injEq] at hout
      refine ⟨o, rfl, .inr ⟨?_, by rw [hout]; rfl, by rw [hout]; rfl, by rw [hout]; rfl, by rw [hout]; rfl, by rw [hout]; rfl⟩⟩
      have : ∀ {ps ls}, LicencesOf f ps ls → ls = [] → ∀ q ∈ ps, ¬ Complete f q.2 := by
        intro ps ls hl
        induction hl with
        | nil => simp
        | skip h1 _ ih =>
          intro hn q hq
          rcases List.mem_cons.mp hq with rfl | hq
          · exact h1
          · exact ih hn q hq
        | take => simp
      exact this hlo hnil
  · exact absurd hok hne
  · have hj := judgeLoop_judged hloop
    cases ho : res.out with
    | none => rw [ho] at hout; simp at hout
    | some o =>
      rw [ho] at hout; simp only [Option.map_some, Option.some.injEq] at hout
      have hene : errs ≠ [] := by
        have := judged_length hj
        rw [hoks] at this
        intro he
        rw [he] at this
        simp at this
        rename_i hl0 _ _ _
        exact hl0 (List.length_eq_zero_iff.mp this.symm)
      obtain ⟨pre, post, g1, g2, g3⟩ := C09_merge hene (fun l hl => by have := (judged_days hj).2 l hl; omega) o0
      rw [← hout] at g1 g2 g3
      obtain ⟨p1, s, t, p2, k1, k2, k3, k4, k5⟩ := (judged_located hclock hlo hj).2.1 hoks pre o.info post g1
      exact ⟨o, rfl, .inl ⟨p1, s, t, p2, k1, k2, k3, fun q hq hg x hx => g2 x (k4 q hq hg x hx),
        fun q hq hg x hx => g3 x (k5 q hq hg x hx)⟩⟩

/-- Two licences listed by the caller, the second expires later. -/
def twoWorld : World :=
  { sampleWorld sampleNow with
    verify := fun _ _ => .ok true
    probe := fun p => p = b!"/a" || p = b!"/b"
    read := fun p => if p = b!"/a" then some (b!"[TEST]\nlic_ver = 200\nvalid-to = 20270101\nsig = QUJD\n")
      else if p = b!"/b" then some (b!"[TEST]\nlic_ver = 200\nvalid-to = 20290101\nsig = QUJD\n") else none }

example : (resOf (acquire sampleConfig twoWorld (some sampleCaller) (some ⟨0, b!"/a;/c;/b" ++ [0]⟩) (some ⟨[], 0, false, false, none⟩))).map
      (fun r => (r.ret, r.out.map (·.info.expiryDate)))
    = some (.licenseOk, some (b!"20290101")) := by
  decide +kernel

/-! ## C39 order of the search -/

theorem judge_no_read {cfg : Config} {w : World} {K : Nat} {ls : List FullLicense} {vs : List Bool} {es : List Entry}
    (h : JudgeEntries cfg w K ls vs es) : readRefs es = [] := by
  induction h with
  | nil => rfl
  | unsigned _ _ ih =>
    rw [show ∀ (x : Entry) (xs : List Entry), x :: xs = [x] ++ xs from fun _ _ => rfl, readRefs_append, ih]; rfl
  | @signed l ls v vs es es' j _ _ hle _ ih =>
    have : readRefs es = [] := by
      cases hle with
      | magic => rfl
      | expired => rfl
      | early => rfl
      | client _ k2 => rcases C28_two_answers _ _ _ k2 with rfl | rfl <;> rfl
      | nothing => rfl
    rw [List.cons_append, show ∀ (x : Entry) (xs : List Entry), x :: xs = [x] ++ xs from fun _ _ => rfl, readRefs_append,
      readRefs_append, ih, this]
    rfl

/-- **C39**: the texts are read in the order near the executable - LICENSE_LOCATION - LICENSE_DATA - caller, the files in
    the order they are listed and as often as they are listed; each read records exactly one PRODUCT_FOUND or
    PRODUCT_NOT_LICENSED event under its reference. -/
theorem C39_read_in_order {cfg : Config} {w : World} {caller : Option Caller} {hint : Option LicenseLocation}
    {out : Option LicInfo} {res : AcquireResult} (h : acquire cfg w caller hint out = .ok res) :
    (res.registry.logs.filter fun e => e.type = .productFound ∨ e.type = .productNotLicensed).map Event.ref
    = (located cfg w hint).map fun p => (p.1.takeWhile (· ≠ 0)).take (pathRoom w.platform) := by
  obtain ⟨f, _, _, hf, _⟩ := acquire_split h
  obtain ⟨r, lics, es, es', vs, hr, hes, hje, hsame, _⟩ := acquire_log h hf
  have h1 := (licencesOf_located hes).2
  have h2 := judge_no_read hje
  have key : ∀ {l l' : List Event}, SameButSeverity l l' →
      (l'.filter fun e => e.type = .productFound ∨ e.type = .productNotLicensed).map Event.ref
      = (l.filter fun e => e.type = .productFound ∨ e.type = .productNotLicensed).map Event.ref := by
    intro l
    induction l with
    | nil => intro l' h; cases l' <;> simp [SameButSeverity] at h ⊢
    | cons a l ih =>
      intro l' h
      cases l' with
      | nil => simp [SameButSeverity] at h
      | cons b l' =>
        simp only [SameButSeverity, List.map_cons, List.cons.injEq, Prod.mk.injEq] at h
        have := ih (l' := l') h.2
        rw [List.filter_cons, List.filter_cons]
        have ht : a.type = b.type := h.1.1
        have hr : a.ref = b.ref := h.1.2.1
        rw [ht]
        split
        · rw [List.map_cons, List.map_cons, this, hr]
        · exact this
  rw [key hsame]
  have conv : ∀ (xs : List Entry), (∀ x ∈ xs, (x.1 = .productFound ∨ x.1 = .productNotLicensed) → x.2.1 ≠ none) →
      ((xs.map (Entry.event w.platform)).filter fun e => e.type = .productFound ∨ e.type = .productNotLicensed).map Event.ref
      = (readRefs xs).map fun o => match o with
        | some p => (p.takeWhile (· ≠ 0)).take (pathRoom w.platform)
        | none => [] := by
    intro xs
    induction xs with
    | nil => simp [readRefs]
    | cons x xs ih =>
      intro hx
      have ih := ih (fun y hy => hx y (by simp [hy]))
      obtain ⟨t, a, b⟩ := x
      have hx := hx (t, a, b) (by simp)
      simp only [readRefs, List.map_cons, List.filter_cons] at ih ⊢
      by_cases ht : t = .productFound ∨ t = .productNotLicensed
      · have : decide (((Entry.event w.platform (t, a, b)).type = .productFound) ∨ ((Entry.event w.platform (t, a, b)).type = .productNotLicensed)) = true :=
          decide_eq_true ht
        rw [if_pos this, if_pos (by simpa using ht), List.map_cons, List.map_cons, List.map_cons, ih]
        cases a with
        | none => exact absurd rfl (hx ht)
        | some a =>
          dsimp only
          rw [← maxPath_eq]; rfl
      · have : ¬ decide (((Entry.event w.platform (t, a, b)).type = .productFound) ∨ ((Entry.event w.platform (t, a, b)).type = .productNotLicensed)) = true := by
          rw [decide_eq_true_iff]; exact ht
        rw [if_neg this, if_neg (by simpa using ht), ih]
  rw [conv]
  · rw [readRefs_append, h1, h2]
    simp
  · intro x hx ht hn
    have : (none : Option Bytes) ∈ readRefs (es ++ es') := by
      unfold readRefs
      refine List.mem_map.mpr ⟨x, List.mem_filter.mpr ⟨hx, by simpa using ht⟩, hn⟩
    rw [readRefs_append, h1, h2] at this
    simp at this

/-- **C39**: of the listed files the existing ones are kept, in order and with repetitions; for each listed file one
    SPECIFIED event and one FOUND or FILE_NOT_FOUND event is recorded, in this order. -/
theorem C39_filter_existing {w : World} {extra : Bytes} {ps fs : List Bytes} {r r' : Registry}
    (h : filterExistingFiles w extra r ps = .ok (r', fs)) :
    fs = ps.filter w.probe ∧
    r'.logs = r.logs ++ ps.flatMap fun p =>
      [{ severity := .info, type := .specified, ref := (p.takeWhile (· ≠ 0)).take (pathRoom r.platform),
         info := (extra.takeWhile (· ≠ 0)).take 255 },
       { severity := if w.probe p then .info else .warn, type := if w.probe p then .found else .fileNotFound,
         ref := (p.takeWhile (· ≠ 0)).take (pathRoom r.platform), info := (extra.takeWhile (· ≠ 0)).take 255 }] := by
  refine ⟨filterExistingFiles_mem h, ?_⟩
  rw [(filterExistingFiles_adds h).logs]
  congr 1
  simp only [fileEntries, List.map_flatMap]
  congr 1
  funext p
  simp only [List.map_cons, List.map_nil]
  rw [← maxPath_eq]
  cases w.probe p <;> rfl

example : (resOf (acquire sampleConfig twoWorld (some sampleCaller) (some ⟨0, b!"/b;/c;/a;/b" ++ [0]⟩) none)).map
      (fun r => (r.registry.logs.filter fun e => e.type = .productFound ∨ e.type = .productNotLicensed).map Event.ref)
    = some [b!"/b", b!"/a", b!"/b"] := by
  decide +kernel

end Licensecc
