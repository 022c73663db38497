import Verif.Props.Info
/-!
# C09 while the clock runs

`C09_best_granting` and `C09_best_refused` (Props/Info) speak about calls during which the clock stands still.  Here it shows anything: every
licence has two readings of the clock of its own, the one its days are counted from and the one it is checked against.
-/
namespace Licensecc
open Licensecc.Spec

/-- The texts that are found with the readings of the clock (by number) for each: the one the days left are counted from and the one it is
    checked against.  The readings are taken in the order of the search. -/
structure Spec.Timed (texts : List (Bytes × Bytes)) (readings : Nat) (qs : List ((Bytes × Bytes) × (Nat × Nat))) : Prop where
  texts : qs.map (·.1) = texts
  order : qs.Pairwise fun a b => a.2.2 ≤ b.2.1
  each : ∀ q ∈ qs, q.2.1 ≤ q.2.2 ∧ q.2.2 ≤ readings

theorem judged_le {cfg : Config} {w : World} {caller : Option Caller} {k k' : Nat} {ls : List FullLicense} {oks errs : List LicInfo}
    (h : Judged cfg w caller k ls k' oks errs) : k ≤ k' := by
  have step : ∀ {l : FullLicense} {k k1 : Nat} {i : LicInfo}, toLicenseInfo w l k = .ok (i, k1) → k ≤ k1 := by
    intro l k k1 i h
    simp only [toLicenseInfo] at h
    split at h
    · obtain ⟨t, _, h⟩ := Outcome.bind_eq_ok.mp h
      split at h
      · simp only [Outcome.pure_eq, Outcome.ok.injEq, Prod.mk.injEq] at h; omega
      · simp at h
    · simp only [Outcome.pure_eq, Outcome.ok.injEq, Prod.mk.injEq] at h; omega
  induction h with
  | nil => omega
  | ok h1 _ _ ih => have := step h1; omega
  | bad h1 h2 _ _ _ ih => have := step h1; omega

theorem info_le {w : World} {l : FullLicense} {k k1 : Nat} {i : LicInfo} (h : toLicenseInfo w l k = .ok (i, k1)) : k ≤ k1 := by
  simp only [toLicenseInfo] at h
  split at h
  · obtain ⟨t, _, h⟩ := Outcome.bind_eq_ok.mp h
    split at h
    · simp only [Outcome.pure_eq, Outcome.ok.injEq, Prod.mk.injEq] at h; omega
    · simp at h
  · simp only [Outcome.pure_eq, Outcome.ok.injEq, Prod.mk.injEq] at h; omega

/-- Where the texts of the accepted and of the other licences are, with the readings of the clock. -/
theorem judged_timed {cfg : Config} {w : World} {caller : Option Caller} {f : Bytes}
    {ps : List (Bytes × Bytes)} {ls : List FullLicense} (hl : LicencesOf f ps ls) :
    ∀ {k k' : Nat} {oks errs : List LicInfo}, Judged cfg w caller k ls k' oks errs →
    ∃ qs : List ((Bytes × Bytes) × (Nat × Nat)), qs.map (·.1) = ps ∧ qs.Pairwise (fun a b => a.2.2 ≤ b.2.1)
    ∧ (∀ q ∈ qs, k ≤ q.2.1 ∧ q.2.1 ≤ q.2.2 ∧ q.2.2 ≤ k')
    ∧ (∀ q ∈ qs, Complete f q.1.2 → ∃ x, Describes w f q.1.2 (w.clock q.2.1) x)
    ∧ (∀ pre i post, oks = pre ++ i :: post → ∃ p1 q p2, qs = p1 ++ q :: p2
      ∧ Grants cfg w (magicOf caller) f q.1.2 (w.clock q.2.2) ∧ Describes w f q.1.2 (w.clock q.2.1) i
      ∧ (∀ q ∈ p1, Grants cfg w (magicOf caller) f q.1.2 (w.clock q.2.2) → ∀ x, Describes w f q.1.2 (w.clock q.2.1) x → x ∈ pre)
      ∧ (∀ q ∈ p2, Grants cfg w (magicOf caller) f q.1.2 (w.clock q.2.2) → ∀ x, Describes w f q.1.2 (w.clock q.2.1) x → x ∈ post))
    ∧ (oks = [] → ∀ pre i post, errs = pre ++ i :: post → ∃ p1 q p2, qs = p1 ++ q :: p2
      ∧ Complete f q.1.2 ∧ Describes w f q.1.2 (w.clock q.2.1) i
      ∧ (∀ q ∈ p1, Complete f q.1.2 → ∀ x, Describes w f q.1.2 (w.clock q.2.1) x → x ∈ pre)
      ∧ (∀ q ∈ p2, Complete f q.1.2 → ∀ x, Describes w f q.1.2 (w.clock q.2.1) x → x ∈ post))
    ∧ (∀ q ∈ qs, Grants cfg w (magicOf caller) f q.1.2 (w.clock q.2.2) → ∀ x, Describes w f q.1.2 (w.clock q.2.1) x → x ∈ oks)
    ∧ (oks = [] → ∀ q ∈ qs, Complete f q.1.2 → ∀ x, Describes w f q.1.2 (w.clock q.2.1) x → x ∈ errs) := by
  induction hl with
  | nil =>
    intro k k' oks errs h
    cases h
    exact ⟨[], by simp⟩
  | @skip src text ps ls hc _ ih =>
    intro k k' oks errs h
    obtain ⟨qs, e1, e2, e3, e4, i1, i2, i3, i4⟩ := ih h
    have hk := judged_le h
    refine ⟨((src, text), (k, k)) :: qs, by simp [e1], ?_, ?_, ?_, ?_, ?_, ?_, ?_⟩
    · exact List.pairwise_cons.mpr ⟨fun q hq => (e3 q hq).1, e2⟩
    · intro q hq
      rcases List.mem_cons.mp hq with rfl | hq
      · exact ⟨Nat.le_refl _, Nat.le_refl _, hk⟩
      · exact e3 q hq
    · intro q hq hg
      rcases List.mem_cons.mp hq with rfl | hq
      · exact absurd hg hc
      · exact e4 q hq hg
    · intro pre i post ho
      obtain ⟨p1, q0, p2, g1, g2, g3, g4, g5⟩ := i1 pre i post ho
      refine ⟨((src, text), (k, k)) :: p1, q0, p2, by rw [g1]; rfl, g2, g3, ?_, g5⟩
      intro q hq hg
      rcases List.mem_cons.mp hq with rfl | hq
      · exact absurd hg.complete hc
      · exact g4 q hq hg
    · intro ho pre i post he
      obtain ⟨p1, q0, p2, g1, g2, g3, g4, g5⟩ := i2 ho pre i post he
      refine ⟨((src, text), (k, k)) :: p1, q0, p2, by rw [g1]; rfl, g2, g3, ?_, g5⟩
      intro q hq hg
      rcases List.mem_cons.mp hq with rfl | hq
      · exact absurd hg hc
      · exact g4 q hq hg
    · intro q hq hg
      rcases List.mem_cons.mp hq with rfl | hq
      · exact absurd hg.complete hc
      · exact i3 q hq hg
    · intro ho q hq hg
      rcases List.mem_cons.mp hq with rfl | hq
      · exact absurd hg hc
      · exact i4 ho q hq hg
  | @take src text ps l ls hlic _ ih =>
    intro k k' oks errs h
    have hcomp := complete_of_licence hlic
    cases h with
    | @ok _ _ _ k1 _ oks' _ i0 h1 h2 h3 =>
      obtain ⟨qs, e1, e2, e3, e4, i1, i2, i3, i4⟩ := ih h3
      have hd := describes_of_info hlic h1
      have hg := (accepted_iff hlic _).mp h2
      have hk := judged_le h3
      have hk1 := info_le h1
      refine ⟨((src, text), (k, k1)) :: qs, by simp [e1], ?_, ?_, ?_, ?_, by simp, ?_, by simp⟩
      · exact List.pairwise_cons.mpr ⟨fun q hq => by have := (e3 q hq).1; dsimp only; omega, e2⟩
      · intro q hq
        rcases List.mem_cons.mp hq with rfl | hq
        · exact ⟨Nat.le_refl _, hk1, by dsimp only; omega⟩
        · have := e3 q hq; omega
      · intro q hq hg
        rcases List.mem_cons.mp hq with rfl | hq
        · exact ⟨i0, hd⟩
        · exact e4 q hq hg
      · intro pre i post ho
        cases pre with
        | nil =>
          simp only [List.nil_append, List.cons.injEq] at ho
          obtain ⟨rfl, rfl⟩ := ho
          exact ⟨[], ((src, text), (k, k1)), qs, rfl, hg, hd, by simp, i3⟩
        | cons a pre =>
          simp only [List.cons_append, List.cons.injEq] at ho
          obtain ⟨rfl, ho⟩ := ho
          obtain ⟨p1, q0, p2, g1, g2, g3, g4, g5⟩ := i1 pre i post ho
          refine ⟨((src, text), (k, k1)) :: p1, q0, p2, by rw [g1]; rfl, g2, g3, ?_, g5⟩
          intro q hq hg x hx
          rcases List.mem_cons.mp hq with rfl | hq
          · rw [describes_unique hx hd]; simp
          · exact List.mem_cons_of_mem _ (g4 q hq hg x hx)
      · intro q hq hg x hx
        rcases List.mem_cons.mp hq with rfl | hq
        · rw [describes_unique hx hd]; simp
        · exact List.mem_cons_of_mem _ (i3 q hq hg x hx)
    | @bad _ _ _ k1 k2 _ _ errs' i0 h1 hle1 hle2 h2 h3 =>
      obtain ⟨qs, e1, e2, e3, e4, i1, i2, i3, i4⟩ := ih h3
      have hd := describes_of_info hlic h1
      have hg : ¬ Grants cfg w (magicOf caller) f text (w.clock k1) := fun h => h2 ((accepted_iff hlic _).mpr h)
      have hk := judged_le h3
      have hk1 := info_le h1
      refine ⟨((src, text), (k, k1)) :: qs, by simp [e1], ?_, ?_, ?_, ?_, ?_, ?_, ?_⟩
      · exact List.pairwise_cons.mpr ⟨fun q hq => by have := (e3 q hq).1; dsimp only; omega, e2⟩
      · intro q hq
        rcases List.mem_cons.mp hq with rfl | hq
        · exact ⟨Nat.le_refl _, hk1, by dsimp only; omega⟩
        · have := e3 q hq; omega
      · intro q hq hg
        rcases List.mem_cons.mp hq with rfl | hq
        · exact ⟨i0, hd⟩
        · exact e4 q hq hg
      · intro pre i post ho
        obtain ⟨p1, q0, p2, g1, g2, g3, g4, g5⟩ := i1 pre i post ho
        refine ⟨((src, text), (k, k1)) :: p1, q0, p2, by rw [g1]; rfl, g2, g3, ?_, g5⟩
        intro q hq hg'
        rcases List.mem_cons.mp hq with rfl | hq
        · exact absurd hg' hg
        · exact g4 q hq hg'
      · intro ho pre i post he
        cases pre with
        | nil =>
          simp only [List.nil_append, List.cons.injEq] at he
          obtain ⟨rfl, rfl⟩ := he
          exact ⟨[], ((src, text), (k, k1)), qs, rfl, hcomp, hd, by simp, i4 ho⟩
        | cons a pre =>
          simp only [List.cons_append, List.cons.injEq] at he
          obtain ⟨rfl, he⟩ := he
          obtain ⟨p1, q0, p2, g1, g2, g3, g4, g5⟩ := i2 ho pre i post he
          refine ⟨((src, text), (k, k1)) :: p1, q0, p2, by rw [g1]; rfl, g2, g3, ?_, g5⟩
          intro q hq hg x hx
          rcases List.mem_cons.mp hq with rfl | hq
          · rw [describes_unique hx hd]; simp
          · exact List.mem_cons_of_mem _ (g4 q hq hg x hx)
      · intro q hq hg'
        rcases List.mem_cons.mp hq with rfl | hq
        · exact absurd hg' hg
        · exact i3 q hq hg'
      · intro ho q hq hg x hx
        rcases List.mem_cons.mp hq with rfl | hq
        · rw [describes_unique hx hd]; simp
        · exact List.mem_cons_of_mem _ (i4 ho q hq hg x hx)

/-- **C09**, whatever the clock shows during the call: a successful call hands back the description of a licence that grants the feature, of
    the first (in the order of the search) that no other granting licence beats; each is described and checked at its own moment. -/
theorem C09_running_granting {cfg : Config} {w : World} {caller : Option Caller} {hint : Option LicenseLocation} {o0 : LicInfo}
    {res : AcquireResult} (h : acquire cfg w caller hint (some o0) = .ok res) (hok : res.ret = .licenseOk) {f : Bytes}
    (hf : FeatureIs cfg caller f) :
    ∃ o p1 q p2, res.out = some o ∧ Timed (located cfg w hint) res.ticks (p1 ++ q :: p2)
      ∧ Grants cfg w (magicOf caller) f q.1.2 (w.clock q.2.2) ∧ Describes w f q.1.2 (w.clock q.2.1) o.info
      ∧ (∀ q ∈ p1, Grants cfg w (magicOf caller) f q.1.2 (w.clock q.2.2) →
          ∃ x, Describes w f q.1.2 (w.clock q.2.1) x ∧ Better o.info x)
      ∧ (∀ q ∈ p2, Grants cfg w (magicOf caller) f q.1.2 (w.clock q.2.2) →
          ∃ x, Describes w f q.1.2 (w.clock q.2.1) x ∧ ¬ Better x o.info) := by
  obtain ⟨f', r, lics, es, hf', hr, hes, hcases, _⟩ := acquire_cases h
  have := featureIs_unique hf hf'; subst this
  have hlo := (licencesOf_located hes).1
  rcases hcases with ⟨_, _, href, _⟩ | ⟨_, vs, es', oks, errs, r1, _, hloop, ⟨_, hne, _, _, _, hout⟩ | ⟨_, _, href, _⟩⟩
  · have := (refused_failure href).1; rw [hok] at this; simp [IsFailure, stage] at this
  · have hj := judgeLoop_judged hloop
    cases ho : res.out with
    | none => rw [ho] at hout; simp at hout
    | some o =>
      rw [ho] at hout; simp only [Option.map_some, Option.some.injEq] at hout
      obtain ⟨pre, post, g1, g2, g3⟩ := C09_merge hne (fun l hl => by have := (judged_days hj).1 l hl; omega) o0
      rw [← hout] at g1 g2 g3
      obtain ⟨qs, e1, e2, e3, e4, j1, _⟩ := judged_timed hlo hj
      obtain ⟨p1, q, p2, rfl, k2, k3, k4, k5⟩ := j1 pre o.info post g1
      refine ⟨o, p1, q, p2, rfl, ⟨e1, e2, fun q hq => (e3 q hq).2⟩, k2, k3, ?_, ?_⟩
      · intro q hq hg
        obtain ⟨x, hx⟩ := e4 q (by simp [hq]) hg.complete
        exact ⟨x, hx, g2 x (k4 q hq hg x hx)⟩
      · intro q hq hg
        obtain ⟨x, hx⟩ := e4 q (by simp [hq]) hg.complete
        exact ⟨x, hx, g3 x (k5 q hq hg x hx)⟩
  · have := (refused_failure href).1; rw [hok] at this; simp [IsFailure, stage] at this

/-- **C09** for refused calls, whatever the clock shows. -/
theorem C09_running_refused {cfg : Config} {w : World} {caller : Option Caller} {hint : Option LicenseLocation} {o0 : LicInfo}
    {res : AcquireResult} (h : acquire cfg w caller hint (some o0) = .ok res) (hne : res.ret ≠ .licenseOk) {f : Bytes}
    (hf : FeatureIs cfg caller f) (hsome : ∃ p ∈ located cfg w hint, Complete f p.2) :
    ∃ o p1 q p2, res.out = some o ∧ Timed (located cfg w hint) res.ticks (p1 ++ q :: p2)
      ∧ Complete f q.1.2 ∧ Describes w f q.1.2 (w.clock q.2.1) o.info
      ∧ (∀ q ∈ p1, Complete f q.1.2 → ∃ x, Describes w f q.1.2 (w.clock q.2.1) x ∧ Better o.info x)
      ∧ (∀ q ∈ p2, Complete f q.1.2 → ∃ x, Describes w f q.1.2 (w.clock q.2.1) x ∧ ¬ Better x o.info) := by
  obtain ⟨f', r, lics, es, hf', hr, hes, hcases, _⟩ := acquire_cases h
  have := featureIs_unique hf hf'; subst this
  have hlo := (licencesOf_located hes).1
  have hlics : lics ≠ [] := by
    obtain ⟨p, hp, hc⟩ := hsome
    have : ∀ {ps ls}, LicencesOf f ps ls → ls = [] → ∀ q ∈ ps, ¬ Complete f q.2 := by
      intro ps ls hl
      induction hl with
      | nil => simp
      | skip h1 _ ih =>
        intro hn q hq
        rcases List.mem_cons.mp hq with rfl | hq
        · exact h1
        · exact ih hn q hq
      | take => simp
    exact fun hnil => this hlo hnil p hp hc
  rcases hcases with ⟨hnil, _, _, hout⟩ | ⟨_, vs, es', oks, errs, r1, _, hloop, ⟨_, _, hok, _⟩ | ⟨_, hoks, _, hout⟩⟩
  · exact absurd hnil hlics
  · exact absurd hok hne
  · have hj := judgeLoop_judged hloop
    cases ho : res.out with
    | none => rw [ho] at hout; simp at hout
    | some o =>
      rw [ho] at hout; simp only [Option.map_some, Option.some.injEq] at hout
      have hene : errs ≠ [] := by
        have := judged_length hj
        rw [hoks] at this
        intro he
        rw [he] at this
        simp at this
        exact hlics (List.length_eq_zero_iff.mp this.symm)
      obtain ⟨pre, post, g1, g2, g3⟩ := C09_merge hene (fun l hl => by have := (judged_days hj).2 l hl; omega) o0
      rw [← hout] at g1 g2 g3
      obtain ⟨qs, e1, e2, e3, e4, _, j2, _⟩ := judged_timed hlo hj
      obtain ⟨p1, q, p2, rfl, k2, k3, k4, k5⟩ := j2 hoks pre o.info post g1
      refine ⟨o, p1, q, p2, rfl, ⟨e1, e2, fun q hq => (e3 q hq).2⟩, k2, k3, ?_, ?_⟩
      · intro q hq hg
        obtain ⟨x, hx⟩ := e4 q (by simp [hq]) hg
        exact ⟨x, hx, g2 x (k4 q hq hg x hx)⟩
      · intro q hq hg
        obtain ⟨x, hx⟩ := e4 q (by simp [hq]) hg
        exact ⟨x, hx, g3 x (k5 q hq hg x hx)⟩

theorem nearestDays_le {secs secs' n n' : Int} (h : NearestDays secs n) (h' : NearestDays secs' n') (hs : secs ≤ secs' + 86400) :
    max n 0 ≤ max n' 0 + 1 := by
  unfold NearestDays at h h'
  omega

/-- Two descriptions of a licence within a day: at most one day of difference. -/
theorem describes_within {w : World} {f text : Bytes} {t t' : Int} {i i' : LicInfo} (h : Describes w f text t i) (h' : Describes w f text t' i')
    (hle : t' ≤ t + 86400) : i.hasExpiry = i'.hasExpiry ∧ i.daysLeft ≤ i'.daysLeft + 1 := by
  by_cases hd : ∃ d, IsLimit (entriesFor f text) (b!"valid-to") d
  · obtain ⟨d, hd⟩ := hd
    obtain ⟨a1, _, s, n, a3, a4, _, _, a5⟩ := h.expires d hd
    obtain ⟨b1, _, s', n', b3, b4, _, _, b5⟩ := h'.expires d hd
    rw [a3] at b3; simp only [Outcome.ok.injEq] at b3; subst b3
    have := nearestDays_le a4 b4 (by omega)
    exact ⟨by rw [a1, b1], by omega⟩
  · obtain ⟨a1, _, a3⟩ := h.unlimited hd
    obtain ⟨b1, _, b3⟩ := h'.unlimited hd
    exact ⟨by rw [a1, b1], by omega⟩

/-- **C09** for a clock that shows times between `t0` and `t1` during the call, at most a day apart: no licence that is found and grants the feature
    all that time is better than the one reported by more than a day. -/
theorem C09_running_day {cfg : Config} {w : World} {caller : Option Caller} {hint : Option LicenseLocation} {o0 : LicInfo}
    {res : AcquireResult} (h : acquire cfg w caller hint (some o0) = .ok res) (hok : res.ret = .licenseOk) {f : Bytes}
    (hf : FeatureIs cfg caller f) {t0 t1 : Int} (hclock : ∀ k ≤ res.ticks, t0 ≤ w.clock k ∧ w.clock k ≤ t1) (hday : t1 ≤ t0 + 86400)
    {p : Bytes × Bytes} (hp : p ∈ located cfg w hint) (hg : ∀ t, t0 ≤ t → t ≤ t1 → Grants cfg w (magicOf caller) f p.2 t)
    {now : Int} (hnow : t0 ≤ now ∧ now ≤ t1) {x : LicInfo} (hx : Describes w f p.2 now x) :
    ∃ o, res.out = some o ∧ (o.info.hasExpiry = false ∨ x.hasExpiry = true ∧ x.daysLeft ≤ o.info.daysLeft + 1) := by
  obtain ⟨o, p1, q, p2, ho, ht, hgq, hdq, h1, h2⟩ := C09_running_granting h hok hf
  refine ⟨o, ho, ?_⟩
  have hall : ∀ r ∈ p1 ++ q :: p2, (t0 ≤ w.clock r.2.1 ∧ w.clock r.2.1 ≤ t1) ∧ (t0 ≤ w.clock r.2.2 ∧ w.clock r.2.2 ≤ t1) := by
    intro r hr
    have := ht.each r hr
    exact ⟨hclock _ (by omega), hclock _ this.2⟩
  rw [← ht.texts] at hp
  obtain ⟨r, hr, rfl⟩ := List.mem_map.mp hp
  obtain ⟨c1, c2⟩ := hall r hr
  have hgr := hg _ c2.1 c2.2
  -- what is reported is at least as good as this licence at its own moment
  have key : ∃ y, Describes w f r.1.2 (w.clock r.2.1) y ∧ (o.info.hasExpiry = false ∨ y.hasExpiry = true ∧ y.daysLeft ≤ o.info.daysLeft) := by
    rcases List.mem_append.mp hr with hr | hr
    · obtain ⟨y, hy, b1, b2⟩ := h1 r hr hgr
      refine ⟨y, hy, ?_⟩
      rcases b2 with b2 | b2
      · exact .inl b2
      · exact .inr ⟨b1, by omega⟩
    · rcases List.mem_cons.mp hr with rfl | hr
      · refine ⟨o.info, hdq, ?_⟩
        cases hx : o.info.hasExpiry
        · exact .inl rfl
        · exact .inr ⟨rfl, by omega⟩
      · obtain ⟨y, hy, hb⟩ := h2 r hr hgr
        refine ⟨y, hy, ?_⟩
        cases hx : o.info.hasExpiry
        · exact .inl rfl
        · right
          cases hyx : y.hasExpiry
          · exact absurd ⟨hx, .inl hyx⟩ hb
          · refine ⟨rfl, ?_⟩
            apply Classical.byContradiction
            intro hlt
            exact hb ⟨hx, .inr (by omega)⟩
  obtain ⟨y, hy, hk⟩ := key
  have hw := describes_within hx hy (by omega)
  rcases hk with hk | ⟨k1, k2⟩
  · exact .inl hk
  · exact .inr ⟨by rw [hw.1]; exact k1, by omega⟩

/-- A clock that is set back by ten days after the first licence has been looked at: `/a` and `/b` expire on the same day, but `/b` has ten days more. -/
def backWorld : World :=
  { sampleWorld sampleNow with
    verify := fun _ _ => .ok true
    clock := fun k => if k < 2 then sampleNow else sampleNow - 864000
    probe := fun p => p = b!"/a" || p = b!"/b"
    read := fun p => if p = b!"/a" then some (b!"[TEST]\nlic_ver = 200\nvalid-to = 20270101\nsig = QUJD\n")
      else if p = b!"/b" then some (b!"[TEST]\nlic_ver = 200\nvalid-to = 20270101\nextra-data = b\nsig = QUJD\n") else none }

example : (resOf (acquire sampleConfig backWorld (some sampleCaller) (some ⟨0, b!"/a;/c;/b" ++ [0]⟩) (some ⟨[], 0, false, false, none⟩))).map
      (fun r => (r.ret, r.ticks, r.out.map (·.info.proprietary)))
    = some (.licenseOk, 4, some (some (b!"b"))) := by
  decide +kernel

/-- While the clock runs through half a day, the first of them is reported. -/
example : (resOf (acquire sampleConfig { backWorld with clock := fun k => sampleNow + 14400 * k } (some sampleCaller) (some ⟨0, b!"/a;/c;/b" ++ [0]⟩)
      (some ⟨[], 0, false, false, none⟩))).map (fun r => (r.ret, r.ticks, r.out.map (·.info.proprietary)))
    = some (.licenseOk, 4, some none) := by
  decide +kernel

end Licensecc
