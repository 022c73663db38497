import Verif.Lemmas.Events
/-!
# Lemmas about acquire_license
-/
namespace Licensecc
open Licensecc.Spec

theorem textIn_nil16 {mem f : Bytes} (h : TextIn mem 16 f) (h' : TextIn mem 16 []) : f = [] := textIn_unique h h'

theorem featureOf_iff {cfg : Config} {caller : Option Caller} {f : Bytes} :
    featureOf cfg caller = .ok f ↔ FeatureIs cfg caller f := by
  cases caller with
  | none =>
    simp only [featureOf, Outcome.ok.injEq]
    exact ⟨fun h => h ▸ .noCaller, fun h => by cases h; rfl⟩
  | some c =>
    simp only [featureOf]
    constructor
    · intro h
      obtain ⟨g, h1, h⟩ := Outcome.bind_eq_ok.mp h
      simp only [Outcome.pure_eq, Outcome.ok.injEq] at h
      rw [boundedString_iff] at h1
      by_cases hg : g = []
      · subst hg; simp at h; subst h; exact .noName h1
      · rw [if_neg hg] at h; subst h; exact .named h1 hg
    · intro h
      cases h with
      | noName h => rw [boundedString_iff.mpr h]; rfl
      | named h hne => rw [boundedString_iff.mpr h]; simp [hne]

theorem featureIs_unique {cfg : Config} {caller : Option Caller} {f f' : Bytes} (h : FeatureIs cfg caller f)
    (h' : FeatureIs cfg caller f') : f = f' := by
  rw [← featureOf_iff] at h h'
  rw [h] at h'; simpa using h'

/-- A licence that is read is accepted at a time iff its text grants the feature at that time. -/
theorem accepted_iff {cfg : Config} {w : World} {caller : Option Caller} {f src text : Bytes} {l : FullLicense}
    (hl : IsLicence f src text l) (now : Int) :
    Accepted cfg w caller l now ↔ Grants cfg w (magicOf caller) f text now := by
  have hm : (withMagic caller l).magic = magicOf caller := by
    cases caller <;> simp [withMagic, magicOf, hl.magic]
  have hlim : (withMagic caller l).limits = l.limits := rfl
  unfold Accepted Within
  rw [hm, hlim]
  constructor
  · rintro ⟨h1, h2, h3, h4, h5⟩
    refine ⟨⟨⟨_, hl.signature⟩, (Ini.toLong_200 _).mp hl.version⟩, ⟨l.signature, l.printForSign, hl.signature, signingData_of_licence hl, h1⟩, h2, ?_, ?_, ?_⟩
    · intro d hd; exact h3 d ((hl.limits _ _).mpr hd)
    · intro d hd; exact h4 d ((hl.limits _ _).mpr hd)
    · intro d hd; exact h5 d ((hl.limits _ _).mpr hd)
  · rintro ⟨_, ⟨s, data, hs, hd, hv⟩, h2, h3, h4, h5⟩
    have e1 : s = l.signature := by have := hl.signature; rw [show lastValue kSig _ = _ from hs] at this; simpa using this
    have e2 : data = l.printForSign := signingData_unique hd (signingData_of_licence hl)
    subst e1; subst e2
    exact ⟨hv, h2, fun d hd => h3 d ((hl.limits _ _).mp hd), fun d hd => h4 d ((hl.limits _ _).mp hd),
      fun d hd => h5 d ((hl.limits _ _).mp hd)⟩

/-- A complete text is a licence. -/
theorem exists_licence {feature src text : Bytes} (hc : Complete feature text) : ∃ l, IsLicence feature src text l := by
  obtain ⟨⟨s, hs⟩, hv⟩ := hc
  have hk : ∀ k ∈ Ini.getAllKeys (Ini.load text) (toUpperCopy feature), ∃ v, Ini.getValue (Ini.load text) (toUpperCopy feature) k = some v :=
    fun k hk => getValue_of_key hk
  obtain ⟨m, h1, h2, h3⟩ := fillLimits_spec (Ini.load text) (toUpperCopy feature) _ [] SMap.sorted_nil hk
  refine ⟨⟨src, feature, s, 0, m⟩, rfl, rfl, rfl, hs, (Ini.toLong_200 _).mpr hv, h2, ?_⟩
  intro k v
  simp only
  rw [h3]
  unfold IsLimit entriesFor
  rw [← Ini.C18_first_spelling, ← Ini.C18_last_value]
  by_cases hk : k ∈ Ini.getAllKeys (Ini.load text) (toUpperCopy feature)
  · simp [hk]
  · simp [hk, SMap.find?]

/-- A complete text that is located is read as a licence. -/
theorem licence_of_complete {cfg : Config} {w : World} {hint : Option LicenseLocation} {feature : Bytes} {r : Registry}
    {lics : List FullLicense} (h : readLicenses cfg w hint feature = .ok (r, lics)) {src text : Bytes}
    (ho : Offers cfg w hint src text) (hc : Complete feature text) : ∃ l, l ∈ lics ∧ IsLicence feature src text l := by
  obtain ⟨l, hl⟩ := exists_licence (src := src) hc
  exact ⟨l, (mem_readLicenses h l).mpr ⟨src, text, ho, hl⟩, hl⟩

/-- The structure the caller gets back when no licence was found at all, src/library/licensecc.cpp:120-124. -/
def noLicenceInfo (o : LicInfo) : LicInfo := { o with proprietary := some [], linkedToPc := false, daysLeft := 0 }

theorem finish_ok {w : World} {ret : EventType} {r : Registry} {k : Nat} {out : Option LicInfo} {res : AcquireResult}
    (h : finish w ret r k out = .ok res) :
    res.ret = ret ∧ res.registry = r ∧ res.ticks = k ∧ res.out.map (·.info) = out
    ∧ ∀ o, res.out = some o → r.exportLastEvents (List.replicate 5 w.junk) 5 = .ok o.status := by
  unfold finish at h
  split at h
  · simp only [Outcome.ok.injEq] at h; subst h; simp
  · obtain ⟨st, hst, h⟩ := Outcome.bind_eq_ok.mp h
    simp only [Outcome.pure_eq, Outcome.ok.injEq] at h; subst h
    exact ⟨rfl, rfl, rfl, rfl, fun o ho => by simp only [Option.some.injEq] at ho; rw [← ho]; exact hst⟩

theorem judge_ok {cfg : Config} {w : World} {caller : Option Caller} {out : Option LicInfo} {r : Registry}
    {lics : List FullLicense} {res : AcquireResult} (h : judge cfg w caller out r lics = .ok res) :
    ((lics = [] ∧ res.ticks = 0 ∧ ∃ b, r.turnWarningsIntoErrors = .ok (res.registry, b) ∧ lastFailureType res.registry = .ok res.ret
        ∧ res.out.map (·.info) = out.map noLicenceInfo)
     ∨ (lics ≠ [] ∧ ∃ r1 oks errs, judgeLoop cfg w caller r 0 lics = .ok (r1, res.ticks, oks, errs)
        ∧ ((oks ≠ [] ∧ res.ret = .licenseOk ∧ res.registry = r1.turnErrorsIntoWarnings.1
              ∧ res.out.map (·.info) = out.map (mergeLicenses oks))
           ∨ (oks = [] ∧ ∃ b, r1.turnWarningsIntoErrors = .ok (res.registry, b) ∧ lastFailureType res.registry = .ok res.ret
              ∧ res.out.map (·.info) = out.map (mergeLicenses errs)))))
    ∧ ∀ o, res.out = some o → res.registry.exportLastEvents (List.replicate 5 w.junk) 5 = .ok o.status := by
  cases lics with
  | nil =>
    simp only [judge] at h
    obtain ⟨⟨r1, b⟩, h1, h⟩ := Outcome.bind_eq_ok.mp h
    obtain ⟨t, h2, h⟩ := Outcome.bind_eq_ok.mp h
    obtain ⟨e1, e2, e3, e4, e5⟩ := finish_ok h
    subst e2
    refine ⟨.inl ⟨rfl, e3, b, h1, by rw [h2, e1], ?_⟩, e5⟩
    rw [e4]; rfl
  | cons l ls =>
    simp only [judge] at h
    obtain ⟨⟨r1, k, oks, errs⟩, h1, h⟩ := Outcome.bind_eq_ok.mp h
    cases oks with
    | cons x xs =>
      simp only at h
      obtain ⟨e1, e2, e3, e4, e5⟩ := finish_ok h
      subst e3
      rw [← e2] at e5
      exact ⟨.inr ⟨by simp, r1, _, errs, h1, .inl ⟨by simp, e1, e2, e4⟩⟩, e5⟩
    | nil =>
      simp only at h
      obtain ⟨⟨r2, b⟩, h2, h⟩ := Outcome.bind_eq_ok.mp h
      obtain ⟨t, h3, h⟩ := Outcome.bind_eq_ok.mp h
      obtain ⟨e1, e2, e3, e4, e5⟩ := finish_ok h
      subst e3
      rw [← e2] at e5
      refine ⟨.inr ⟨by simp, r1, [], errs, h1, .inr ⟨rfl, b, by rw [h2, e2], ?_, e4⟩⟩, e5⟩
      rw [e1, e2]; exact h3

theorem acquire_split {cfg : Config} {w : World} {caller : Option Caller} {hint : Option LicenseLocation} {out : Option LicInfo}
    {res : AcquireResult} (h : acquire cfg w caller hint out = .ok res) :
    ∃ f r lics, FeatureIs cfg caller f ∧ readLicenses cfg w hint f = .ok (r, lics) ∧ judge cfg w caller out r lics = .ok res := by
  unfold acquire at h
  obtain ⟨f, h1, h⟩ := Outcome.bind_eq_ok.mp h
  obtain ⟨⟨r, lics⟩, h2, h⟩ := Outcome.bind_eq_ok.mp h
  exact ⟨f, r, lics, featureOf_iff.mp h1, h2, h⟩

/-! ## Severity of failures -/

/-- Only failures are more than information. -/
def FailuresOnly (r : Registry) : Prop := ∀ e ∈ r.logs, e.severity ≠ .info → IsFailure e.type

theorem failuresOnly_add {r : Registry} (h : AddHistory r) : FailuresOnly r := by
  intro e he hs
  have := (exact_addHistory h).2.2 e he
  unfold IsFailure
  split at this
  · assumption
  · exact absurd this hs

theorem sameButSeverity_symm {l l' : List Event} (h : SameButSeverity l l') : SameButSeverity l' l := Eq.symm h

theorem failuresOnly_warn {r r' : Registry} {b : Bool} (hi : r.Inv) (hr : FailuresOnly r)
    (h : r.turnWarningsIntoErrors = .ok (r', b)) : FailuresOnly r' := by
  obtain ⟨r1, f, h1, h2, h3, h4, h5, h6, h7⟩ := turnWarnings_spec hi
  rw [h1] at h; simp only [Outcome.ok.injEq, Prod.mk.injEq] at h; obtain ⟨rfl, rfl⟩ := h
  intro e' he' hs'
  obtain ⟨j, hj⟩ := List.mem_iff_getElem?.mp he'
  obtain ⟨e, he, ht, _, _⟩ := (sameButSeverity_symm h2).get hj
  have hmem : e ∈ r.logs := List.mem_of_getElem? he
  rw [← ht]
  by_cases hx : ∃ p ∈ r.adv, ∃ e, r.logs[p.2]? = some e ∧ e.severity ≠ .info
  · obtain ⟨e2, he2, hR⟩ := h6 hx j e he
    rw [hj] at he2; simp only [Option.some.injEq] at he2; subst he2
    rcases hR with ⟨_, hh, _⟩ | ⟨_, hh⟩
    · exact hr e hmem hh
    · exact hr e hmem (by rw [← hh]; exact hs')
  · obtain ⟨e2, he2, hR⟩ := h7 hx j e he
    rw [hj] at he2; simp only [Option.some.injEq] at he2; subst he2
    apply hr e hmem
    intro hinfo
    rw [hinfo] at hR
    exact hs' (by simpa using hR)

theorem inv_warn {r r' : Registry} {b : Bool} (hi : r.Inv) (h : r.turnWarningsIntoErrors = .ok (r', b)) : r'.Inv := by
  obtain ⟨r1, f, h1, h2, h3, _⟩ := turnWarnings_spec hi
  rw [h1] at h; simp only [Outcome.ok.injEq, Prod.mk.injEq] at h; obtain ⟨rfl, rfl⟩ := h
  exact inv_severity hi h2 h3

theorem event_ext {e e' : Event} (h1 : e'.type = e.type) (h2 : e'.ref = e.ref) (h3 : e'.info = e.info) (h4 : e'.severity = e.severity) :
    e' = e := by
  cases e; cases e'; simp_all

/-- Turning warnings into errors a second time changes nothing. -/
theorem turnWarnings_idem {r r' : Registry} {b : Bool} (hi : r.Inv) (h : r.turnWarningsIntoErrors = .ok (r', b)) :
    ∃ b', r'.turnWarningsIntoErrors = .ok (r', b') := by
  have hi' := inv_warn hi h
  obtain ⟨r1, f, h1, h2, h3, h4, h5, h6, h7⟩ := turnWarnings_spec hi
  rw [h1] at h; simp only [Outcome.ok.injEq, Prod.mk.injEq] at h; obtain ⟨rfl, rfl⟩ := h
  obtain ⟨r2, f2, k1, k2, k3, k4, k5, k6, k7⟩ := turnWarnings_spec hi'
  refine ⟨f2, ?_⟩
  rw [k1]
  congr 2
  have hl : r2.logs = r1.logs := by
    apply List.ext_getElem?
    intro j
    have hlen : r1.logs.length = r2.logs.length := by
      have := congrArg List.length k2; simpa using this
    cases hj : r1.logs[j]? with
    | none =>
      rw [List.getElem?_eq_none_iff] at hj ⊢
      omega
    | some e =>
      obtain ⟨e', he', g1, g2, g3⟩ := k2.get hj
      rw [he']
      congr 1
      apply event_ext g1 g2 g3
      by_cases hx : ∃ p ∈ r1.adv, ∃ e, r1.logs[p.2]? = some e ∧ e.severity ≠ .info
      · -- the second pass finds something, so did the first
        obtain ⟨e'', he'', hR⟩ := k6 hx j e hj
        rw [he'] at he''; simp only [Option.some.injEq] at he''; subst he''
        rcases hR with ⟨⟨p, hp, hpj⟩, hs, herr⟩ | ⟨_, hsame⟩
        · obtain ⟨e0, he0, f1, f2', f3⟩ := (sameButSeverity_symm h2).get hj
          by_cases hy : ∃ p ∈ r.adv, ∃ e, r.logs[p.2]? = some e ∧ e.severity ≠ .info
          · obtain ⟨e1, he1, hR1⟩ := h6 hy j e0 he0
            rw [hj] at he1; simp only [Option.some.injEq] at he1; subst he1
            rcases hR1 with ⟨_, _, hh⟩ | ⟨hn, hh⟩
            · rw [herr, hh]
            · exfalso; apply hn
              refine ⟨⟨p, by rw [← h3]; exact hp, hpj⟩, ?_⟩
              rw [← hh]; exact hs
          · obtain ⟨e1, he1, hR1⟩ := h7 hy j e0 he0
            rw [hj] at he1; simp only [Option.some.injEq] at he1; subst he1
            exfalso
            have : e0.severity = .info := by
              apply Classical.byContradiction
              intro hne
              exact hy ⟨p, by rw [← h3]; exact hp, e0, by rw [hpj]; exact he0, hne⟩
            rw [this] at hR1
            exact hs (by simpa using hR1)
        · exact hsame
      · obtain ⟨e'', he'', hR⟩ := k7 hx j e hj
        rw [he'] at he''; simp only [Option.some.injEq] at he''; subst he''
        rw [hR]
        split
        · rename_i hw
          exfalso
          obtain ⟨e0, he0, f1, f2', f3⟩ := (sameButSeverity_symm h2).get hj
          by_cases hy : ∃ p ∈ r.adv, ∃ e, r.logs[p.2]? = some e ∧ e.severity ≠ .info
          · obtain ⟨p, hp, ep, hep, hsp⟩ := hy
            obtain ⟨e1, he1, hR1⟩ := h6 ⟨p, hp, ep, hep, hsp⟩ p.2 ep hep
            apply hx
            refine ⟨p, by rw [h3]; exact hp, e1, he1, ?_⟩
            rcases hR1 with ⟨_, _, hh⟩ | ⟨hn, hh⟩
            · rw [hh]; simp
            · exact absurd ⟨⟨p, hp, rfl⟩, hsp⟩ hn
          · obtain ⟨e1, he1, hR1⟩ := h7 hy j e0 he0
            rw [hj] at he1; simp only [Option.some.injEq] at he1; subst he1
            rw [hw] at hR1
            split at hR1
            · simp at hR1
            · exact absurd hR1.symm (by assumption)
        · rfl
  have hp := turnWarnings_platform k1
  cases r2; cases r1
  simp_all

theorem lastFailureType_ok {r : Registry} {t : EventType} (h : lastFailureType r = .ok t) :
    ∃ e, r.getLastFailure = .ok (some e) ∧ e.type = t := by
  unfold lastFailureType at h
  obtain ⟨o, h1, h⟩ := Outcome.bind_eq_ok.mp h
  cases o with
  | none => simp at h
  | some e => simp only [Outcome.pure_eq, Outcome.ok.injEq] at h; exact ⟨e, h1, h⟩

/-- What a refusal looks like: the events recorded during the call, and the failure reported for them. -/
structure Refused (p : Platform) (es : List Entry) (res : AcquireResult) : Prop where
  intro ::
  adds : ∃ r0 b, Adds (Registry.empty p) es r0 ∧ r0.turnWarningsIntoErrors = .ok (res.registry, b)
  ret : lastFailureType res.registry = .ok res.ret

/-- Everything about a call that returns. -/
theorem acquire_cases {cfg : Config} {w : World} {caller : Option Caller} {hint : Option LicenseLocation} {out : Option LicInfo}
    {res : AcquireResult} (h : acquire cfg w caller hint out = .ok res) :
    ∃ f r lics es, FeatureIs cfg caller f ∧ readLicenses cfg w hint f = .ok (r, lics)
      ∧ ((activeStrategies cfg hint = [] ∧ lics = [] ∧ es = [(.fileNotFound, none, none)])
         ∨ SearchEntries w f (activeStrategies cfg hint) es lics)
      ∧ ((lics = [] ∧ res.ticks = 0 ∧ Refused w.platform es res ∧ res.out.map (·.info) = out.map noLicenceInfo)
         ∨ (lics ≠ [] ∧ ∃ vs es' oks errs r1, JudgeEntries cfg w res.ticks (lics.map (withMagic caller)) vs es'
            ∧ judgeLoop cfg w caller r 0 lics = .ok (r1, res.ticks, oks, errs)
            ∧ ((true ∈ vs ∧ oks ≠ [] ∧ res.ret = .licenseOk ∧ Adds (Registry.empty w.platform) (es ++ es') r1 ∧ res.registry = r1.turnErrorsIntoWarnings.1
                  ∧ res.out.map (·.info) = out.map (mergeLicenses oks))
               ∨ (true ∉ vs ∧ oks = [] ∧ Refused w.platform (es ++ es') res ∧ res.out.map (·.info) = out.map (mergeLicenses errs)))))
      ∧ ∀ o, res.out = some o → res.registry.exportLastEvents (List.replicate 5 w.junk) 5 = .ok o.status := by
  obtain ⟨f, r, lics, hf, hr, hj⟩ := acquire_split h
  obtain ⟨es, r0, hadds, hes, hrr⟩ := readLicenses_adds hr
  obtain ⟨hcases, hst⟩ := judge_ok hj
  refine ⟨f, r, lics, es, hf, hr, hes, ?_, hst⟩
  rcases hcases with ⟨hnil, ht, b, hw, hl, ho⟩ | ⟨hne, r1, oks, errs, hloop, hc⟩
  · refine .inl ⟨hnil, ht, ⟨?_, hl⟩, ho⟩
    rcases hrr with ⟨_, b0, hw0⟩ | ⟨hne, _⟩
    · have hi : r0.Inv := (exact_addHistory (hadds.history (.empty _))).2.1
      obtain ⟨b', hid⟩ := turnWarnings_idem hi hw0
      rw [hid] at hw
      simp only [Outcome.ok.injEq, Prod.mk.injEq] at hw
      exact ⟨r0, b0, hadds, by rw [← hw.1]; exact hw0⟩
    · exact absurd hnil hne
  · rcases hrr with ⟨hnil, _⟩ | ⟨_, rfl⟩
    · exact absurd hnil hne
    · obtain ⟨vs, es', h1, h2, h3⟩ := judgeLoop_adds hloop
      refine .inr ⟨hne, vs, es', oks, errs, r1, h1, hloop, ?_⟩
      rcases hc with ⟨hoks, hret, hreg, ho⟩ | ⟨hoks, b, hw, hl, ho⟩
      · exact .inl ⟨h2.mpr hoks, hoks, hret, hadds.trans h3, hreg, ho⟩
      · refine .inr ⟨fun hv => (h2.mp hv) hoks, hoks, ⟨⟨r1, b, hadds.trans h3, hw⟩, hl⟩, ho⟩

theorem refused_failure {p : Platform} {es : List Entry} {res : AcquireResult} (h : Refused p es res) :
    IsFailure res.ret ∧ ∃ e ∈ res.registry.logs, e.type = res.ret ∧ e.severity = .error := by
  obtain ⟨⟨r0, b, h1, h2⟩, h3⟩ := h
  have hh := h1.history (.empty _)
  have hi : r0.Inv := (exact_addHistory hh).2.1
  obtain ⟨e, h4, h5⟩ := lastFailureType_ok h3
  obtain ⟨o, g1, g2, g3⟩ := getLastFailure_spec (inv_warn hi h2)
  rw [g1] at h4; simp only [Outcome.ok.injEq] at h4
  obtain ⟨k1, k2⟩ := g3 e h4
  have hf := failuresOnly_warn hi (failuresOnly_add hh) h2 e k1 (by rw [k2]; simp)
  exact ⟨by rw [← h5]; exact hf, e, k1, h5, k2⟩

end Licensecc
