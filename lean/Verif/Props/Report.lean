import Verif.Lemmas.Reasons
import Verif.Props.Acquire
/-!
# Properties of acquire_license: what is reported (C11, C12, C14, C32, C47 - C49)
-/
namespace Licensecc
open Licensecc.Spec

/-- The entries recorded by a call, in order; the final registry holds exactly these, with changed severities. -/
theorem acquire_entries {cfg : Config} {w : World} {caller : Option Caller} {hint : Option LicenseLocation} {out : Option LicInfo}
    {res : AcquireResult} (h : acquire cfg w caller hint out = .ok res) :
    ∃ (f : Bytes) (es : List Entry), FeatureIs cfg caller f ∧ SameButSeverity (es.map (Entry.event w.platform)) res.registry.logs
      ∧ ∀ x ∈ es, IsFailure x.1 → Reason cfg w caller hint f res.ticks x.1 := by
  obtain ⟨f, r, lics, es, hf, hr, hes, hc, _⟩ := acquire_cases h
  have hsearch : ∀ x ∈ es, IsFailure x.1 → Reason cfg w caller hint f res.ticks x.1 := by
    intro x hx hfail
    rcases hes with ⟨hst, _, rfl⟩ | hes
    · simp only [List.mem_singleton] at hx; subst hx
      unfold activeStrategies at hst
      simp only [List.append_eq_nil_iff] at hst
      obtain ⟨⟨h1, h2⟩, h3⟩ := hst
      refine .noStrategy ?_ ?_ ?_
      · cases hn : cfg.nearModule
        · rfl
        · simp [hn] at h1
      · cases hn : cfg.withEnvVar
        · rfl
        · simp [hn] at h2
      · cases hint
        · rfl
        · simp at h3
    · exact search_reason hes hx hfail
  have hrefused : ∀ {es : List Entry}, Refused w.platform es res → SameButSeverity (es.map (Entry.event w.platform)) res.registry.logs := by
    intro es hh
    obtain ⟨⟨r0, b, h1, h2⟩, _⟩ := hh
    have hi : r0.Inv := (exact_addHistory (h1.history (.empty _))).2.1
    obtain ⟨r1, f, g1, g2, _⟩ := turnWarnings_spec hi
    rw [g1] at h2; simp only [Outcome.ok.injEq, Prod.mk.injEq] at h2
    rw [h2.1, h1.logs] at g2
    simpa [Registry.empty] using g2
  rcases hc with ⟨_, _, href, _⟩ | ⟨_, vs, es', oks, errs, r1, hje, _, ⟨_, _, _, hadds, hreg, _⟩ | ⟨_, _, href, _⟩⟩
  · exact ⟨f, es, hf, hrefused href, hsearch⟩
  · refine ⟨f, es ++ es', hf, ?_, ?_⟩
    · rw [hreg]
      have := turnErrors_same r1
      rw [hadds.logs] at this
      simpa [Registry.empty] using this
    · intro x hx hfail
      rcases List.mem_append.mp hx with hx | hx
      · exact hsearch x hx hfail
      · exact judge_reason hr hje hx hfail
  · refine ⟨f, es ++ es', hf, hrefused href, ?_⟩
    intro x hx hfail
    rcases List.mem_append.mp hx with hx | hx
    · exact hsearch x hx hfail
    · exact judge_reason hr hje hx hfail

theorem refused_of_not_ok {cfg : Config} {w : World} {caller : Option Caller} {hint : Option LicenseLocation} {out : Option LicInfo}
    {res : AcquireResult} (h : acquire cfg w caller hint out = .ok res) (hne : res.ret ≠ .licenseOk) : ∃ es, Refused w.platform es res := by
  obtain ⟨f, r, lics, es, hf, hr, hes, hc, _⟩ := acquire_cases h
  rcases hc with ⟨_, _, href, _⟩ | ⟨_, vs, es', oks, errs, r1, hje, _, ⟨_, _, hret, _⟩ | ⟨_, _, href, _⟩⟩
  · exact ⟨_, href⟩
  · exact absurd hret hne
  · exact ⟨_, href⟩

/-! ## C11, C49 failure codes -/

/-- **C11**: a code other than LICENSE_OK is the type of an event recorded during this call with error severity, and it
    is a failure, not a progress code. -/
theorem C11_failure_code {cfg : Config} {w : World} {caller : Option Caller} {hint : Option LicenseLocation}
    {out : Option LicInfo} {res : AcquireResult} (h : acquire cfg w caller hint out = .ok res) (hne : res.ret ≠ .licenseOk) :
    (∃ e ∈ res.registry.logs, e.type = res.ret ∧ e.severity = .error)
    ∧ res.ret ∉ [.specified, .found, .productFound, .signatureVerified] := by
  obtain ⟨es, href⟩ := refused_of_not_ok h hne
  obtain ⟨hf, he⟩ := refused_failure href
  refine ⟨he, ?_⟩
  intro hmem
  simp only [List.mem_cons, List.not_mem_nil, or_false] at hmem
  rcases hmem with h | h | h | h <;> rw [h] at hf <;> simp [IsFailure, stage] at hf

/-- **C49**: the failure code is justified: the licences, files or variables show the defect that the code names. -/
theorem C49_code_is_justified {cfg : Config} {w : World} {caller : Option Caller} {hint : Option LicenseLocation}
    {out : Option LicInfo} {res : AcquireResult} (h : acquire cfg w caller hint out = .ok res) (hne : res.ret ≠ .licenseOk) :
    ∃ feature, FeatureIs cfg caller feature ∧ Reason cfg w caller hint feature res.ticks res.ret := by
  obtain ⟨es0, href⟩ := refused_of_not_ok h hne
  obtain ⟨hf, e, he, ht, _⟩ := refused_failure href
  obtain ⟨f, es, hfeat, hsame, hreason⟩ := acquire_entries h
  obtain ⟨j, hj⟩ := List.mem_iff_getElem?.mp he
  obtain ⟨e0, he0, k1, _, _⟩ := (sameButSeverity_symm hsame).get hj
  obtain ⟨x, hx, rfl⟩ := List.mem_map.mp (List.mem_of_getElem? he0)
  have hx1 : x.1 = res.ret := by rw [← ht, ← k1]; rfl
  refine ⟨f, hfeat, ?_⟩
  rw [← hx1]
  exact hreason x hx (by rw [hx1]; exact hf)

/-- The sample refused for five different reasons. -/
example : retOf (acquire sampleConfig (sampleWorld sampleNow) (some { sampleCaller with magic := 6 }) none none) = some .corrupted
    ∧ retOf (acquire sampleConfig (sampleWorld 0) (some sampleCaller) none none) = some .productExpired
    ∧ retOf (acquire sampleConfig { sampleWorld 0 with probe := fun _ => false } (some sampleCaller) none none) = some .fileNotFound
    ∧ retOf (acquire sampleConfig { sampleWorld 0 with read := fun _ => some (b!"[TEST]\nlic_ver=100") } (some sampleCaller) none none)
        = some .malformed
    ∧ retOf (acquire { sampleConfig with withEnvVar := true } { sampleWorld 0 with moduleName := none } (some sampleCaller) none none)
        = some .envVarNotDefined := by
  decide +kernel

/-! ## C47 codes that are never produced -/

/-- **C47**: neither FILE_FORMAT_NOT_RECOGNIZED nor LICENSE_SERVER_NOT_FOUND is ever returned or recorded. -/
theorem C47_never_produced {cfg : Config} {w : World} {caller : Option Caller} {hint : Option LicenseLocation}
    {out : Option LicInfo} {res : AcquireResult} (h : acquire cfg w caller hint out = .ok res) :
    res.ret ≠ .fileFormatNotRecognized ∧ res.ret ≠ .serverNotFound
    ∧ ∀ e ∈ res.registry.logs, e.type ≠ .fileFormatNotRecognized ∧ e.type ≠ .serverNotFound := by
  obtain ⟨f, es, _, hsame, hreason⟩ := acquire_entries h
  have key : ∀ e ∈ res.registry.logs, e.type ≠ .fileFormatNotRecognized ∧ e.type ≠ .serverNotFound := by
    intro e he
    obtain ⟨j, hj⟩ := List.mem_iff_getElem?.mp he
    obtain ⟨e0, he0, k1, _, _⟩ := (sameButSeverity_symm hsame).get hj
    obtain ⟨x, hx, rfl⟩ := List.mem_map.mp (List.mem_of_getElem? he0)
    have hx1 : x.1 = e.type := by rw [← k1]; rfl
    rw [← hx1]
    refine ⟨fun hc => ?_, fun hc => ?_⟩
    · have := hreason x hx (by rw [hc]; simp [IsFailure, stage])
      rw [hc] at this; cases this
    · have := hreason x hx (by rw [hc]; simp [IsFailure, stage])
      rw [hc] at this; cases this
  by_cases hok : res.ret = .licenseOk
  · exact ⟨by rw [hok]; simp, by rw [hok]; simp, key⟩
  · obtain ⟨⟨e, he, ht, _⟩, _⟩ := C11_failure_code h hok
    rw [← ht]
    exact ⟨(key e he).1, (key e he).2, key⟩

/-- Garbage is reported as PRODUCT_NOT_LICENSED. -/
theorem C47_garbage {cfg : Config} {w : World} {caller : Option Caller} {l : LicenseLocation} {out : Option LicInfo}
    {res : AcquireResult} (h : acquire cfg w caller (some l) out = .ok res) (hk : l.kind = 1)
    (hn : cfg.nearModule = false) (he : cfg.withEnvVar = false) {d : Bytes} (hd : TextIn l.data 4096 d) (hne : d ≠ [])
    (hg : ∀ feature, FeatureIs cfg caller feature → entriesFor feature d = []) : res.ret = .productNotLicensed := by
  have honly : ∀ src text, Offers cfg w (some l) src text → text = d := by
    intro src text ho
    cases ho with
    | nearModule h1 => rw [hn] at h1; simp at h1
    | envLocation h1 => rw [he] at h1; simp at h1
    | envData h1 => rw [he] at h1; simp at h1
    | envDataEncoded h1 => rw [he] at h1; simp at h1
    | hintPath h1 h2 => simp only [Option.some.injEq] at h1; subst h1; rw [hk] at h2; simp at h2
    | hintPathOddName h1 h2 => simp only [Option.some.injEq] at h1; subst h1; rw [hk] at h2; simp at h2
    | hintPlain h1 h2 h3 => simp only [Option.some.injEq] at h1; subst h1; exact textIn_unique h3 hd
    | hintEncoded h1 h2 => simp only [Option.some.injEq] at h1; subst h1; rw [hk] at h2; simp at h2
  have hno : res.ret ≠ .licenseOk := by
    apply C07_no_section_never_licensed h
    intro f src text hf ho
    rw [honly src text ho]; exact hg f hf
  obtain ⟨f, hf, hr⟩ := C49_code_is_justified h hno
  have hempty := hg f hf
  have hinc : ¬ Complete f d := by
    rintro ⟨⟨s, hs⟩, _⟩
    rw [hempty] at hs; simp [lastValue] at hs
  generalize hret : res.ret = t at hr
  cases hr with
  | badSignature ho hc => rw [honly _ _ ho] at hc; exact absurd hc hinc
  | badMagic ho hc => rw [honly _ _ ho] at hc; exact absurd hc hinc
  | expired ho hc => rw [honly _ _ ho] at hc; exact absurd hc hinc
  | early ho hc => rw [honly _ _ ho] at hc; exact absurd hc hinc
  | otherHardware ho hc => rw [honly _ _ ho] at hc; exact absurd hc hinc
  | incomplete ho hc => rw [honly _ _ ho] at hc; exact absurd hempty hc
  | unknownData h1 => rw [he] at h1; simp at h1
  | noSection => rfl
  | noFile hs =>
    cases hs with
    | nearModule h1 => rw [hn] at h1; simp at h1
    | envLocation h1 => rw [he] at h1; simp at h1
    | hintPath h1 h2 => simp only [Option.some.injEq] at h1; subst h1; rw [hk] at h2; simp at h2
  | noStrategy _ _ h3 => simp at h3
  | noLocationVar h1 => rw [he] at h1; simp at h1
  | noDataVar h1 => rw [he] at h1; simp at h1

example : retOf (acquire { sampleConfig with nearModule := false } (sampleWorld 0) (some sampleCaller)
    (some ⟨1, b!"certainly not a licence" ++ [0]⟩) none) = some .productNotLicensed := by decide +kernel

/-! ## C14 status array -/

/-- **C14**: the status array has five entries; the first min(5, number of events) are the last events recorded, in
    order; after LICENSE_OK no event has error severity, and after a refusal some event has. -/
theorem C14_status {cfg : Config} {w : World} {caller : Option Caller} {hint : Option LicenseLocation}
    {out : Option LicInfo} {res : AcquireResult} (h : acquire cfg w caller hint out = .ok res) :
    (∀ o, res.out = some o → ∃ pre, o.status.length = 5
        ∧ res.registry.logs = pre ++ o.status.take (min 5 res.registry.logs.length)
        ∧ ∀ e ∈ o.status.drop (min 5 res.registry.logs.length), e = w.junk)
    ∧ (res.ret = .licenseOk ↔ ∀ e ∈ res.registry.logs, e.severity ≠ .error)
    ∧ (res.out = none ↔ out = none) := by
  obtain ⟨f, r, lics, es, hf, hr, hes, hc, hst⟩ := acquire_cases h
  refine ⟨?_, ?_, ?_⟩
  · intro o ho
    have h1 := hst o ho
    obtain ⟨o', pre, g1, g2, g3, g4⟩ := C14_export_tail res.registry (List.replicate 5 w.junk) 5 (by simp)
    rw [h1] at g1; simp only [Outcome.ok.injEq] at g1; subst g1
    refine ⟨pre, by simpa using g2, g3, ?_⟩
    intro e he
    rw [g4] at he
    exact List.eq_of_mem_replicate (List.mem_of_mem_drop he)
  · constructor
    · intro hok
      rcases hc with ⟨_, _, href, _⟩ | ⟨_, vs, es', oks, errs, r1, _, _, ⟨_, _, _, _, hreg, _⟩ | ⟨_, _, href, _⟩⟩
      · have := (refused_failure href).1; rw [hok] at this; simp [IsFailure, stage] at this
      · rw [hreg]
        intro e he
        simp only [Registry.turnErrorsIntoWarnings, List.mem_map] at he
        obtain ⟨e0, _, rfl⟩ := he
        split
        · simp
        · assumption
      · have := (refused_failure href).1; rw [hok] at this; simp [IsFailure, stage] at this
    · intro hno
      apply Classical.byContradiction
      intro hne
      obtain ⟨⟨e, he, _, hs⟩, _⟩ := C11_failure_code h hne
      exact hno e he hs
  · have hmap : res.out.map (·.info) = none ↔ out = none := by
      rcases hc with ⟨_, _, _, ho⟩ | ⟨_, vs, es', oks, errs, r1, _, _, ⟨_, _, _, _, _, ho⟩ | ⟨_, _, _, ho⟩⟩ <;>
        rw [ho] <;> simp
    rw [← hmap]; simp

def statusOf : Outcome AcquireResult → Option (List (EventType × Severity))
  | .ok r => r.out.map fun o => o.status.map fun e => (e.type, e.severity)
  | _ => none

example : statusOf (acquire sampleConfig (sampleWorld sampleNow) (some sampleCaller) (some ⟨0, b!"/a;/b" ++ [0]⟩) (some ⟨[], 0, false, false, none⟩))
    = some [(.specified, .info), (.fileNotFound, .warn), (.specified, .info), (.fileNotFound, .warn), (.signatureVerified, .info)] := by
  decide +kernel

/-! ## C12 a refusal always has something to report -/

/-- Nothing is searched for, so nothing can fail: there is some strategy, but the module name is not known (or not used),
    the environment is not used, and the caller's location, if any, is empty. -/
def Spec.NothingToReport (cfg : Config) (w : World) (hint : Option LicenseLocation) : Prop :=
  cfg.withEnvVar = false ∧ (cfg.nearModule = true → w.moduleName = none)
  ∧ (∀ l, hint = some l → ∃ rest, l.data = 0 :: rest) ∧ (cfg.nearModule = true ∨ hint ≠ none)

theorem failure_of_read {w : World} {f : Bytes} {l : Locator} {b : Bool} {locs : List Bytes} {es : List Entry} {lics : List FullLicense}
    (h : ReadEntries w f l b locs es lics) (hl : lics = []) (hne : locs ≠ []) : ∃ x ∈ es, IsFailure x.1 := by
  cases h with
  | nil => exact absurd rfl hne
  | @cons src srcs text ts es lic lics h1 h2 h3 h4 =>
    have : lic = none := by cases lic <;> simp_all
    subst this
    rcases h2 with ⟨_, _, rfl⟩ | ⟨_, _, _, rfl⟩ | ⟨_, h, _⟩
    · exact ⟨(.productNotLicensed, some src, none), by simp, by simp [IsFailure, stage]⟩
    · exact ⟨(.malformed, some src, none), by simp, by simp [IsFailure, stage]⟩
    · simp at h

/-- A locator that says nothing at all. -/
def Silent (w : World) : Locator → Prop
  | .applicationFolder => w.moduleName = none
  | .externalDefinition loc => ∃ rest, loc.data = 0 :: rest
  | _ => False

theorem splitString_ne_nil {s : Bytes} {c : UInt8} (h : s ≠ []) : splitString s c ≠ [] := by
  intro hn
  have := (splitAux_join c s []).1 hn
  simp at this; exact h this

theorem files_failure {w : World} {extra : Bytes} {ps : List Bytes} (hne : ps ≠ []) (hnone : ps.filter w.probe = []) :
    ∃ x ∈ fileEntries w extra ps, IsFailure x.1 := by
  cases ps with
  | nil => exact absurd rfl hne
  | cons p ps =>
    have : w.probe p = false := by
      cases hp : w.probe p
      · rfl
      · simp [List.filter_cons, hp] at hnone
    exact ⟨(.fileNotFound, some p, some extra), by simp [fileEntries, this], by simp [IsFailure, stage]⟩

theorem failure_of_locate {w : World} {l : Locator} {r r' : Registry} {locs : List Bytes} {b : Bool}
    (h : licenseLocations w l r = .ok (r', locs, b)) (hl : locs = []) :
    Silent w l ∨ ∃ x ∈ locateEntries w l, IsFailure x.1 := by
  subst hl
  cases l with
  | applicationFolder =>
    simp only [licenseLocations, locateEntries, Silent] at h ⊢
    cases hm : w.moduleName with
    | none => exact .inl rfl
    | some m =>
      right
      simp only [hm] at h ⊢
      cases hp : w.probe (removeExtension m ++ licenseExt)
      · exact ⟨_, List.mem_cons_self, rfl⟩
      · simp only [hp, if_true] at h
        obtain ⟨r1, _, h⟩ := Outcome.bind_eq_ok.mp h
        simp at h
  | environmentVarLocation =>
    right
    simp only [licenseLocations, locateEntries] at h ⊢
    rcases hv : w.getenv locationVar with _ | ⟨_ | ⟨c, v⟩⟩ <;> simp only [hv] at h ⊢
    · exact ⟨_, List.mem_cons_self, rfl⟩
    · exact ⟨_, List.mem_cons_self, rfl⟩
    · obtain ⟨⟨r1, fs⟩, h1, h⟩ := Outcome.bind_eq_ok.mp h
      simp only [Outcome.pure_eq, Outcome.ok.injEq, Prod.mk.injEq] at h
      have := filterExistingFiles_mem h1
      refine files_failure (splitString_ne_nil (by simp)) ?_
      rw [← this]; exact h.2.1
  | environmentVarData =>
    right
    simp only [licenseLocations, locateEntries] at h ⊢
    rcases hv : w.getenv dataVar with _ | ⟨_ | ⟨c, v⟩⟩ <;> simp only [hv] at h ⊢
    · exact ⟨_, List.mem_cons_self, rfl⟩
    · exact ⟨_, List.mem_cons_self, rfl⟩
    · obtain ⟨r1, h1, h⟩ := Outcome.bind_eq_ok.mp h
      cases hf : identifyFormat (c :: v) <;> simp only [hf] at h
      · simp at h
      · simp at h
      · exact ⟨(.malformed, some locationVar, none), by simp, by simp [IsFailure, stage]⟩
  | externalDefinition loc =>
    obtain ⟨kind, data⟩ := loc
    cases data with
    | nil => simp [licenseLocations] at h
    | cons c data =>
      simp only [licenseLocations, locateEntries, Silent] at h ⊢
      by_cases hc : c = 0
      · exact .inl ⟨data, by rw [hc]⟩
      · right
        simp only [hc, if_false] at h ⊢
        obtain ⟨r1, h1, h⟩ := Outcome.bind_eq_ok.mp h
        by_cases hk : kind = 0
        · simp only [hk, if_true] at h ⊢
          obtain ⟨d, hd, h⟩ := Outcome.bind_eq_ok.mp h
          obtain ⟨⟨r2, fs⟩, h2, h⟩ := Outcome.bind_eq_ok.mp h
          simp only [Outcome.pure_eq, Outcome.ok.injEq, Prod.mk.injEq] at h
          have hfs := filterExistingFiles_mem h2
          have hdne : d ≠ [] := by
            rintro rfl
            rw [boundedString_iff] at hd
            exact hc (textIn_nil.mp hd)
          obtain ⟨x, hx, hxf⟩ := files_failure (extra := externalName) (splitString_ne_nil (c := 59) hdne)
            (by rw [← hfs]; exact h.2.1)
          refine ⟨x, ?_, hxf⟩
          rw [hd]; simp [hx]
        · simp only [hk, if_false] at h
          split at h
          · simp at h
          · simp at h

theorem search_failure {w : World} {f : Bytes} {ls : List Locator} {es : List Entry} {lics : List FullLicense}
    (h : SearchEntries w f ls es lics) (hl : lics = []) : (∀ l ∈ ls, Silent w l) ∨ ∃ x ∈ es, IsFailure x.1 := by
  induction h with
  | nil => exact .inl (by simp)
  | @cons l ls r r' locs b es es' lics lics' h1 h2 h3 ih =>
    simp only [List.append_eq_nil_iff] at hl
    by_cases hlocs : locs = []
    · rcases failure_of_locate h1 hlocs with hs | ⟨x, hx, hf⟩
      · rcases ih hl.2 with hs' | ⟨x, hx, hf⟩
        · left
          intro l' hl'
          rcases List.mem_cons.mp hl' with rfl | hl'
          · exact hs
          · exact hs' l' hl'
        · exact .inr ⟨x, by simp [hx], hf⟩
      · exact .inr ⟨x, by simp [hx], hf⟩
    · obtain ⟨x, hx, hf⟩ := failure_of_read h2 hl.1 hlocs
      exact .inr ⟨x, by simp [hx], hf⟩

theorem silent_iff {cfg : Config} {w : World} {hint : Option LicenseLocation} (hne : activeStrategies cfg hint ≠ []) :
    (∀ l ∈ activeStrategies cfg hint, Silent w l) ↔ NothingToReport cfg w hint := by
  simp only [mem_activeStrategies]
  constructor
  · intro h
    refine ⟨?_, ?_, ?_, ?_⟩
    · cases he : cfg.withEnvVar
      · rfl
      · exact (h .environmentVarLocation (.inr (.inl ⟨he, .inl rfl⟩))).elim
    · intro hn; exact h .applicationFolder (.inl ⟨hn, rfl⟩)
    · intro l hl; exact h (.externalDefinition l) (.inr (.inr ⟨l, hl, rfl⟩))
    · apply Classical.byContradiction
      intro hcon
      simp only [not_or, Bool.not_eq_true, ne_eq, Classical.not_not] at hcon
      have he : cfg.withEnvVar = false := by
        cases he : cfg.withEnvVar
        · rfl
        · exact (h .environmentVarLocation (.inr (.inl ⟨he, .inl rfl⟩))).elim
      apply hne
      simp [activeStrategies, hcon.1, hcon.2, he]
  · rintro ⟨h1, h2, h3, _⟩ l (⟨hn, rfl⟩ | ⟨he, _⟩ | ⟨loc, hh, rfl⟩)
    · exact h2 hn
    · rw [h1] at he; simp at he
    · exact h3 loc hh

/-- In a registry with a failure something is reported. -/
theorem report_of_failure {p : Platform} {es : List Entry} {r0 r : Registry} {b : Bool} (h : Adds (Registry.empty p) es r0)
    (hw : r0.turnWarningsIntoErrors = .ok (r, b)) (hx : ∃ x ∈ es, IsFailure x.1) : ∃ t, lastFailureType r = .ok t := by
  obtain ⟨l, hl⟩ := addHistory_history (h.history (.empty _))
  obtain ⟨r', f, g1, g2, g3, g4⟩ := C31_warnings_into_errors hl
  rw [g1] at hw; simp only [Outcome.ok.injEq, Prod.mk.injEq] at hw; obtain ⟨rfl, rfl⟩ := hw
  obtain ⟨x, hx, hf⟩ := hx
  have hmem : x.event p ∈ r0.logs := by rw [h.logs]; simp only [List.mem_append, List.mem_map]; exact .inr ⟨x, hx, rfl⟩
  have hsev : (x.event p).severity ≠ .info := by
    have := (exact_addHistory (h.history (.empty _))).2.2 _ hmem
    have hs : stage (x.event p).type = none := hf
    rw [this, if_pos hs]; simp
  have hbad := g3.mpr ⟨_, hmem, hsev⟩
  unfold Registry.isGood at hbad
  obtain ⟨o, h1, h2⟩ := Outcome.bind_eq_ok.mp hbad
  cases o with
  | none => simp at h2
  | some e => exact ⟨e.type, by simp [lastFailureType, h1]⟩

/-- No failure, no report: the null pointer is dereferenced. -/
theorem ub_of_no_failure {r0 r : Registry} {b : Bool} (h : AddHistory r0) (hw : r0.turnWarningsIntoErrors = .ok (r, b))
    (hx : ∀ e ∈ r0.logs, ¬ IsFailure e.type) : lastFailureType r = .ub := by
  obtain ⟨l, hl⟩ := addHistory_history h
  obtain ⟨r', f, g1, g2, g3, g4⟩ := C31_warnings_into_errors hl
  rw [g1] at hw; simp only [Outcome.ok.injEq, Prod.mk.injEq] at hw; obtain ⟨rfl, rfl⟩ := hw
  have hno : ¬ ∃ e ∈ r0.logs, e.severity ≠ .info := by
    rintro ⟨e, he, hs⟩
    exact hx e he (failuresOnly_add h e he hs)
  obtain ⟨b', k1, k2⟩ := C31_good_iff (.toErrors hl g1)
  have hgood : r'.isGood = .ok true := by
    cases b'
    · exact absurd (g3.mp k1) hno
    · exact k1
  unfold Registry.isGood at hgood
  obtain ⟨o, h1, h2⟩ := Outcome.bind_eq_ok.mp hgood
  cases o with
  | none => simp [lastFailureType, h1]
  | some e => simp at h2

/-- **C12** (the property fails): when there is nothing to report the call dereferences a null pointer, whatever else
    the world is like. -/
theorem C12_null_dereference {cfg : Config} {w : World} {caller : Option Caller} {hint : Option LicenseLocation} {out : Option LicInfo}
    {feature : Bytes} (hf : FeatureIs cfg caller feature) (h : NothingToReport cfg w hint) : acquire cfg w caller hint out = .ub := by
  obtain ⟨h1, h2, h3, h4⟩ := h
  have hst : activeStrategies cfg hint ≠ [] := by
    rcases h4 with h4 | h4
    · simp [activeStrategies, h4]
    · cases hint
      · exact absurd rfl h4
      · simp [activeStrategies]
  by_cases hover : cfg.nearModule = true ∧ w.machine.logOverruns = true
  · -- the failing `getModuleName` is logged, which overruns
    obtain ⟨hn, ho⟩ := hover
    have hl : ∀ r, licenseLocations w .applicationFolder r = .ub := by
      intro r; simp [licenseLocations, h2 hn, Machine.logged, ho]
    unfold acquire
    rw [featureOf_iff.mpr hf, Outcome.ok_bind]
    simp only [readLicenses]
    rw [if_neg (by simpa using hst)]
    simp only [activeStrategies, hn, if_true, List.cons_append, List.nil_append, readLocators, hl]
    rfl
  have hloc : ∀ l ∈ activeStrategies cfg hint, ∀ r, licenseLocations w l r = .ok (r, [], false) := by
    intro l hl r
    have hs := (silent_iff hst).mpr ⟨h1, h2, h3, h4⟩ l hl
    cases l with
    | applicationFolder =>
      have hn : cfg.nearModule = true := by
        cases hc : cfg.nearModule with
        | true => rfl
        | false => cases hint <;> simp [activeStrategies, hc, h1] at hl
      have ho : w.machine.logOverruns = false := by
        cases hc : w.machine.logOverruns with
        | false => rfl
        | true => exact absurd ⟨hn, hc⟩ hover
      simp only [Silent] at hs; simp [licenseLocations, hs, logged_eq ho]
    | environmentVarLocation => exact hs.elim
    | environmentVarData => exact hs.elim
    | externalDefinition loc =>
      obtain ⟨rest, hr⟩ := hs
      simp [licenseLocations, hr]
  have hread : ∀ (ls : List Locator) r, (∀ l ∈ ls, ∀ r, licenseLocations w l r = .ok (r, [], false)) →
      readLocators w feature r ls = .ok (r, []) := by
    intro ls
    induction ls with
    | nil => intro r _; rfl
    | cons l ls ih =>
      intro r hl
      rw [readLocators, hl l (by simp) r]
      simp only [Outcome.ok_bind, readLocations]
      rw [ih r (fun l' hl' => hl l' (by simp [hl']))]
      rfl
  have hw : (Registry.empty w.platform).turnWarningsIntoErrors = .ok (Registry.empty w.platform, false) := rfl
  have hrl : readLicenses cfg w hint feature = .ok (Registry.empty w.platform, []) := by
    simp only [readLicenses]
    rw [if_neg (by simpa using hst), hread _ _ hloc]
    simp [hw]
  unfold acquire
  rw [featureOf_iff.mpr hf, Outcome.ok_bind, hrl]
  simp only [Outcome.ok_bind, judge, hw]
  rw [ub_of_no_failure (.empty _) hw (by simp [Registry.empty])]
  rfl

/-- **C12**: that is the only way: once the licences have been read and judged without exception or undefined behaviour,
    and there is something to report, the call returns. -/
theorem C12_otherwise_returns {cfg : Config} {w : World} {caller : Option Caller} {hint : Option LicenseLocation} {out : Option LicInfo}
    {feature : Bytes} (hf : FeatureIs cfg caller feature) (h : ¬ NothingToReport cfg w hint) {r : Registry} {lics : List FullLicense}
    (hr : readLicenses cfg w hint feature = .ok (r, lics))
    (hj : ∃ x, judgeLoop cfg w caller r 0 lics = .ok x) : ∃ res, acquire cfg w caller hint out = .ok res := by
  have hfin : ∀ t r k o, ∃ res, finish w t r k o = .ok res := by
    intro t r k o
    cases o with
    | none => exact ⟨_, rfl⟩
    | some i =>
      obtain ⟨st, _, g1, _⟩ := C14_export_tail r (List.replicate 5 w.junk) 5 (by simp)
      exact ⟨⟨t, some ⟨st, i⟩, r, k⟩, by simp only [finish, g1, Outcome.ok_bind, Outcome.pure_eq]⟩
  unfold acquire
  rw [featureOf_iff.mpr hf, Outcome.ok_bind, hr, Outcome.ok_bind]
  simp only
  obtain ⟨es, r0, hadds, hes, hrr⟩ := readLicenses_adds hr
  have hi : r0.Inv := (exact_addHistory (hadds.history (.empty _))).2.1
  cases lics with
  | nil =>
    rcases hrr with ⟨_, b0, hw0⟩ | ⟨hne, _⟩
    · obtain ⟨b', hid⟩ := turnWarnings_idem hi hw0
      have hfail : ∃ x ∈ es, IsFailure x.1 := by
        rcases hes with ⟨_, _, rfl⟩ | hes
        · exact ⟨_, List.mem_cons_self, rfl⟩
        · rcases search_failure hes rfl with hs | hx
          · by_cases hst : activeStrategies cfg hint = []
            · exfalso
              have : readLicenses cfg w hint feature = .ok (r, []) := hr
              rw [hst] at hes
              cases hes
              simp only [readLicenses, hst] at this
              obtain ⟨r1, k1, this⟩ := Outcome.bind_eq_ok.mp this
              obtain ⟨⟨r2, b2⟩, k2, this⟩ := Outcome.bind_eq_ok.mp this
              simp only [Outcome.pure_eq, Outcome.ok.injEq, Prod.mk.injEq] at this
              cases hadds
              have hw : (Registry.empty w.platform).turnWarningsIntoErrors = .ok (Registry.empty w.platform, false) := rfl
              rw [hw] at hw0
              simp only [Outcome.ok.injEq, Prod.mk.injEq] at hw0
              obtain ⟨r', f, g1, g2, _⟩ := turnWarnings_spec (inv_add (exact_addHistory (.empty _)).2.1 k1)
              rw [g1] at k2; simp only [Outcome.ok.injEq, Prod.mk.injEq] at k2
              have hlen := congrArg List.length g2
              rw [k2.1, this.1, ← hw0.1, (addEvent_cases k1).1] at hlen
              simp [Registry.empty] at hlen
            · exact absurd ((silent_iff hst).mp hs) h
          · exact hx
      obtain ⟨t, ht⟩ := report_of_failure hadds hw0 hfail
      simp only [judge]
      rw [hid, Outcome.ok_bind]
      simp only
      rw [ht, Outcome.ok_bind]
      exact hfin _ _ _ _
    · exact absurd rfl hne
  | cons l ls =>
    rcases hrr with ⟨hnil, _⟩ | ⟨_, hrr⟩
    · simp at hnil
    · subst hrr
      obtain ⟨⟨r1, k, oks, errs⟩, hloop⟩ := hj
      simp only [judge]
      rw [hloop, Outcome.ok_bind]
      cases oks with
      | cons x xs => exact hfin _ _ _ _
      | nil =>
        obtain ⟨vs, es', h1, h2, h3⟩ := judgeLoop_adds hloop
        have hall := hadds.trans h3
        obtain ⟨r2, f, g1, _⟩ := turnWarnings_spec (exact_addHistory (hall.history (.empty _))).2.1
        simp only
        rw [g1, Outcome.ok_bind]
        simp only
        have hfail : ∃ x ∈ es ++ es', IsFailure x.1 := by
          have hv : true ∉ vs := by rw [h2]; simp
          cases h1 with
          | unsigned _ _ => exact ⟨(.corrupted, some (withMagic caller l).source, none), by simp, by simp [IsFailure, stage]⟩
          | @signed _ _ v vs' les es2 j _ _ hle _ =>
            have hvf : v = false := by cases v <;> simp_all
            subst hvf
            have : ∃ x ∈ les, IsFailure x.1 := by
              generalize hb : false = bb at hle
              cases hle with
              | magic => exact ⟨_, List.mem_cons_self, rfl⟩
              | expired => exact ⟨_, List.mem_cons_self, rfl⟩
              | early => exact ⟨_, List.mem_cons_self, rfl⟩
              | @client s ev k1 k2 =>
                rcases C28_two_answers _ _ _ k2 with rfl | rfl
                · simp at hb
                · exact ⟨_, List.mem_cons_self, rfl⟩
              | nothing => simp at hb
            obtain ⟨x, hx, hxf⟩ := this
            exact ⟨x, by simp [hx], hxf⟩
        obtain ⟨t, ht⟩ := report_of_failure hall g1 hfail
        rw [ht, Outcome.ok_bind]
        exact hfin _ _ _ _

/-- Both situations occur: an unknown module name with no location from the caller; the same with an empty one. -/
example : NothingToReport sampleConfig { sampleWorld 0 with moduleName := none } none
    ∧ NothingToReport { sampleConfig with nearModule := false } (sampleWorld 0) (some ⟨0, List.replicate 5 0⟩)
    ∧ ¬ NothingToReport sampleConfig (sampleWorld 0) none := by
  refine ⟨⟨rfl, fun _ => rfl, by simp, .inl rfl⟩, ⟨rfl, by simp, ?_, .inr (by simp)⟩, ?_⟩
  · intro l hl
    simp only [Option.some.injEq] at hl
    exact ⟨_, by rw [← hl]; rfl⟩
  · rintro ⟨_, h, _⟩
    simp [sampleConfig, sampleWorld] at h

end Licensecc
