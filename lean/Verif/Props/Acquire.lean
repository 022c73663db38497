import Verif.Lemmas.Acquire
import Verif.Props.StringUtils
/-!
# Properties of acquire_license: the verdict (C01 - C08)
-/
namespace Licensecc
open Licensecc.Spec

/-! ## A concrete call -/

/-- A licence file. -/
def sampleText : Bytes := b!"[TEST]\nlic_ver = 200\nvalid-from=2020-01-01\nvalid-to = 20300101\nsig = QUJD\n"

/-- Project TEST with magic number 5, licences are searched near the module and where the caller says. -/
def sampleConfig : Config := ⟨b!"TEST", true, false, 5⟩

/-- A machine without adapters and disks. -/
def bareMachine : Machine := ⟨.ok (.notAvail, []), .ok (.notAvail, []), .ub, none, false⟩

/-- The licence lies next to the executable /opt/app; the only accepted signature is `QUJD` for the signing data of the
    licence; time stands still; `mktime` counts days of 86400 seconds in months of 31 and years of 372 days. -/
def sampleWorld (now : Int) : World where
  clock := fun _ => now
  mktime := fun y m d => 86400 * (372 * y + 31 * m + d)
  verify := fun data sig => .ok (data = b!"TESTlic_ver200valid-from2020-01-01valid-to20300101" ∧ sig = b!"QUJD")
  probe := fun p => p = b!"/opt/app.lic"
  read := fun p => if p = b!"/opt/app.lic" then some sampleText else none
  getenv := fun _ => none
  moduleName := some (b!"/opt/app")
  machine := bareMachine
  junk := ⟨.info, .licenseOk, [], []⟩

def sampleCaller : Caller := ⟨b!"test" ++ List.replicate 12 0, 5⟩

/-- 2025-06-15 in the calendar of `sampleWorld`. -/
def sampleNow : Int := 86400 * (372 * 2025 + 31 * 6 + 15)

def retOf : Outcome AcquireResult → Option EventType
  | .ok r => some r.ret
  | _ => none

theorem sample_licensed : retOf (acquire sampleConfig (sampleWorld sampleNow) (some sampleCaller) none none) = some .licenseOk := by
  decide +kernel

/-- The outcome when the call returns normally. -/
def resOf : Outcome AcquireResult → Option AcquireResult
  | .ok r => some r
  | _ => none

theorem retOf_ok {x : Outcome AcquireResult} {t : EventType} (h : retOf x = some t) : ∃ res, x = .ok res ∧ res.ret = t := by
  cases x with
  | ok r => exact ⟨r, rfl, by simpa [retOf] using h⟩
  | throw e => simp [retOf] at h
  | ub => simp [retOf] at h

/-! ## C01 soundness -/

/-- **C01**: if the call returns LICENSE_OK then one of the licence texts found through the configured locators grants
    the requested feature, at a time at which the clock was read during the call, to a caller with this magic number. -/
theorem C01_license_ok_sound {cfg : Config} {w : World} {caller : Option Caller} {hint : Option LicenseLocation}
    {out : Option LicInfo} {res : AcquireResult} (h : acquire cfg w caller hint out = .ok res) (hok : res.ret = .licenseOk) :
    ∃ feature src text k, FeatureIs cfg caller feature ∧ Offers cfg w hint src text ∧ k < res.ticks
      ∧ Grants cfg w (magicOf caller) feature text (w.clock k) := by
  obtain ⟨f, r, lics, es, hf, hr, _, hc, _⟩ := acquire_cases h
  rcases hc with ⟨_, _, href, _⟩ | ⟨_, vs, es', oks, errs, r1, _, hloop, ⟨_, hoks, _⟩ | ⟨_, _, href, _⟩⟩
  · have := (refused_failure href).1
    rw [hok] at this; simp [IsFailure, stage] at this
  · cases oks with
    | nil => exact absurd rfl hoks
    | cons i is =>
      obtain ⟨l, hl, j, j', _, hj', _, ha⟩ := judged_sound (judgeLoop_judged hloop) i (by simp)
      obtain ⟨src, text, ho, hlic⟩ := (mem_readLicenses hr l).mp hl
      exact ⟨f, src, text, j', hf, ho, hj', (accepted_iff hlic _).mp ha⟩
  · have := (refused_failure href).1
    rw [hok] at this; simp [IsFailure, stage] at this

example : ∃ res, acquire sampleConfig (sampleWorld sampleNow) (some sampleCaller) none none = .ok res ∧ res.ret = .licenseOk :=
  retOf_ok sample_licensed

/-! ## C02 completeness -/

/-- **C02**: if the call returns at all and some located licence text grants the feature whenever the clock is read
    during the call, then the result is LICENSE_OK, whatever else was found. -/
theorem C02_license_ok_complete {cfg : Config} {w : World} {caller : Option Caller} {hint : Option LicenseLocation}
    {out : Option LicInfo} {res : AcquireResult} (h : acquire cfg w caller hint out = .ok res) {feature src text : Bytes}
    (hf : FeatureIs cfg caller feature) (ho : Offers cfg w hint src text)
    (hg : ∀ k ≤ res.ticks, Grants cfg w (magicOf caller) feature text (w.clock k)) : res.ret = .licenseOk := by
  obtain ⟨f, r, lics, es, hf', hr, _, hc, _⟩ := acquire_cases h
  have := featureIs_unique hf hf'; subst this
  have hlic : ∃ l, l ∈ lics ∧ IsLicence feature src text l := licence_of_complete hr ho (hg 0 (Nat.zero_le _)).complete
  obtain ⟨l, hl, hisl⟩ := hlic
  rcases hc with ⟨hnil, _⟩ | ⟨_, vs, es', oks, errs, r1, _, hloop, ⟨_, hoks, hret, _⟩ | ⟨_, hoks, _⟩⟩
  · subst hnil; simp at hl
  · exact hret
  · exact absurd hoks (judged_complete (judgeLoop_judged hloop) hl (fun j _ hj => (accepted_iff hisl _).mpr (hg j hj)))

/-- **C01**, **C02**: while the clock stands still, LICENSE_OK is returned exactly when some located text grants the
    feature. -/
theorem C02_license_ok_iff {cfg : Config} {w : World} {caller : Option Caller} {hint : Option LicenseLocation}
    {out : Option LicInfo} {res : AcquireResult} (h : acquire cfg w caller hint out = .ok res) {now : Int}
    (hclock : ∀ k, w.clock k = now) :
    res.ret = .licenseOk ↔ ∃ feature src text, FeatureIs cfg caller feature ∧ Offers cfg w hint src text
      ∧ Grants cfg w (magicOf caller) feature text now := by
  constructor
  · intro hok
    obtain ⟨f, src, text, k, h1, h2, _, h3⟩ := C01_license_ok_sound h hok
    exact ⟨f, src, text, h1, h2, by rw [hclock] at h3; exact h3⟩
  · rintro ⟨f, src, text, h1, h2, h3⟩
    exact C02_license_ok_complete h h1 h2 (fun k _ => by rw [hclock]; exact h3)

/-- The hypotheses of C02 are met by the sample. -/
theorem sample_grants : ∃ res feature src text,
    acquire sampleConfig (sampleWorld sampleNow) (some sampleCaller) none none = .ok res
    ∧ FeatureIs sampleConfig (some sampleCaller) feature ∧ Offers sampleConfig (sampleWorld sampleNow) none src text
    ∧ ∀ k ≤ res.ticks, Grants sampleConfig (sampleWorld sampleNow) (magicOf (some sampleCaller)) feature text
        ((sampleWorld sampleNow).clock k) := by
  obtain ⟨res, h1, h2⟩ := retOf_ok sample_licensed
  obtain ⟨f, src, text, k, h3, h4, _, h5⟩ := C01_license_ok_sound h1 h2
  exact ⟨res, f, src, text, h1, h3, h4, fun _ _ => h5⟩

/-! ## C03, C04 dates -/

theorem seconds_of_notation {s : Bytes} {d : DateDigits} (h : IsNotation s d) (mk : Int → Int → Int → Int) :
    secondsFromEpoch mk s = .ok (mk d.year d.month d.day) := by
  obtain ⟨h1, h2, h3⟩ := C33_date_notations mk d
  rcases h with rfl | rfl | rfl
  · exact h1
  · exact h2
  · exact h3

theorem isLimit_unique {es : List (Bytes × Bytes)} {k v v' : Bytes} (h : IsLimit es k v) (h' : IsLimit es k v') : v = v' := by
  have := h.2; rw [h'.2] at this; simpa using this.symm

/-- **C03**: with a `valid-to` date the text counts as not expired at second `now` exactly up to and including the
    (local) midnight at which that day begins. -/
theorem C03_exact_second {w : World} {feature text v : Bytes} {d : DateDigits}
    (hv : IsLimit (entriesFor feature text) (b!"valid-to") v) (hd : IsNotation v d) (now : Int) :
    NotExpired w feature text now ↔ now ≤ w.mktime d.year d.month d.day := by
  unfold NotExpired
  constructor
  · intro h
    obtain ⟨t, h1, h2⟩ := h v hv
    rw [seconds_of_notation hd] at h1
    simp only [Outcome.ok.injEq] at h1; omega
  · intro h v' hv'
    rw [isLimit_unique hv' hv]
    exact ⟨_, seconds_of_notation hd _, h⟩

/-- **C03**: a text with a `valid-to` date grants nothing after the midnight at which that day begins - in particular not
    during the day itself. -/
theorem C03_expired_never_grants {cfg : Config} {w : World} {magic : Nat} {feature text v : Bytes} {d : DateDigits} {now : Int}
    (hv : IsLimit (entriesFor feature text) (b!"valid-to") v) (hd : IsNotation v d) (hlate : w.mktime d.year d.month d.day < now) :
    ¬ Grants cfg w magic feature text now := by
  intro h
  have := (C03_exact_second hv hd now).mp h.notExpired
  omega

/-- **C03**: if every located licence for the feature has a `valid-to` date whose midnight has passed, the call does
    not return LICENSE_OK. -/
theorem C03_all_expired {cfg : Config} {w : World} {caller : Option Caller} {hint : Option LicenseLocation}
    {out : Option LicInfo} {res : AcquireResult} (h : acquire cfg w caller hint out = .ok res)
    (hall : ∀ feature src text, FeatureIs cfg caller feature → Offers cfg w hint src text →
      ∃ v d, IsLimit (entriesFor feature text) (b!"valid-to") v ∧ IsNotation v d ∧ ∀ k, w.mktime d.year d.month d.day < w.clock k) :
    res.ret ≠ .licenseOk := by
  intro hok
  obtain ⟨f, src, text, k, h1, h2, _, h3⟩ := C01_license_ok_sound h hok
  obtain ⟨v, d, hv, hd, hk⟩ := hall f src text h1 h2
  exact C03_expired_never_grants hv hd (hk k) h3

/-- The boundary of C03 in the sample: at midnight of the expiry day the licence works, one second later it does not. -/
example : retOf (acquire sampleConfig (sampleWorld (86400 * (372 * 2030 + 31 * 1 + 1))) (some sampleCaller) none none) = some .licenseOk
    ∧ retOf (acquire sampleConfig (sampleWorld (86400 * (372 * 2030 + 31 * 1 + 1) + 1)) (some sampleCaller) none none)
        = some .productExpired := by decide +kernel

/-- **C04**: with a `valid-from` date the text is usable exactly from the (local) midnight at which that day begins. -/
theorem C04_exact_second {w : World} {feature text v : Bytes} {d : DateDigits}
    (hv : IsLimit (entriesFor feature text) (b!"valid-from") v) (hd : IsNotation v d) (now : Int) :
    Started w feature text now ↔ w.mktime d.year d.month d.day ≤ now := by
  unfold Started
  constructor
  · intro h
    obtain ⟨t, h1, h2⟩ := h v hv
    rw [seconds_of_notation hd] at h1
    simp only [Outcome.ok.injEq] at h1; omega
  · intro h v' hv'
    rw [isLimit_unique hv' hv]
    exact ⟨_, seconds_of_notation hd _, h⟩

/-- **C04**: a text with a `valid-from` date grants nothing before the midnight at which that day begins. -/
theorem C04_early_never_grants {cfg : Config} {w : World} {magic : Nat} {feature text v : Bytes} {d : DateDigits} {now : Int}
    (hv : IsLimit (entriesFor feature text) (b!"valid-from") v) (hd : IsNotation v d) (hearly : now < w.mktime d.year d.month d.day) :
    ¬ Grants cfg w magic feature text now := by
  intro h
  have := (C04_exact_second hv hd now).mp h.started
  omega

/-- **C04**: if every located licence for the feature only begins later, the call does not return LICENSE_OK. -/
theorem C04_all_early {cfg : Config} {w : World} {caller : Option Caller} {hint : Option LicenseLocation}
    {out : Option LicInfo} {res : AcquireResult} (h : acquire cfg w caller hint out = .ok res)
    (hall : ∀ feature src text, FeatureIs cfg caller feature → Offers cfg w hint src text →
      ∃ v d, IsLimit (entriesFor feature text) (b!"valid-from") v ∧ IsNotation v d ∧ ∀ k, w.clock k < w.mktime d.year d.month d.day) :
    res.ret ≠ .licenseOk := by
  intro hok
  obtain ⟨f, src, text, k, h1, h2, _, h3⟩ := C01_license_ok_sound h hok
  obtain ⟨v, d, hv, hd, hk⟩ := hall f src text h1 h2
  exact C04_early_never_grants hv hd (hk k) h3

/-- The boundary of C04 in the sample. -/
example : retOf (acquire sampleConfig (sampleWorld (86400 * (372 * 2020 + 31 * 1 + 1))) (some sampleCaller) none none) = some .licenseOk
    ∧ retOf (acquire sampleConfig (sampleWorld (86400 * (372 * 2020 + 31 * 1 + 1) - 1)) (some sampleCaller) none none)
        = some .productExpired := by decide +kernel

/-! ## C05 magic number -/

/-- **C05**: a caller whose magic number is not the one compiled in is never licensed. -/
theorem C05_wrong_magic {cfg : Config} {w : World} {c : Caller} {hint : Option LicenseLocation} {out : Option LicInfo}
    {res : AcquireResult} (h : acquire cfg w (some c) hint out = .ok res) (hm : c.magic ≠ cfg.magic) : res.ret ≠ .licenseOk := by
  intro hok
  obtain ⟨f, src, text, k, _, _, _, h3⟩ := C01_license_ok_sound h hok
  exact hm h3.magic

/-- **C05**: without caller informations the magic number counts as 0. -/
theorem C05_no_caller {cfg : Config} {w : World} {hint : Option LicenseLocation} {out : Option LicInfo}
    {res : AcquireResult} (h : acquire cfg w none hint out = .ok res) (hm : cfg.magic ≠ 0) : res.ret ≠ .licenseOk := by
  intro hok
  obtain ⟨f, src, text, k, _, _, _, h3⟩ := C01_license_ok_sound h hok
  exact hm h3.magic.symm

example : retOf (acquire sampleConfig (sampleWorld sampleNow) (some { sampleCaller with magic := 6 }) none none) = some .corrupted
    ∧ retOf (acquire sampleConfig (sampleWorld sampleNow) none none none) = some .corrupted
    ∧ retOf (acquire { sampleConfig with magic := 0 } (sampleWorld sampleNow) none none none) = some .licenseOk := by
  decide +kernel

/-! ## C06 hardware -/

/-- **C06**: a text with a `client-signature` grants only if the identifier decodes and matches an adapter or disk of
    this machine. -/
theorem C06_needs_hardware {cfg : Config} {w : World} {magic : Nat} {feature text s : Bytes} {now : Int}
    (hs : IsLimit (entriesFor feature text) (b!"client-signature") s) (h : Grants cfg w magic feature text now) :
    ∃ i, HwId.ofString s = .ok i ∧ HwMatches w.machine i := h.machine s hs

/-- **C06**: if every located licence for the feature is locked to hardware that is not there, the call does not return
    LICENSE_OK. -/
theorem C06_other_machine {cfg : Config} {w : World} {caller : Option Caller} {hint : Option LicenseLocation}
    {out : Option LicInfo} {res : AcquireResult} (h : acquire cfg w caller hint out = .ok res)
    (hall : ∀ feature src text, FeatureIs cfg caller feature → Offers cfg w hint src text →
      ∃ s, IsLimit (entriesFor feature text) (b!"client-signature") s
        ∧ ∀ i, HwId.ofString s = .ok i → ¬ HwMatches w.machine i) :
    res.ret ≠ .licenseOk := by
  intro hok
  obtain ⟨f, src, text, k, h1, h2, _, h3⟩ := C01_license_ok_sound h hok
  obtain ⟨s, hs, hno⟩ := hall f src text h1 h2
  obtain ⟨i, hi, hm⟩ := C06_needs_hardware hs h3
  exact hno i hi hm

/-- A licence locked to the MAC address 00:01:02:03:04:05. -/
def lockedText : Bytes := b!"[TEST]\nlic_ver = 200\nclient-signature = AAAA-AQID-BAU=\nsig = QUJD\n"

def lockedWorld (as : List Adapter) : World :=
  { sampleWorld sampleNow with
    verify := fun data _ => .ok (data = b!"TESTclient-signatureAAAA-AQID-BAU=lic_ver200")
    read := fun _ => some lockedText
    machine := { bareMachine with adapters := .ok (.ok, as) } }

example : retOf (acquire sampleConfig (lockedWorld [⟨⟨9, 9, 9, 9, 9, 9⟩, ⟨0, 0, 0, 0⟩⟩, ⟨⟨0, 1, 2, 3, 4, 5⟩, ⟨0, 0, 0, 0⟩⟩])
      (some sampleCaller) none none) = some .licenseOk
    ∧ retOf (acquire sampleConfig (lockedWorld [⟨⟨9, 9, 9, 9, 9, 9⟩, ⟨0, 0, 0, 0⟩⟩])
      (some sampleCaller) none none) = some .identifiersMismatch := by decide +kernel

/-! ## C07 features -/

/-- **C07**: if no located text has a section for the feature, the call does not return LICENSE_OK. -/
theorem C07_no_section_never_licensed {cfg : Config} {w : World} {caller : Option Caller} {hint : Option LicenseLocation}
    {out : Option LicInfo} {res : AcquireResult} (h : acquire cfg w caller hint out = .ok res)
    (hall : ∀ feature src text, FeatureIs cfg caller feature → Offers cfg w hint src text → entriesFor feature text = []) :
    res.ret ≠ .licenseOk := by
  intro hok
  obtain ⟨f, src, text, k, h1, h2, _, h3⟩ := C01_license_ok_sound h hok
  obtain ⟨⟨s, hs⟩, _⟩ := h3.complete
  rw [hall f src text h1 h2] at hs
  simp [lastValue] at hs

/-- **C07**: whether a text grants a feature depends only on the entries of the sections for that feature. -/
theorem C07_grants_isolated {cfg : Config} {w : World} {magic : Nat} {feature text text' : Bytes} {now : Int}
    (he : entriesFor feature text = entriesFor feature text') (h : Grants cfg w magic feature text now) :
    Grants cfg w magic feature text' now := by
  obtain ⟨h1, h2, h3, h4, h5, h6⟩ := h
  unfold Complete at h1; unfold Signed at h2; unfold NotExpired at h4; unfold Started at h5; unfold OnThisMachine at h6
  rw [he] at h1 h2 h4 h5 h6
  exact ⟨h1, h2, h3, h4, h5, h6⟩

example : retOf (acquire sampleConfig (sampleWorld sampleNow) (some ⟨b!"other" ++ List.replicate 11 0, 5⟩) none none)
    = some .productNotLicensed := by decide +kernel

/-! ## C08 order and number of licences -/

/-- **C08**: adding licence texts never turns LICENSE_OK into a refusal, nor does any change of order: if everything
    offered in the first call is offered in the second, no licence begins or expires meanwhile and everything else the verdict
    depends on is the same, LICENSE_OK remains LICENSE_OK as long as the second call returns. -/
theorem C08_more_licences {cfg cfg' : Config} {w w' : World} {caller : Option Caller} {hint hint' : Option LicenseLocation}
    {out out' : Option LicInfo} {res res' : AcquireResult}
    (h : acquire cfg w caller hint out = .ok res) (h' : acquire cfg' w' caller hint' out' = .ok res')
    (hclock : ∀ feature src text, Offers cfg w hint src text → ∀ k < res.ticks, ∀ j ≤ res'.ticks,
      NotExpired w feature text (w.clock k) → Started w feature text (w.clock k) →
      NotExpired w feature text (w'.clock j) ∧ Started w feature text (w'.clock j))
    (hname : cfg'.projectName = cfg.projectName) (hmagic : cfg'.magic = cfg.magic)
    (hmk : w'.mktime = w.mktime) (hver : w'.verify = w.verify) (hmach : w'.machine = w.machine)
    (hoff : ∀ src text, Offers cfg w hint src text → ∃ src', Offers cfg' w' hint' src' text)
    (hok : res.ret = .licenseOk) : res'.ret = .licenseOk := by
  obtain ⟨f, src, text, k, h1, h2, hk, h3⟩ := C01_license_ok_sound h hok
  obtain ⟨src', h4⟩ := hoff src text h2
  refine C02_license_ok_complete h' (feature := f) (src := src') (text := text) ?_ h4 fun j hj => ?_
  · cases h1 with
    | noCaller => rw [← hname]; exact .noCaller
    | noName hn => rw [← hname]; exact .noName hn
    | named hn hne => exact .named hn hne
  · obtain ⟨g1, g2, g3, g4, g5, g6⟩ := h3
    obtain ⟨g7, g8⟩ := hclock f src text h2 k hk j hj g4 g5
    refine ⟨g1, ?_, by rw [hmagic]; exact g3, ?_, ?_, ?_⟩
    · unfold Signed; rw [hver]; exact g2
    · unfold NotExpired; rw [hmk]; exact g7
    · unfold Started; rw [hmk]; exact g8
    · unfold OnThisMachine; rw [hmach]; exact g6

/-- If time stands still no licence begins or expires meanwhile. -/
example {cfg : Config} {w w' : World} {hint : Option LicenseLocation} {now : Int} {n n' : Nat}
    (h : ∀ k, w.clock k = now) (h' : ∀ k, w'.clock k = now) (feature src text : Bytes) (_ : Offers cfg w hint src text) :
    ∀ k < n, ∀ j ≤ n', NotExpired w feature text (w.clock k) → Started w feature text (w.clock k) →
      NotExpired w feature text (w'.clock j) ∧ Started w feature text (w'.clock j) := by
  intro k _ j _ h1 h2
  rw [h, ← h' j] at h1 h2
  exact ⟨h1, h2⟩

/-- The sample with a further, broken licence passed by the caller. -/
example : retOf (acquire sampleConfig (sampleWorld sampleNow) (some sampleCaller) (some ⟨1, b!"[TEST]\nlic_ver=200\nsig=x\n" ++ [0]⟩) none)
    = some .licenseOk := by decide +kernel

end Licensecc
