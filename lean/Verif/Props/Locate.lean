import Verif.Props.Signing
import Verif.Props.Base64
/-!
# C38, C40, C41: where licences come from
-/
namespace Licensecc
open Spec

namespace Spec

/-- Directory separators: slash and backslash. -/
def IsSep (c : UInt8) : Prop := c = 47 ∨ c = 92

/-- A directory prefix of a path: nothing, or something that ends with a separator. -/
def DirPart (d : Bytes) : Prop := d = [] ∨ ∃ d' c, d = d' ++ [c] ∧ IsSep c

/-- A path component: no separator inside. -/
def Component (s : Bytes) : Prop := ∀ c ∈ s, ¬ IsSep c

/-- No dot inside. -/
def NoDot (s : Bytes) : Prop := 46 ∉ s

end Spec

/-! ## `find_last_of` -/

theorem findLast_none {p : UInt8 → Bool} {s : Bytes} (h : ∀ c ∈ s, p c = false) : findLast p s = none := by
  induction s with
  | nil => rfl
  | cons x s ih => simp [findLast, ih (fun c hc => h c (by simp [hc])), h x (by simp)]

theorem findLast_cons_none {p : UInt8 → Bool} {s : Bytes} {c : UInt8} (h : ∀ c ∈ s, p c = false) (hc : p c = true) :
    findLast p (c :: s) = some 0 := by
  simp [findLast, findLast_none h, hc]

theorem findLast_append {p : UInt8 → Bool} {a b : Bytes} {i : Nat} (h : findLast p b = some i) :
    findLast p (a ++ b) = some (a.length + i) := by
  induction a with
  | nil => simpa using h
  | cons x a ih => simp [findLast, ih]; omega

theorem findLast_append_none {p : UInt8 → Bool} {a b : Bytes} (h : findLast p b = none) :
    findLast p (a ++ b) = findLast p a := by
  induction a with
  | nil => simpa [findLast] using h
  | cons x a ih => simp [findLast, ih]

theorem findLast_lt {p : UInt8 → Bool} {a : Bytes} {i : Nat} (h : findLast p a = some i) : i < a.length := by
  induction a generalizing i with
  | nil => simp [findLast] at h
  | cons x a ih =>
    simp only [findLast] at h
    split at h
    · rename_i j hj; simp at h; subst h; have := ih hj; simp; omega
    · split at h
      · simp at h; subst h; simp
      · simp at h

theorem sepTest {c : UInt8} : (c == 92 || c == 47) = true ↔ IsSep c := by
  simp [IsSep]; grind

theorem component_test {s : Bytes} (h : Component s) : ∀ c ∈ s, (c == 92 || c == 47) = false := by
  intro c hc
  cases h' : (c == 92 || c == 47) with
  | false => rfl
  | true => exact absurd (sepTest.mp h') (h c hc)

theorem noDot_test {s : Bytes} (h : NoDot s) : ∀ c ∈ s, (c == 46) = false := by
  intro c hc
  cases h' : (c == 46) with
  | false => rfl
  | true => simp at h'; subst h'; exact absurd hc h

/-! ## C38 -/

/-- **C38**: the extension of the last component is dropped, the rest is kept.  (Excluded: `.ext` alone and `..`; but the
    last component of `dir/.ext` loses its whole name.) -/
theorem C38_drops {dir stem ext : Bytes} (hd : DirPart dir) (hs : Component stem) (he : Component ext) (hn : NoDot ext)
    (h1 : ¬ (dir = [] ∧ stem = [])) (h2 : dir ++ stem ++ 46 :: ext ≠ b!"..") :
    removeExtension (dir ++ stem ++ 46 :: ext) = dir ++ stem := by
  have e1 : findLast (· == 46) (dir ++ stem ++ 46 :: ext) = some (dir ++ stem).length := by
    have := findLast_append (p := (· == 46)) (a := dir ++ stem) (findLast_cons_none (noDot_test hn) (c := 46) rfl)
    simpa using this
  have hne : ¬ (dir ++ stem ++ 46 :: ext = b!"." ∨ dir ++ stem ++ 46 :: ext = b!"..") := by
    rintro (h | h)
    · apply h1
      cases dir with
      | nil => cases stem with
        | nil => simp
        | cons x s => simp at h
      | cons x d => simp at h
    · exact h2 h
  have htake : (dir ++ stem ++ 46 :: ext).take (dir ++ stem).length = dir ++ stem := by
    rw [List.take_left]
  unfold removeExtension
  rw [if_neg hne, e1]
  dsimp only
  have hrest : ∀ c ∈ stem ++ 46 :: ext, (c == 92 || c == 47) = false := by
    intro c hc
    simp only [List.mem_append, List.mem_cons] at hc
    rcases hc with hc | rfl | hc
    · exact component_test hs c hc
    · decide
    · exact component_test he c hc
  rcases hd with rfl | ⟨d', c, rfl, hc⟩
  · have : findLast (fun c => c == 92 || c == 47) ([] ++ stem ++ 46 :: ext) = none := findLast_none (by simpa using hrest)
    rw [this]
    dsimp only
    rw [if_neg (by simp; rintro rfl; exact h1 ⟨rfl, rfl⟩)]
    exact htake
  · have : findLast (fun c => c == 92 || c == 47) (d' ++ [c] ++ stem ++ 46 :: ext) = some (d'.length + 0) := by
      have := findLast_append (p := fun c => c == 92 || c == 47) (a := d') (findLast_cons_none hrest (sepTest.mpr hc))
      simpa using this
    rw [this]
    dsimp only
    rw [if_neg (by simp; omega)]
    exact htake

example : removeExtension b!"/opt/my.app/prog.bin" = b!"/opt/my.app/prog" := by decide
example : removeExtension b!"/opt/app/.profile" = b!"/opt/app/" := by decide
/-- The hypotheses of `C38_drops` are met. -/
example : removeExtension (b!"/opt/my.app/" ++ b!"prog.v1" ++ 46 :: b!"exe") = b!"/opt/my.app/" ++ b!"prog.v1" :=
  C38_drops (.inr ⟨b!"/opt/my.app", 47, rfl, .inl rfl⟩) (by unfold Component IsSep; decide) (by unfold Component IsSep; decide)
    (by unfold NoDot; decide) (by decide) (by decide)

/-- **C38**: a path whose last component has no dot is unchanged, whatever the directories look like. -/
theorem C38_keeps {dir name : Bytes} (hd : DirPart dir) (hs : Component name) (hn : NoDot name) :
    removeExtension (dir ++ name) = dir ++ name := by
  unfold removeExtension
  split
  · rfl
  rcases hd with rfl | ⟨d', c, rfl, hc⟩
  · rw [findLast_none (by simpa using noDot_test hn)]
  · have e1 : findLast (· == 46) (d' ++ [c] ++ name) = findLast (· == 46) d' := by
      rw [List.append_assoc]
      apply findLast_append_none
      apply findLast_none
      intro x hx
      simp only [List.singleton_append, List.mem_cons] at hx
      rcases hx with rfl | hx
      · rcases hc with rfl | rfl <;> decide
      · exact noDot_test hn x hx
    have e2 : findLast (fun c => c == 92 || c == 47) (d' ++ [c] ++ name) = some (d'.length + 0) := by
      have := findLast_append (p := fun c => c == 92 || c == 47) (a := d')
        (findLast_cons_none (component_test hs) (sepTest.mpr hc))
      simpa using this
    rw [e1, e2]
    cases h : findLast (· == 46) d' with
    | none => rfl
    | some i =>
      have := findLast_lt h
      dsimp only
      rw [if_pos (by omega)]

example : removeExtension (b!"/opt/my.app/" ++ b!"prog") = b!"/opt/my.app/" ++ b!"prog" :=
  C38_keeps (.inr ⟨b!"/opt/my.app", 47, rfl, .inl rfl⟩) (by unfold Component IsSep; decide) (by unfold NoDot; decide)

/-- **C38**: `..` and a lone `.ext` (in particular `.`) are unchanged. -/
theorem C38_special {ext : Bytes} (he : Component ext) (hn : NoDot ext) :
    removeExtension b!".." = b!".." ∧ removeExtension (46 :: ext) = 46 :: ext := by
  refine ⟨by decide, ?_⟩
  unfold removeExtension
  split
  · rfl
  rw [findLast_cons_none (noDot_test hn) rfl]
  dsimp only
  rw [findLast_none (p := fun c => c == 92 || c == 47)]
  · rfl
  · intro c hc
    simp only [List.mem_cons] at hc
    rcases hc with rfl | hc
    · decide
    · exact component_test he c hc

example : removeExtension b!".profile" = b!".profile" :=
  (C38_special (ext := b!"profile") (by unfold Component IsSep; decide) (by unfold NoDot; decide)).2

/-- Splitting at the last element that satisfies a test. -/
theorem split_last (p : UInt8 → Prop) [DecidablePred p] (s : Bytes) :
    (∀ c ∈ s, ¬ p c) ∨ ∃ a c b, s = a ++ c :: b ∧ p c ∧ ∀ x ∈ b, ¬ p x := by
  induction s with
  | nil => simp
  | cons x s ih =>
    rcases ih with h | ⟨a, c, b, h1, h2, h3⟩
    · by_cases hx : p x
      · exact .inr ⟨[], x, s, rfl, hx, h⟩
      · left
        intro c hc
        simp only [List.mem_cons] at hc
        rcases hc with rfl | hc
        · exact hx
        · exact h c hc
    · exact .inr ⟨x :: a, c, b, by rw [h1]; rfl, h2, h3⟩

instance : DecidablePred IsSep := fun c => by unfold IsSep; infer_instance

/-- **C38**: these cases are all there are: every path is a directory part and a last component, which has no dot or
    is a stem and an extension. -/
theorem C38_total (path : Bytes) : ∃ dir name, path = dir ++ name ∧ DirPart dir ∧ Component name
    ∧ (NoDot name ∨ ∃ stem ext, name = stem ++ 46 :: ext ∧ Component stem ∧ Component ext ∧ NoDot ext) := by
  have key : ∃ dir name, path = dir ++ name ∧ DirPart dir ∧ Component name := by
    rcases split_last IsSep path with h | ⟨a, c, b, h1, h2, h3⟩
    · exact ⟨[], path, rfl, .inl rfl, h⟩
    · exact ⟨a ++ [c], b, by simp [h1], .inr ⟨a, c, rfl, h2⟩, h3⟩
  obtain ⟨dir, name, h1, h2, h3⟩ := key
  refine ⟨dir, name, h1, h2, h3, ?_⟩
  rcases split_last (· = 46) name with h | ⟨a, c, b, e1, rfl, e3⟩
  · exact .inl (fun hm => h 46 hm rfl)
  · refine .inr ⟨a, b, e1, ?_, ?_, fun hm => e3 46 hm rfl⟩
    · intro c hc; exact h3 c (by rw [e1]; simp [hc])
    · intro c hc; exact h3 c (by rw [e1]; simp [hc])

/-- **C38**: removing the extension never changes what precedes the last component. -/
theorem C38_prefix (path : Bytes) : ∃ ext, path = removeExtension path ++ ext ∧ Component ext := by
  obtain ⟨dir, name, h1, h2, h3, h4 | ⟨stem, ext, h5, h6, h7, h8⟩⟩ := C38_total path
  · exact ⟨[], by rw [h1, C38_keeps h2 h3 h4]; simp, by unfold Component; simp⟩
  · by_cases hd : dir = [] ∧ stem = []
    · obtain ⟨rfl, rfl⟩ := hd
      refine ⟨[], ?_, by unfold Component; simp⟩
      simp only [List.nil_append] at h5 h1
      rw [h1, h5, (C38_special h7 h8).2]; simp
    · by_cases hdd : dir ++ stem ++ 46 :: ext = b!".."
      · refine ⟨[], ?_, by unfold Component; simp⟩
        rw [h1, h5, ← List.append_assoc, hdd]; decide
      · refine ⟨46 :: ext, ?_, ?_⟩
        · rw [h1, h5, ← List.append_assoc, C38_drops h2 h6 h7 h8 hd hdd]
        · intro c hc
          exact h3 c (by rw [h5]; simp only [List.mem_append]; exact .inr hc)

/-! ## Calls in worlds that look alike -/

theorem judgeLoop_congr {cfg : Config} {w w' : World} {caller : Option Caller} (h1 : w'.clock = w.clock)
    (h2 : w'.mktime = w.mktime) (h3 : w'.verify = w.verify) (h4 : w'.machine = w.machine) (lics : List FullLicense) :
    ∀ r k, judgeLoop cfg w' caller r k lics = judgeLoop cfg w caller r k lics := by
  induction lics with
  | nil => intro r k; rfl
  | cons l ls ih =>
    intro r k
    simp only [judgeLoop, ih, verifySignature, toLicenseInfo, verifyLimits, checkExpiry, checkBegin, checkClient, h1, h2, h3, h4]

theorem judge_congr {cfg : Config} {w w' : World} {caller : Option Caller} (h1 : w'.clock = w.clock)
    (h2 : w'.mktime = w.mktime) (h3 : w'.verify = w.verify) (h4 : w'.machine = w.machine) (h5 : w'.junk = w.junk)
    (out : Option LicInfo) (r : Registry) (lics : List FullLicense) :
    judge cfg w' caller out r lics = judge cfg w caller out r lics := by
  cases lics with
  | nil => simp only [judge, finish, h5]
  | cons l ls => simp only [judge, judgeLoop_congr h1 h2 h3 h4, finish, h5]

theorem readLocations_congr {w w' : World} {f : Bytes} {l : Locator} {b : Bool}
    (h : ∀ p, retrieveContent w' l b p = retrieveContent w l b p) (ps : List Bytes) :
    ∀ r, readLocations w' f l b r ps = readLocations w f l b r ps := by
  induction ps with
  | nil => intro r; rfl
  | cons p ps ih => intro r; simp only [readLocations, h, ih]

theorem readLocators_congr {w w' : World} {f : Bytes} (ls : List Locator)
    (h : ∀ l ∈ ls, (∀ r, licenseLocations w' l r = licenseLocations w l r)
      ∧ ∀ b p, retrieveContent w' l b p = retrieveContent w l b p) :
    ∀ r, readLocators w' f r ls = readLocators w f r ls := by
  induction ls with
  | nil => intro r; rfl
  | cons l ls ih =>
    intro r
    have hl := h l (by simp)
    simp only [readLocators, hl.1, readLocations_congr (hl.2 _), ih (fun l' hl' => h l' (by simp [hl']))]

theorem acquire_congr {cfg : Config} {w w' : World} {caller : Option Caller} {hint : Option LicenseLocation}
    {out : Option LicInfo} (h1 : w'.clock = w.clock)
    (h2 : w'.mktime = w.mktime) (h3 : w'.verify = w.verify) (h4 : w'.machine = w.machine) (h5 : w'.junk = w.junk)
    (h6 : w'.platform = w.platform)
    (h : ∀ l ∈ activeStrategies cfg hint, (∀ r, licenseLocations w' l r = licenseLocations w l r)
      ∧ ∀ b p, retrieveContent w' l b p = retrieveContent w l b p) :
    acquire cfg w' caller hint out = acquire cfg w caller hint out := by
  simp only [acquire, readLicenses, readLocators_congr _ h, judge_congr h1 h2 h3 h4 h5, h6]

theorem filterExistingFiles_congr {w w' : World} (h : w'.probe = w.probe) (e : Bytes) (ps : List Bytes) :
    ∀ r, filterExistingFiles w' e r ps = filterExistingFiles w e r ps := by
  induction ps with
  | nil => intro r; rfl
  | cons p ps ih => intro r; simp only [filterExistingFiles, h, ih]

/-! ## C40 -/

/-- Setting one environment variable. -/
def World.setenv (w : World) (name value : Bytes) : World :=
  { w with getenv := fun n => if n = name then some value else w.getenv n }

/-- **C40** (negation of "the licence in LICENSE_DATA is read"): once LICENSE_DATA is set, replacing its content by any
    other text of the same format changes nothing at all about the call. -/
theorem C40_content_never_read {cfg : Config} {w : World} {caller : Option Caller} {hint : Option LicenseLocation}
    {out : Option LicInfo} {dat dat' : Bytes} (hd : w.getenv b!"LICENSE_DATA" = some dat) (h0 : dat ≠ []) (h0' : dat' ≠ [])
    (hf : identifyFormat dat' = identifyFormat dat) :
    acquire cfg (w.setenv b!"LICENSE_DATA" dat') caller hint out = acquire cfg w caller hint out := by
  refine acquire_congr (w := w) (w' := w.setenv b!"LICENSE_DATA" dat') rfl rfl rfl rfl rfl rfl ?_
  intro l _
  have e1 : (w.setenv b!"LICENSE_DATA" dat').getenv locationVar = w.getenv locationVar := by
    simp [World.setenv, locationVar]
  have e2 : (w.setenv b!"LICENSE_DATA" dat').getenv dataVar = some dat' := by
    simp [World.setenv, dataVar]
  have e3 : w.getenv dataVar = some dat := hd
  have e4 : (w.setenv b!"LICENSE_DATA" dat').probe = w.probe := rfl
  have e5 : (w.setenv b!"LICENSE_DATA" dat').moduleName = w.moduleName := rfl
  constructor
  · intro r
    cases l with
    | applicationFolder => rfl
    | environmentVarLocation => simp only [licenseLocations, e1, filterExistingFiles_congr e4]
    | environmentVarData =>
      simp only [licenseLocations, e2, e3]
      cases dat with
      | nil => exact absurd rfl h0
      | cons c v => cases dat' with
        | nil => exact absurd rfl h0'
        | cons c' v' => dsimp only; rw [hf]
    | externalDefinition loc => simp only [licenseLocations, filterExistingFiles_congr e4]
  · intro b p
    cases l with
    | applicationFolder => rfl
    | environmentVarLocation => rfl
    | environmentVarData => simp only [retrieveContent, e1]
    | externalDefinition loc => rfl

/-- **C40** (negation): with environment lookup enabled, a licence in LICENSE_DATA and LICENSE_LOCATION not set, the call
    never returns: a null pointer is dereferenced (unless an exception escapes before). -/
theorem C40_data_alone_never_returns {cfg : Config} {w : World} {caller : Option Caller} {hint : Option LicenseLocation}
    {out : Option LicInfo} {dat : Bytes} (he : cfg.withEnvVar = true) (hd : w.getenv b!"LICENSE_DATA" = some dat)
    (h0 : dat ≠ []) (hf : identifyFormat dat ≠ .unknown) (hl : w.getenv b!"LICENSE_LOCATION" = none) :
    ∀ res, acquire cfg w caller hint out ≠ .ok res := by
  intro res h
  obtain ⟨f, r, lics, _, hr, _⟩ := acquire_split h
  have hmem : Locator.environmentVarData ∈ activeStrategies cfg hint := by simp [activeStrategies, he]
  have key : ∀ ls r r' lics, Locator.environmentVarData ∈ ls → readLocators w f r ls ≠ .ok (r', lics) := by
    intro ls
    induction ls with
    | nil => simp
    | cons l ls ih =>
      intro r r' lics hm h
      simp only [readLocators] at h
      obtain ⟨⟨r1, locs, b⟩, h1, h⟩ := Outcome.bind_eq_ok.mp h
      obtain ⟨⟨r2, lics2⟩, h2, h⟩ := Outcome.bind_eq_ok.mp h
      obtain ⟨⟨r3, lics3⟩, h3, h⟩ := Outcome.bind_eq_ok.mp h
      rcases List.mem_cons.mp hm with rfl | hm
      · have hloc : locs = [locationVar] := by
          have e3 : w.getenv dataVar = some dat := hd
          simp only [licenseLocations, e3] at h1
          cases dat with
          | nil => exact absurd rfl h0
          | cons c v =>
            dsimp only at h1
            obtain ⟨r4, _, h1⟩ := Outcome.bind_eq_ok.mp h1
            split at h1
            · rename_i hu; exact absurd hu hf
            · simp at h1; exact h1.2.1.symm
            · simp at h1; exact h1.2.1.symm
        subst hloc
        have e4 : w.getenv locationVar = none := hl
        simp [readLocations, retrieveContent, e4] at h2
      · exact ih _ _ _ hm h3
  unfold readLicenses at hr
  have hne : (activeStrategies cfg hint).isEmpty = false := by
    cases hx : activeStrategies cfg hint with
    | nil => rw [hx] at hmem; simp at hmem
    | cons => rfl
  dsimp only at hr
  rw [hne] at hr
  simp only [Bool.false_eq_true, if_false] at hr
  obtain ⟨⟨r1, lics1⟩, h1, _⟩ := Outcome.bind_eq_ok.mp hr
  exact key _ _ _ _ hmem h1

/-- A world with nothing but the variable LICENSE_DATA. -/
def dataWorld : World := { sampleWorld sampleNow with
  moduleName := none
  getenv := fun n => if n = b!"LICENSE_DATA" then some sampleText else none }

/-- The licence accepted in C01's example, passed in LICENSE_DATA: undefined behaviour. -/
example : acquire { sampleConfig with withEnvVar := true } dataWorld (some sampleCaller) none none = .ub := by decide +kernel

/-- **C40**: what is read instead: with LICENSE_DATA set to anything that looks like a licence, the text of
    LICENSE_LOCATION itself is taken as the licence. -/
theorem C40_location_is_read {cfg : Config} {w : World} {caller : Option Caller} {hint : Option LicenseLocation}
    {out : Option LicInfo} {dat v f : Bytes} {now : Int} {res : AcquireResult} (he : cfg.withEnvVar = true)
    (hd : w.getenv b!"LICENSE_DATA" = some dat) (h0 : dat ≠ []) (hf : identifyFormat dat = .ini)
    (hl : w.getenv b!"LICENSE_LOCATION" = some v) (hfe : FeatureIs cfg caller f) (hclock : ∀ k, w.clock k = now)
    (hg : Grants cfg w (magicOf caller) f v now) (h : acquire cfg w caller hint out = .ok res) : res.ret = .licenseOk :=
  C02_license_ok_complete h hfe (.envData he hd h0 hf hl) (fun k _ => by rw [hclock]; exact hg)

/-- Garbage in LICENSE_DATA, the licence in LICENSE_LOCATION: licensed. -/
example : retOf (acquire { sampleConfig with withEnvVar := true } { sampleWorld sampleNow with
      moduleName := none, probe := fun _ => false
      getenv := fun n => if n = b!"LICENSE_DATA" then some b!"[x]" else if n = b!"LICENSE_LOCATION" then some sampleText else none }
    (some sampleCaller) none none) = some .licenseOk := by decide +kernel

/-! ## C41 -/

/-- **C41**: only the first 4096 bytes of licence files are read. -/
theorem C41_files_cut {cfg : Config} {w : World} {caller : Option Caller} {hint : Option LicenseLocation}
    {out : Option LicInfo} {read' : Bytes → Option Bytes} (h : ∀ p, (read' p).map (·.take 4096) = (w.read p).map (·.take 4096)) :
    acquire cfg { w with read := read' } caller hint out = acquire cfg w caller hint out := by
  refine acquire_congr (w := w) (w' := { w with read := read' }) rfl rfl rfl rfl rfl rfl ?_
  have e : ∀ p, getFileContents { w with read := read' } p maxLicenseData = getFileContents w p maxLicenseData := by
    intro p
    have := h p
    simp only [getFileContents, maxLicenseData]
    cases h1 : read' p <;> cases h2 : w.read p <;> simp_all
  intro l _
  constructor
  · intro r
    cases l with
    | applicationFolder => rfl
    | environmentVarLocation => simp only [licenseLocations, filterExistingFiles_congr (w := w) (w' := { w with read := read' }) rfl]
    | environmentVarData => rfl
    | externalDefinition loc =>
      simp only [licenseLocations, filterExistingFiles_congr (w := w) (w' := { w with read := read' }) rfl]
  · intro b p
    cases l with
    | applicationFolder => exact e p
    | environmentVarLocation => exact e p
    | environmentVarData => rfl
    | externalDefinition loc => simp only [retrieveContent, e]

/-- The hypothesis is met by a file that grows beyond 4096 bytes, and it is not vacuous: a licence after that is not seen. -/
example : retOf (acquire sampleConfig { sampleWorld sampleNow with
    read := fun p => ((sampleWorld sampleNow).read p).map fun c => List.replicate 4096 10 ++ c } (some sampleCaller) none none)
    = some .productNotLicensed := by decide +kernel

/-- **C41**: plain data is read verbatim up to its terminator: it grants the feature iff that text does (when no other
    location is searched). -/
theorem C41_plain_verbatim {cfg : Config} {w : World} {caller : Option Caller} {l : LicenseLocation} {out : Option LicInfo}
    {d f : Bytes} {now : Int} {res : AcquireResult} (hk : l.kind = 1) (ht : TextIn l.data 4096 d)
    (hn : cfg.nearModule = false) (he : cfg.withEnvVar = false) (hfe : FeatureIs cfg caller f) (hclock : ∀ k, w.clock k = now)
    (h : acquire cfg w caller (some l) out = .ok res) :
    res.ret = .licenseOk ↔ d ≠ [] ∧ Grants cfg w (magicOf caller) f d now := by
  rw [C02_license_ok_iff h hclock]
  constructor
  · rintro ⟨f', src, text, h1, h2, h3⟩
    have := featureIs_unique hfe h1; subst this
    cases h2 with
    | nearModule h => simp [hn] at h
    | envLocation h => simp [he] at h
    | envData h => simp [he] at h
    | envDataEncoded h => simp [he] at h
    | hintPath h1 h2 => simp only [Option.some.injEq] at h1; subst h1; simp [hk] at h2
    | hintPathOddName h1 h2 => simp only [Option.some.injEq] at h1; subst h1; simp [hk] at h2
    | hintPlain h1 _ h2 h4 =>
      simp only [Option.some.injEq] at h1; subst h1
      have := textIn_unique ht h2; subst this
      exact ⟨h4, h3⟩
    | hintEncoded h1 h2 => simp only [Option.some.injEq] at h1; subst h1; simp [hk] at h2
  · rintro ⟨h1, h2⟩
    exact ⟨f, _, d, hfe, .hintPlain rfl hk ht h1, h2⟩

/-- The sample licence passed as plain data, with garbage after the terminator. -/
example : retOf (acquire { sampleConfig with nearModule := false } (sampleWorld sampleNow) (some sampleCaller)
    (some ⟨1, sampleText ++ 0 :: b!"[TEST]\ngarbage"⟩) none) = some .licenseOk := by decide +kernel

/-- **C41** (negation of "encoded data is decoded and used"): the encoding of an ordinary licence text, which has no NUL
    inside, never makes the call return: the decoded bytes are used as a C string without terminator. -/
theorem C41_encoded_never_returns {cfg : Config} {w : World} {caller : Option Caller} {l : LicenseLocation} {out : Option LicInfo}
    {d t : Bytes} {lineLen : Int} (hk : l.kind = 2) (ht : TextIn l.data 4096 d) (hb : base64 t lineLen = .ok d) (h0 : 0 ∉ t) :
    ∀ res, acquire cfg w caller (some l) out ≠ .ok res := by
  intro res h
  have ht3 : 3 ≤ t.length := (base64_filter t lineLen d hb).1
  have hlen : t.length < 2 ^ 61 := by
    have h1 := (base64_filter t lineLen d hb).2
    have h2 : (d.filter notNL).length ≤ d.length := List.length_filter_le ..
    have h3 : d.length ≤ 4096 := by
      rcases ht.2 with ⟨_, _, h⟩ | ⟨_, _, _, h⟩ <;> omega
    have h4 : ∀ bs : Bytes, bs.length ≤ (encodeChars bs).length := by
      intro bs
      fun_induction encodeChars bs <;> simp_all <;> omega
    have := h4 t
    rw [← h1] at this; omega
  have hdec := C21_base64_round_trip t lineLen d hlen hb
  have hd0 : d ≠ [] := by
    rintro rfl
    have h1 := (base64_filter t lineLen [] hb).2
    match t, ht3 with
    | a :: b :: c :: r, _ => simp [encodeChars] at h1
  obtain ⟨f, r, lics, _, hr, _⟩ := acquire_split h
  have hmem : Locator.externalDefinition l ∈ activeStrategies cfg (some l) := by simp [activeStrategies]
  have hbd : boundedString l.data maxLicenseData = .ok d := boundedString_iff.mpr ht
  have key : ∀ ls r r' lics, Locator.externalDefinition l ∈ ls → readLocators w f r ls ≠ .ok (r', lics) := by
    intro ls
    induction ls with
    | nil => simp
    | cons x ls ih =>
      intro r r' lics hm h
      simp only [readLocators] at h
      obtain ⟨⟨r1, locs, b⟩, h1, h⟩ := Outcome.bind_eq_ok.mp h
      obtain ⟨⟨r2, lics2⟩, h2, h⟩ := Outcome.bind_eq_ok.mp h
      obtain ⟨⟨r3, lics3⟩, h3, h⟩ := Outcome.bind_eq_ok.mp h
      rcases List.mem_cons.mp hm with rfl | hm
      · have hloc : locs = [externalName] := by
          simp only [licenseLocations] at h1
          split at h1
          · simp at h1
          · rename_i c m hc
            have hc0 : c ≠ 0 := by
              rintro rfl
              rcases ht.2 with ⟨rest, e, _⟩ | ⟨_, rest, e, _⟩
              · cases d with
                | nil => exact hd0 rfl
                | cons x d => rw [hc] at e; simp at e; exact ht.1 (by rw [← e.1]; simp)
              · cases d with
                | nil => exact hd0 rfl
                | cons x d => rw [hc] at e; simp at e; exact ht.1 (by rw [← e.1]; simp)
            rw [if_neg hc0] at h1
            obtain ⟨r4, _, h1⟩ := Outcome.bind_eq_ok.mp h1
            rw [if_neg (by omega), if_pos (by omega)] at h1
            simp at h1; exact h1.2.1.symm
        subst hloc
        simp [readLocations, retrieveContent, hbd, hk, hdec, stringOfVector, h0] at h2
      · exact ih _ _ _ hm h3
  unfold readLicenses at hr
  have hne : (activeStrategies cfg (some l)).isEmpty = false := by
    cases hx : activeStrategies cfg (some l) with
    | nil => rw [hx] at hmem; simp at hmem
    | cons => rfl
  dsimp only at hr
  rw [hne] at hr
  simp only [Bool.false_eq_true, if_false] at hr
  obtain ⟨⟨r1, lics1⟩, h1, _⟩ := Outcome.bind_eq_ok.mp hr
  exact key _ _ _ _ hmem h1

/-- **C41**: if the text was encoded together with a terminator, it is used like plain data. -/
theorem C41_encoded_with_terminator {cfg : Config} {w : World} {caller : Option Caller} {l : LicenseLocation} {out : Option LicInfo}
    {d t f rest : Bytes} {lineLen now : Int} {res : AcquireResult} (hk : l.kind = 2) (ht : TextIn l.data 4096 d) (hd : d ≠ [])
    (hb : base64 (t ++ 0 :: rest) lineLen = .ok d) (hlen : (t ++ 0 :: rest).length < 2 ^ 61) (h0 : 0 ∉ t)
    (hn : cfg.nearModule = false) (he : cfg.withEnvVar = false) (hfe : FeatureIs cfg caller f) (hclock : ∀ k, w.clock k = now)
    (h : acquire cfg w caller (some l) out = .ok res) :
    res.ret = .licenseOk ↔ Grants cfg w (magicOf caller) f t now := by
  have hdec := C21_base64_round_trip _ lineLen d hlen hb
  rw [C02_license_ok_iff h hclock]
  constructor
  · rintro ⟨f', src, text, h1, h2, h3⟩
    have := featureIs_unique hfe h1; subst this
    cases h2 with
    | nearModule h => simp [hn] at h
    | envLocation h => simp [he] at h
    | envData h => simp [he] at h
    | envDataEncoded h => simp [he] at h
    | hintPath h1 h2 => simp only [Option.some.injEq] at h1; subst h1; simp [hk] at h2
    | hintPathOddName h1 h2 => simp only [Option.some.injEq] at h1; subst h1; simp [hk] at h2
    | hintPlain h1 h2 => simp only [Option.some.injEq] at h1; subst h1; simp [hk] at h2
    | @hintEncoded _ d' t' rest' h1 _ h2 h4 h5 h6 =>
      simp only [Option.some.injEq] at h1; subst h1
      have := textIn_unique ht h2; subst this
      rw [hdec] at h5
      simp only [Outcome.ok.injEq] at h5
      have e1 : (t ++ 0 :: rest).takeWhile (· ≠ 0) = t := by
        rw [List.takeWhile_append_of_pos (by intro a ha; simp; rintro rfl; exact h0 ha)]; simp
      have e2 : (text ++ 0 :: rest').takeWhile (· ≠ 0) = text := by
        rw [List.takeWhile_append_of_pos (by intro a ha; simp; rintro rfl; exact h6 ha)]; simp
      have : t = text := by rw [← e1, h5, e2]
      subst this; exact h3
  · intro h2
    exact ⟨f, _, t, hfe, .hintEncoded rfl hk ht hd hdec h0, h2⟩

/-- Passing a text in encoded form. -/
def encodedHint (t : Bytes) : LicenseLocation := ⟨2, match base64 t 0 with
  | .ok d => d ++ [0]
  | _ => [0]⟩

/-- The sample licence encoded without and with terminator. -/
example : acquire { sampleConfig with nearModule := false } (sampleWorld sampleNow) (some sampleCaller)
    (some (encodedHint sampleText)) none = .ub := by decide +kernel
example : retOf (acquire { sampleConfig with nearModule := false } (sampleWorld sampleNow) (some sampleCaller)
    (some (encodedHint (sampleText ++ [0]))) none) = some .licenseOk := by decide +kernel

end Licensecc
