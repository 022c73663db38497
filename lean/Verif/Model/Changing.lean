import Verif.Model.Acquire
/-!
# `acquire_license` while its surroundings change

`acquire` (Model/Acquire) looks at one `World`.  Here every look at the surroundings sees a moment of its own: between any two looks
files may appear, vanish, be rewritten or truncated, environment variables and the time zone may be changed, hardware may be plugged in
or out.  The functions that look at the surroundings are modelled a second time; where a function looks only once, the first model is
used, in the world of that moment.  That both models agree when nothing changes is a theorem (Props/Changing, C82_same).
The state given to one hardware check is a record of what its system calls returned; the items need not be of the same moment.
Simplification: an item looked at twice within one check (a device mounted twice, say) is taken to be unchanged in between.
-/
namespace Licensecc.Changing
open Licensecc

/-- The world at each moment. -/
abbrev Worlds := Nat → World

/-- A computation that passes through moments: from the moment at which it starts to its outcome and the moment at which it ends. -/
structure During (α : Type) where
  run : Nat → Outcome (α × Nat)

/-- Sequencing. -/
def During.bind {α β : Type} (x : During α) (f : α → During β) : During β := ⟨fun n =>
  match x.run n with
  | .ok (a, n') => (f a).run n'
  | .throw e => .throw e
  | .ub => .ub⟩

instance : Monad During where
  pure a := ⟨fun n => .ok (a, n)⟩
  bind := During.bind

/-- A look at the surroundings. -/
def look (ws : Worlds) : During World := ⟨fun n => .ok (ws n, n + 1)⟩

/-- A computation that does not look at the surroundings. -/
def blind {α : Type} (x : Outcome α) : During α := ⟨fun n =>
  match x with
  | .ok a => .ok (a, n)
  | .throw e => .throw e
  | .ub => .ub⟩

/-- `filter_existing_files`, src/library/base/file_utils.cpp:20-35. -/
def filterExistingFiles (ws : Worlds) (extra : Bytes) : Registry → List Bytes → During (Registry × List Bytes)
  | r, [] => pure (r, [])
  | r, p :: ps => do
    let r ← blind (r.addEvent .specified (some p) (some extra))
    let w ← look ws
    if w.probe p then do
      let r ← blind (r.addEvent .found (some p) (some extra))
      let (r, fs) ← filterExistingFiles ws extra r ps
      return (r, p :: fs)
    else do
      let r ← blind (r.addEvent .fileNotFound (some p) (some extra))
      filterExistingFiles ws extra r ps

/-- `get_file_contents`, src/library/base/file_utils.cpp:37-51: opened and measured at one moment (line 41), read at a later one
    (line 45).  `resize` (line 43) has filled the string with NULs: they stay where the file has become shorter than measured, or
    where reading fails (the result of `read` is not looked at). -/
def getFileContents (ws : Worlds) (path : Bytes) (max : Nat) : During Bytes := do
  let w ← look ws
  match w.read path with
  | none => blind (.throw .runtimeError)
  | some c => do
    let size := min c.length max
    let w ← look ws
    let got := ((w.read path).getD []).take size
    return got ++ List.replicate (size - got.length) 0

/-- `license_locations` of the four classes: src/library/locate/ApplicationFolder.cpp:30-49 (`getModuleName` line 33, `ifstream`
    line 37), EnvironmentVarLocation.cpp:22-38, EnvironmentVarData.cpp:30-46 (one look), ExternalDefinition.cpp:31-52. -/
def licenseLocations (ws : Worlds) (l : Locator) (r : Registry) : During (Registry × List Bytes × Bool) :=
  match l with
  | .applicationFolder => do
    let w ← look ws
    match w.moduleName with
    | none => do
      let w ← look ws
      blind (w.machine.logged (.ok (r, [], false)))
    | some m => do
      let f := removeExtension m ++ licenseExt
      let w ← look ws
      if w.probe f then do
        let r ← blind (r.addEvent .found (some f))
        return (r, [f], false)
      else do
        let r ← blind (r.addEvent .fileNotFound (some f))
        return (r, [], false)
  | .environmentVarLocation => do
    let w ← look ws
    match w.getenv locationVar with
    | some (c :: v) => do
      let (r, fs) ← filterExistingFiles ws locationVar r (splitString (c :: v) 59)
      return (r, fs, false)
    | _ => do
      let r ← blind (r.addEvent .envVarNotDefined none)
      return (r, [], false)
  | .environmentVarData => do
    let w ← look ws
    blind (Licensecc.licenseLocations w .environmentVarData r)
  | .externalDefinition loc =>
    match loc.data with
    | [] => blind .ub
    | c :: _ =>
      if c = 0 then pure (r, [], false)
      else do
        let r ← blind (r.addEvent .specified (some externalName))
        if loc.kind = 0 then do
          let d ← blind (boundedString loc.data maxLicenseData)
          let (r, fs) ← filterExistingFiles ws externalName r (splitString d 59)
          return (r, fs, false)
        else if loc.kind = 1 ∨ loc.kind = 2 then return (r, [externalName], false)
        else blind (.throw .logicError)

/-- `retrieve_license_content`: src/library/locate/LocatorStrategy.cpp:17-19, EnvironmentVarData.cpp:48-56 (one look),
    ExternalDefinition.cpp:54-69. -/
def retrieveContent (ws : Worlds) (l : Locator) (isBase64 : Bool) (location : Bytes) : During Bytes :=
  match l with
  | .applicationFolder => getFileContents ws location maxLicenseData
  | .environmentVarLocation => getFileContents ws location maxLicenseData
  | .environmentVarData => do
    let w ← look ws
    blind (Licensecc.retrieveContent w .environmentVarData isBase64 location)
  | .externalDefinition loc =>
    if location = externalName then do
      let d ← blind (boundedString loc.data maxLicenseData)
      if loc.kind = 2 then blind (do stringOfVector (← unbase64 d)) else return d
    else getFileContents ws location maxLicenseData

/-- Loop over the locations of one locator, src/library/LicenseReader.cpp:63-101. -/
def readLocations (ws : Worlds) (feature : Bytes) (l : Locator) (isBase64 : Bool) :
    Registry → List Bytes → During (Registry × List FullLicense)
  | r, [] => pure (r, [])
  | r, src :: rest => do
    let content ← retrieveContent ws l isBase64 src
    let (r, lic) ← blind (readOne feature r src content)
    let (r, lics) ← readLocations ws feature l isBase64 r rest
    return (r, lic.toList ++ lics)

/-- Loop over the locators, src/library/LicenseReader.cpp:57-102. -/
def readLocators (ws : Worlds) (feature : Bytes) : Registry → List Locator → During (Registry × List FullLicense)
  | r, [] => pure (r, [])
  | r, l :: ls => do
    let (r, locations, isBase64) ← licenseLocations ws l r
    let (r, lics) ← readLocations ws feature l isBase64 r locations
    let (r, lics') ← readLocators ws feature r ls
    return (r, lics ++ lics')

/-- `LicenseReader::readLicenses`, src/library/LicenseReader.cpp:44-107.  What the library is compiled for does not change: `p`. -/
def readLicenses (cfg : Config) (p : Platform) (ws : Worlds) (hint : Option LicenseLocation) (feature : Bytes) :
    During (Registry × List FullLicense) :=
  let strategies := activeStrategies cfg hint
  if strategies.isEmpty then do
    let r ← blind ((Registry.empty p).addEvent .fileNotFound none)
    let (r, _) ← blind r.turnWarningsIntoErrors
    return (r, [])
  else do
    let (r, lics) ← readLocators ws feature (Registry.empty p) strategies
    if lics.isEmpty then do
      let (r, _) ← blind r.turnWarningsIntoErrors
      return (r, lics)
    else return (r, lics)

/-- `LicenseVerifier::verify_limits`, src/library/limits/license_verifier.cpp:37-65: the clock is read once (line 42), before the
    limits are looked at; every limit is checked at a moment of its own. -/
def verifyLimits (cfg : Config) (ws : Worlds) (lic : FullLicense) (r : Registry) (k : Nat) : During (Registry × Nat × Bool) := do
  let w ← look ws
  let now := w.clock k
  if lic.magic = cfg.magic then do
    let w ← look ws
    let (r, v) ← blind (checkExpiry w now lic r)
    if v then do
      let w ← look ws
      let (r, v) ← blind (checkBegin w now lic r)
      if v then do
        let w ← look ws
        let (r, v) ← blind (checkClient w lic r)
        return (r, k + 1, v)
      else return (r, k + 1, false)
    else return (r, k + 1, false)
  else do
    let r ← blind (r.addEvent .corrupted (some lic.source))
    return (r, k + 1, false)

/-- `LicenseVerifier::toLicenseInfo`, src/library/limits/license_verifier.cpp:67-95: `mktime` and `time` at two moments (line 75). -/
def toLicenseInfo (ws : Worlds) (lic : FullLicense) (k : Nat) : During (LicInfo × Nat) := do
  let w ← look ws
  let w' ← look ws
  blind (Licensecc.toLicenseInfo { w with clock := w'.clock } lic k)

/-- Loop over the licences, src/library/licensecc.cpp:92-108. -/
def judgeLoop (cfg : Config) (ws : Worlds) (caller : Option Caller) :
    Registry → Nat → List FullLicense → During (Registry × Nat × List LicInfo × List LicInfo)
  | r, k, [] => pure (r, k, [], [])
  | r, k, l :: ls => do
    let lic := withMagic caller l
    let w ← look ws
    let (r, good) ← blind (verifySignature w lic r)
    let (info, k) ← toLicenseInfo ws lic k
    if good then do
      let (r, k, v) ← verifyLimits cfg ws lic r k
      let (r, k, oks, errs) ← judgeLoop cfg ws caller r k ls
      return (r, k, (if v then info :: oks else oks), (if v then errs else info :: errs))
    else do
      let (r, k, oks, errs) ← judgeLoop cfg ws caller r k ls
      return (r, k, oks, info :: errs)

/-- `acquire_license` after the licences have been read, src/library/licensecc.cpp:86-134. -/
def judge (cfg : Config) (ws : Worlds) (caller : Option Caller) (out : Option LicInfo) (r : Registry) (lics : List FullLicense) :
    During AcquireResult :=
  match lics with
  | [] => do
    let (r, _) ← blind r.turnWarningsIntoErrors
    let t ← blind (lastFailureType r)
    let w ← look ws
    blind (finish w t r 0 (out.map fun o => { o with proprietary := some [], linkedToPc := false, daysLeft := 0 }))
  | _ => do
    let (r, k, oks, errs) ← judgeLoop cfg ws caller r 0 lics
    match oks with
    | _ :: _ => do
      let w ← look ws
      blind (finish w .licenseOk r.turnErrorsIntoWarnings.1 k (out.map (mergeLicenses oks)))
    | [] => do
      let (r, _) ← blind r.turnWarningsIntoErrors
      let t ← blind (lastFailureType r)
      let w ← look ws
      blind (finish w t r k (out.map (mergeLicenses errs)))

/-- `acquire_license`, src/library/licensecc.cpp:74-135. -/
def acquire (cfg : Config) (p : Platform) (ws : Worlds) (caller : Option Caller) (hint : Option LicenseLocation)
    (out : Option LicInfo) : During AcquireResult := do
  let feature ← blind (featureOf cfg caller)
  let (r, lics) ← readLicenses cfg p ws hint feature
  judge cfg ws caller out r lics

end Licensecc.Changing
