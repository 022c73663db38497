import Verif.Model.FileUtils
/-!
# Model of src/library/locate
-/
namespace Licensecc

/-- Classes derived from `LocatorStrategy`. -/
inductive Locator where
  | applicationFolder
  | environmentVarLocation
  | environmentVarData
  | externalDefinition (loc : LicenseLocation)

/-- `LocatorFactory::get_active_strategies`, src/library/locate/LocatorFactory.cpp:21-38: the list of strategies; the
    result is `FUNC_RET_NOT_AVAIL` iff it is empty. -/
def activeStrategies (cfg : Config) (hint : Option LicenseLocation) : List Locator :=
  (if cfg.nearModule then [.applicationFolder] else [])
  ++ (if cfg.withEnvVar then [.environmentVarLocation, .environmentVarData] else [])
  ++ (match hint with
      | some l => [.externalDefinition l]
      | none => [])

/-- LCC_LICENSE_LOCATION_ENV_VAR, src/templates/licensecc_properties.h.in:39. -/
abbrev locationVar : Bytes := b!"LICENSE_LOCATION"
/-- LCC_LICENSE_DATA_ENV_VAR, src/templates/licensecc_properties.h.in:40. -/
abbrev dataVar : Bytes := b!"LICENSE_DATA"
/-- LCC_LICENSE_FILE_EXTENSION, src/templates/licensecc_properties.h.in:38. -/
abbrev licenseExt : Bytes := b!".lic"
/-- Strategy name of `ExternalDefinition`, src/library/locate/ExternalDefinition.cpp:27. -/
abbrev externalName : Bytes := b!"ExternalDefinition"
/-- LCC_API_MAX_LICENSE_DATA_LENGTH, src/templates/licensecc_properties.h.in:46. -/
abbrev maxLicenseData : Nat := 4096

/-- `string(p, mstrnlen_s(p, n))`. -/
def boundedString (mem : Bytes) (n : Nat) : Outcome Bytes :=
  match mstrnlen (some mem) n with
  | .ok k => .ok (mem.take k)
  | .throw e => .throw e
  | .ub => .ub

/-- `string(reinterpret_cast<char*>(v.data()))` for a vector: reads up to the first NUL; undefined if there is none. -/
def stringOfVector (v : Bytes) : Outcome Bytes := if 0 ∈ v then .ok (v.takeWhile (· ≠ 0)) else .ub

/-- `license_locations` of the four classes; the third component is the member `isBase64` of `EnvironmentVarData`.
    src/library/locate/ApplicationFolder.cpp:30-49, EnvironmentVarLocation.cpp:22-38, EnvironmentVarData.cpp:30-46,
    ExternalDefinition.cpp:31-52. -/
def licenseLocations (w : World) (l : Locator) (r : Registry) : Outcome (Registry × List Bytes × Bool) :=
  match l with
  | .applicationFolder =>
    match w.moduleName with
    | none => w.machine.logged (.ok (r, [], false))
    | some m => do
      let f := removeExtension m ++ licenseExt
      if w.probe f then do
        let r ← r.addEvent .found (some f)
        return (r, [f], false)
      else do
        let r ← r.addEvent .fileNotFound (some f)
        return (r, [], false)
  | .environmentVarLocation =>
    match w.getenv locationVar with
    | some (c :: v) => do
      let (r, fs) ← filterExistingFiles w locationVar r (splitString (c :: v) 59)
      return (r, fs, false)
    | _ => do
      let r ← r.addEvent .envVarNotDefined none
      return (r, [], false)
  | .environmentVarData =>
    match w.getenv dataVar with
    | some (c :: v) => do
      let r ← r.addEvent .specified (some locationVar)
      match identifyFormat (c :: v) with
      | .unknown => do
        let r ← r.addEvent .malformed (some locationVar)
        return (r, [], false)
      | .base64 => return (r, [locationVar], true)
      | .ini => return (r, [locationVar], false)
    | _ => do
      let r ← r.addEvent .envVarNotDefined (some locationVar)
      return (r, [], false)
  | .externalDefinition loc =>
    match loc.data with
    | [] => .ub
    | c :: _ =>
      if c = 0 then .ok (r, [], false)
      else do
        let r ← r.addEvent .specified (some externalName)
        if loc.kind = 0 then do
          let d ← boundedString loc.data maxLicenseData
          let (r, fs) ← filterExistingFiles w externalName r (splitString d 59)
          return (r, fs, false)
        else if loc.kind = 1 ∨ loc.kind = 2 then return (r, [externalName], false)
        else .throw .logicError

/-- `retrieve_license_content`: src/library/locate/LocatorStrategy.cpp:17-19, EnvironmentVarData.cpp:48-56,
    ExternalDefinition.cpp:54-69. -/
def retrieveContent (w : World) (l : Locator) (isBase64 : Bool) (location : Bytes) : Outcome Bytes :=
  match l with
  | .applicationFolder => getFileContents w location maxLicenseData
  | .environmentVarLocation => getFileContents w location maxLicenseData
  | .environmentVarData =>
    match w.getenv locationVar with
    | none => .ub
    | some v => if isBase64 then do stringOfVector (← unbase64 v) else .ok v
  | .externalDefinition loc =>
    if location = externalName then do
      let d ← boundedString loc.data maxLicenseData
      if loc.kind = 2 then do stringOfVector (← unbase64 d) else return d
    else getFileContents w location maxLicenseData

end Licensecc
