import Verif.Model.Locators
/-!
# Model of src/library/LicenseReader.cpp
-/
namespace Licensecc

/-- `FullLicenseInfo`, src/library/LicenseReader.hpp:24-33. -/
structure FullLicense where
  source : Bytes
  project : Bytes
  signature : Bytes
  magic : Nat
  limits : SMap Bytes
  deriving DecidableEq, Repr

/-- LICENSE_SIGNATURE and LICENSE_VERSION, src/library/base/base.h:39-40. -/
abbrev kSig : Bytes := b!"sig"
abbrev kVersion : Bytes := b!"lic_ver"

/-- Filling `m_limits`, src/library/LicenseReader.cpp:92-94 (assigning a null pointer to a string is undefined). -/
def fillLimits (d : Ini.Data) (p : Bytes) : List Bytes → SMap Bytes → Outcome (SMap Bytes)
  | [], m => .ok m
  | k :: ks, m => match Ini.getValue d p k with
    | some v => fillLimits d p ks (SMap.insert k v m)
    | none => .ub

/-- One location, src/library/LicenseReader.cpp:65-100; `LoadData` never fails here (`Ini.load`). -/
def readOne (feature : Bytes) (r : Registry) (src content : Bytes) : Outcome (Registry × Option FullLicense) := do
  let d := Ini.load content
  let p := toUpperCopy feature
  if Ini.getSectionSize d p ≤ 0 then do
    let r ← r.addEvent .productNotLicensed (some src)
    return (r, none)
  else do
    let r ← r.addEvent .productFound (some src)
    match Ini.getValue d p kSig with
    | some s =>
      if Ini.toLong (Ini.getValue d p kVersion) (-1) = 200 then do
        let m ← fillLimits d p (Ini.getAllKeys d p) []
        return (r, some ⟨src, feature, s, 0, m⟩)
      else do
        let r ← r.addEvent .malformed (some src)
        return (r, none)
    | none => do
      let r ← r.addEvent .malformed (some src)
      return (r, none)

/-- Loop over the locations of one locator, src/library/LicenseReader.cpp:63-101. -/
def readLocations (w : World) (feature : Bytes) (l : Locator) (isBase64 : Bool) :
    Registry → List Bytes → Outcome (Registry × List FullLicense)
  | r, [] => .ok (r, [])
  | r, src :: rest => do
    let content ← retrieveContent w l isBase64 src
    let (r, lic) ← readOne feature r src content
    let (r, lics) ← readLocations w feature l isBase64 r rest
    return (r, lic.toList ++ lics)

/-- Loop over the locators, src/library/LicenseReader.cpp:57-102. -/
def readLocators (w : World) (feature : Bytes) : Registry → List Locator → Outcome (Registry × List FullLicense)
  | r, [] => .ok (r, [])
  | r, l :: ls => do
    let (r, locations, isBase64) ← licenseLocations w l r
    let (r, lics) ← readLocations w feature l isBase64 r locations
    let (r, lics') ← readLocators w feature r ls
    return (r, lics ++ lics')

/-- `LicenseReader::readLicenses`, src/library/LicenseReader.cpp:44-107. -/
def readLicenses (cfg : Config) (w : World) (hint : Option LicenseLocation) (feature : Bytes) :
    Outcome (Registry × List FullLicense) :=
  let strategies := activeStrategies cfg hint
  if strategies.isEmpty then do
    let r ← (Registry.empty w.platform).addEvent .fileNotFound none
    let (r, _) ← r.turnWarningsIntoErrors
    return (r, [])
  else do
    let (r, lics) ← readLocators w feature (Registry.empty w.platform) strategies
    if lics.isEmpty then do
      let (r, _) ← r.turnWarningsIntoErrors
      return (r, lics)
    else return (r, lics)

/-- `FullLicenseInfo::printForSign`, src/library/LicenseReader.cpp:111-124. -/
def FullLicense.printForSign (l : FullLicense) : Bytes :=
  toUpperCopy (trimCopy l.project) ++
    l.limits.flatMap fun p => if p.1 = kSig then [] else trimCopy p.1 ++ trimCopy p.2

end Licensecc
