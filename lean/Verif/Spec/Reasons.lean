import Verif.Spec.Acquire
import Verif.Spec.EventRegistry
/-!
# Specification: what the failure codes of acquire_license mean
-/
namespace Licensecc.Spec

/-- The files the library looks for. -/
inductive Searched (cfg : Config) (w : World) (hint : Option LicenseLocation) : Bytes → Prop
  | nearModule {m : Bytes} : cfg.nearModule = true → w.moduleName = some m → Searched cfg w hint (removeExtension m ++ b!".lic")
  | envLocation {v p : Bytes} : cfg.withEnvVar = true → w.getenv (b!"LICENSE_LOCATION") = some v → p ∈ splitString v 59 →
      Searched cfg w hint p
  | hintPath {l : LicenseLocation} {d p : Bytes} : hint = some l → l.kind = 0 → TextIn l.data 4096 d → p ∈ splitString d 59 →
      Searched cfg w hint p

/-- `NotDefined w v`: the environment variable is missing or empty. -/
def NotDefined (w : World) (v : Bytes) : Prop := w.getenv v = none ∨ w.getenv v = some []

/-- What is wrong when a failure code is reported for a feature; `K` is the number of clock readings of the call. -/
inductive Reason (cfg : Config) (w : World) (caller : Option Caller) (hint : Option LicenseLocation) (feature : Bytes) (K : Nat) :
    EventType → Prop
  /-- a complete licence for the feature whose signature is wrong -/
  | badSignature {src text} : Offers cfg w hint src text → Complete feature text → ¬ Signed w feature text →
      Reason cfg w caller hint feature K .corrupted
  /-- the magic number of the caller is wrong -/
  | badMagic {src text} : Offers cfg w hint src text → Complete feature text → Signed w feature text → magicOf caller ≠ cfg.magic →
      Reason cfg w caller hint feature K .corrupted
  /-- a signed licence that has expired -/
  | expired {src text d t k} : Offers cfg w hint src text → Complete feature text → Signed w feature text →
      IsLimit (entriesFor feature text) (b!"valid-to") d → secondsFromEpoch w.mktime d = .ok t → k < K → t < w.clock k →
      Reason cfg w caller hint feature K .productExpired
  /-- a signed licence that is not valid yet -/
  | early {src text d t k} : Offers cfg w hint src text → Complete feature text → Signed w feature text →
      IsLimit (entriesFor feature text) (b!"valid-from") d → secondsFromEpoch w.mktime d = .ok t → k < K → w.clock k < t →
      Reason cfg w caller hint feature K .productExpired
  /-- a signed licence for other hardware -/
  | otherHardware {src text} : Offers cfg w hint src text → Complete feature text → Signed w feature text →
      ¬ OnThisMachine w feature text → Reason cfg w caller hint feature K .identifiersMismatch
  /-- a text with a section for the feature that lacks the signature or the version -/
  | incomplete {src text} : Offers cfg w hint src text → entriesFor feature text ≠ [] → ¬ Complete feature text →
      Reason cfg w caller hint feature K .malformed
  /-- LICENSE_DATA holds something else -/
  | unknownData {v} : cfg.withEnvVar = true → w.getenv (b!"LICENSE_DATA") = some v → identifyFormat v = .unknown →
      Reason cfg w caller hint feature K .malformed
  /-- a text without section for the feature -/
  | noSection {src text} : Offers cfg w hint src text → entriesFor feature text = [] →
      Reason cfg w caller hint feature K .productNotLicensed
  /-- a file that does not exist -/
  | noFile {p} : Searched cfg w hint p → w.probe p = false → Reason cfg w caller hint feature K .fileNotFound
  /-- the library does not search anywhere -/
  | noStrategy : cfg.nearModule = false → cfg.withEnvVar = false → hint = none → Reason cfg w caller hint feature K .fileNotFound
  | noLocationVar : cfg.withEnvVar = true → NotDefined w (b!"LICENSE_LOCATION") → Reason cfg w caller hint feature K .envVarNotDefined
  | noDataVar : cfg.withEnvVar = true → NotDefined w (b!"LICENSE_DATA") → Reason cfg w caller hint feature K .envVarNotDefined

end Licensecc.Spec
