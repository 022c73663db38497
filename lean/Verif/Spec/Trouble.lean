import Verif.Spec.Located
import Verif.Spec.Reasons
/-!
# Specification: why acquire_license may fail to return

Every exception that escapes and every undefined behaviour of a call has one of these causes.
-/
namespace Licensecc.Spec

/-- `text` is offered and holds a section for the requested feature with version 200 and a signature. -/
structure Candidate (cfg : Config) (w : World) (caller : Option Caller) (hint : Option LicenseLocation) (f text : Bytes) :
    Prop where
  asked : FeatureIs cfg caller f
  offered : ∃ src, Offers cfg w hint src text
  complete : Complete f text

/-- Why an exception `e` may escape. -/
inductive ThrowCause (cfg : Config) (w : World) (caller : Option Caller) (hint : Option LicenseLocation) : Exn → Prop
  /-- the caller's location has data of an unknown kind -/
  | unknownKind {l : LicenseLocation} {c : UInt8} {rest : Bytes} : hint = some l → l.kind ≠ 0 → l.kind ≠ 1 → l.kind ≠ 2 →
      l.data = c :: rest → c ≠ 0 → ThrowCause cfg w caller hint .logicError
  /-- LICENSE_DATA holds something that looks like base64, LICENSE_LOCATION holds `==` -/
  | dataEquals {dat v : Bytes} : cfg.withEnvVar = true → w.getenv (b!"LICENSE_DATA") = some dat → dat ≠ [] →
      identifyFormat dat = .base64 → w.getenv (b!"LICENSE_LOCATION") = some v → v.filter (· ≠ 10) = b!"==" →
      ThrowCause cfg w caller hint .lengthError
  /-- the caller's encoded data is `==` -/
  | hintEquals {l : LicenseLocation} {d : Bytes} : hint = some l → l.kind = 2 → TextIn l.data 4096 d → d.filter (· ≠ 10) = b!"==" →
      ThrowCause cfg w caller hint .lengthError
  /-- a file that was there cannot be opened a moment later -/
  | vanished {p : Bytes} : Searched cfg w hint p → w.probe p = true → w.read p = none → ThrowCause cfg w caller hint .runtimeError
  /-- `valid-to` is not a date; the licence need not be signed -/
  | badExpiry {f text d : Bytes} : Candidate cfg w caller hint f text → IsLimit (entriesFor f text) (b!"valid-to") d →
      secondsFromEpoch w.mktime d = .throw .invalidArgument → ThrowCause cfg w caller hint .invalidArgument
  /-- `valid-from` of a correctly signed licence is not a date -/
  | badBegin {f text d : Bytes} : Candidate cfg w caller hint f text → Signed w f text →
      IsLimit (entriesFor f text) (b!"valid-from") d → secondsFromEpoch w.mktime d = .throw .invalidArgument →
      ThrowCause cfg w caller hint .invalidArgument
  /-- the crypto library throws -/
  | verifier {f text s data : Bytes} {e : Exn} : Candidate cfg w caller hint f text →
      lastValue (b!"sig") (entriesFor f text) = some s → SigningData f (entriesFor f text) data → w.verify data s = .throw e →
      ThrowCause cfg w caller hint e
  /-- the hardware identifier of a correctly signed licence is one of an adapter or of a disk, and enumerating these throws
      something that is not a logic error -/
  | hardware {f text s : Bytes} {h : HwId} {e : Exn} : Candidate cfg w caller hint f text → Signed w f text →
      IsLimit (entriesFor f text) (b!"client-signature") s → HwId.ofString s = .ok h → e.isLogicError = false →
      (h.d1.toNat / 32 < 2 ∧ w.machine.adapters = .throw e ∨ h.d1.toNat / 32 = 2 ∧ w.machine.disks = .throw e) →
      ThrowCause cfg w caller hint e

/-- Why undefined behaviour may happen. -/
inductive UbCause (cfg : Config) (w : World) (caller : Option Caller) (hint : Option LicenseLocation) : Prop
  /-- the caller's feature name is shorter than its array and not terminated -/
  | feature : (¬ ∃ f, FeatureIs cfg caller f) → UbCause cfg w caller hint
  /-- a path of 1024 bytes or more, on Windows of 260 bytes or more -/
  | longPath {p : Bytes} : Searched cfg w hint p → pathRoom w.platform ≤ (p.takeWhile (· ≠ 0)).length → UbCause cfg w caller hint
  /-- the caller's location is shorter than its array and not terminated -/
  | hintMemory {l : LicenseLocation} : hint = some l → (¬ ∃ d, TextIn l.data 4096 d) → UbCause cfg w caller hint
  /-- LICENSE_DATA holds something that looks like a licence, LICENSE_LOCATION is not set -/
  | dataAlone {dat : Bytes} : cfg.withEnvVar = true → w.getenv (b!"LICENSE_DATA") = some dat → dat ≠ [] →
      identifyFormat dat ≠ .unknown → w.getenv (b!"LICENSE_LOCATION") = none → UbCause cfg w caller hint
  /-- LICENSE_DATA holds something that looks like base64, LICENSE_LOCATION something that does not decode to a terminated
      text -/
  | dataDecoding {dat v : Bytes} : cfg.withEnvVar = true → w.getenv (b!"LICENSE_DATA") = some dat → dat ≠ [] →
      identifyFormat dat = .base64 → w.getenv (b!"LICENSE_LOCATION") = some v → decodedText v = none → v.filter (· ≠ 10) ≠ b!"==" →
      UbCause cfg w caller hint
  /-- the caller's encoded data does not decode to a terminated text -/
  | hintDecoding {l : LicenseLocation} {d : Bytes} : hint = some l → l.kind = 2 → TextIn l.data 4096 d → d ≠ [] →
      decodedText d = none → d.filter (· ≠ 10) ≠ b!"==" → UbCause cfg w caller hint
  /-- the number of days left does not fit into an `int` -/
  | farExpiry {f text d : Bytes} {t n : Int} {k : Nat} : Candidate cfg w caller hint f text →
      IsLimit (entriesFor f text) (b!"valid-to") d → secondsFromEpoch w.mktime d = .ok t → NearestDays (t - w.clock k) n →
      (n < -2147483648 ∨ 2147483647 < n) → UbCause cfg w caller hint
  /-- the crypto library misbehaves -/
  | verifier {f text s data : Bytes} : Candidate cfg w caller hint f text →
      lastValue (b!"sig") (entriesFor f text) = some s → SigningData f (entriesFor f text) data → w.verify data s = .ub →
      UbCause cfg w caller hint
  /-- the hardware identifier of a correctly signed licence is a text the decoder reads beyond -/
  | identifier {f text s : Bytes} : Candidate cfg w caller hint f text → Signed w f text →
      IsLimit (entriesFor f text) (b!"client-signature") s → unbase64 (s.map fun c => if c = 45 then 10 else c) = .ub →
      UbCause cfg w caller hint
  /-- the hardware identifier of a correctly signed licence is one of an adapter or of a disk, and enumerating these misbehaves -/
  | hardware {f text s : Bytes} {h : HwId} : Candidate cfg w caller hint f text → Signed w f text →
      IsLimit (entriesFor f text) (b!"client-signature") s → HwId.ofString s = .ok h →
      (h.d1.toNat / 32 < 2 ∧ w.machine.adapters = .ub ∨ h.d1.toNat / 32 = 2 ∧ w.machine.disks = .ub) →
      UbCause cfg w caller hint
  /-- the path of the log file overruns its array (C59), and the hardware identifier of a correctly signed licence is refused with an
      exception, which is logged: it does not decode to eight bytes, it names an unknown strategy, or enumerating the hardware throws -/
  | logIdentifier {f text s : Bytes} : w.machine.logOverruns = true → Candidate cfg w caller hint f text → Signed w f text →
      IsLimit (entriesFor f text) (b!"client-signature") s →
      (NotEightBytes s
        ∨ ∃ h, HwId.ofString s = .ok h ∧ (3 ≤ h.d1.toNat / 32
          ∨ ∃ e : Exn, e.isLogicError = true ∧ (h.d1.toNat / 32 < 2 ∧ w.machine.adapters = .throw e
            ∨ h.d1.toNat / 32 = 2 ∧ w.machine.disks = .throw e))) → UbCause cfg w caller hint
  /-- the path of the log file overruns its array, and the name of the module cannot be determined, which is logged -/
  | logModule : w.machine.logOverruns = true → cfg.nearModule = true → w.moduleName = none → UbCause cfg w caller hint
  /-- nothing is searched: there is no failure to report (C12) -/
  | nothing : cfg.withEnvVar = false → (cfg.nearModule = true → w.moduleName = none) →
      (∀ l, hint = some l → ∃ rest, l.data = 0 :: rest) → (cfg.nearModule = true ∨ hint ≠ none) → UbCause cfg w caller hint

end Licensecc.Spec
