import Verif.Model.Reader
/-!
# Model of src/library/limits/license_verifier.cpp
-/
namespace Licensecc

/-- PARAM_EXPIRY_DATE etc., src/library/base/base.h:32-37. -/
abbrev kExpiry : Bytes := b!"valid-to"
abbrev kBegin : Bytes := b!"valid-from"
abbrev kClient : Bytes := b!"client-signature"
abbrev kExtra : Bytes := b!"extra-data"

/-- `LicenseVerifier::verify_signature`, src/library/limits/license_verifier.cpp:23-34. -/
def verifySignature (w : World) (lic : FullLicense) (r : Registry) : Outcome (Registry × Bool) := do
  let good ← w.verify lic.printForSign lic.signature
  let r ← r.addEvent (if good then .signatureVerified else .corrupted) (some lic.source)
  return (r, good)

/-- Check of valid-to, src/library/limits/license_verifier.cpp:44-49. -/
def checkExpiry (w : World) (now : Int) (lic : FullLicense) (r : Registry) : Outcome (Registry × Bool) :=
  match SMap.find? kExpiry lic.limits with
  | none => .ok (r, true)
  | some d => do
    let t ← secondsFromEpoch w.mktime d
    if t < now then do
      let r ← r.addEvent .productExpired (some lic.source) (some (b!"Expired " ++ d))
      return (r, false)
    else return (r, true)

/-- Check of valid-from, src/library/limits/license_verifier.cpp:50-57. -/
def checkBegin (w : World) (now : Int) (lic : FullLicense) (r : Registry) : Outcome (Registry × Bool) :=
  match SMap.find? kBegin lic.limits with
  | none => .ok (r, true)
  | some d => do
    let t ← secondsFromEpoch w.mktime d
    if t > now then do
      let r ← r.addEvent .productExpired (some lic.source) (some (b!"Valid from " ++ d))
      return (r, false)
    else return (r, true)

/-- Check of client-signature, src/library/limits/license_verifier.cpp:58-63. -/
def checkClient (w : World) (lic : FullLicense) (r : Registry) : Outcome (Registry × Bool) :=
  match SMap.find? kClient lic.limits with
  | none => .ok (r, true)
  | some s => do
    let ev ← validatePcSignature w.machine s
    let r ← r.addEvent ev (some lic.source)
    return (r, ev = .licenseOk)

/-- `LicenseVerifier::verify_limits`, src/library/limits/license_verifier.cpp:37-65.  `k` is the number of clock readings
    so far. -/
def verifyLimits (cfg : Config) (w : World) (lic : FullLicense) (r : Registry) (k : Nat) :
    Outcome (Registry × Nat × Bool) := do
  let now := w.clock k
  if lic.magic = cfg.magic then do
    let (r, v) ← checkExpiry w now lic r
    if v then do
      let (r, v) ← checkBegin w now lic r
      if v then do
        let (r, v) ← checkClient w lic r
        return (r, k + 1, v)
      else return (r, k + 1, false)
    else return (r, k + 1, false)
  else do
    let r ← r.addEvent .corrupted (some lic.source)
    return (r, k + 1, false)

/-- The fields of `LicenseInfo` that `toLicenseInfo` fills, include/licensecc/datatypes.h:120-144: the strings stored in
    the arrays.  `proprietary = none` means the array is not initialised.  `license_type` is always LCC_LOCAL and
    `license_version` is never set; both are left out. -/
structure LicInfo where
  expiryDate : Bytes
  daysLeft : Int
  hasExpiry : Bool
  linkedToPc : Bool
  proprietary : Option Bytes
  deriving DecidableEq, Repr

/-- `round(secs / 86400)`, src/library/limits/license_verifier.cpp:75-76: nearest integer, halves away from zero. The computation is in `double`; that it gives this number is
    C10_double (Props/Double). -/
def roundDays (secs : Int) : Int := if 0 ≤ secs then (secs + 43200) / 86400 else -((-secs + 43200) / 86400)

/-- `LicenseVerifier::toLicenseInfo`, src/library/limits/license_verifier.cpp:67-95.  The conversion to `int` is
    undefined outside the range of `int`.  Arrays of 11 and 17 bytes. -/
def toLicenseInfo (w : World) (lic : FullLicense) (k : Nat) : Outcome (LicInfo × Nat) := do
  let linked := (SMap.find? kClient lic.limits).isSome
  let prop := (SMap.find? kExtra lic.limits).map fun v => (Registry.cstr v).take 16
  match SMap.find? kExpiry lic.limits with
  | some d => do
    let t ← secondsFromEpoch w.mktime d
    let n := roundDays (t - w.clock k)
    if -2147483648 ≤ n ∧ n ≤ 2147483647 then
      return (⟨(Registry.cstr d).take 10, max n 0, true, linked, prop⟩, k + 1)
    else .ub
  | none => return (⟨[], 9999, false, linked, prop⟩, k)

end Licensecc
