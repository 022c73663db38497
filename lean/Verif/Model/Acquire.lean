import Verif.Model.Verifier
/-!
# Model of `acquire_license`, src/library/licensecc.cpp
-/
namespace Licensecc

/-- The caller's `LicenseInfo` structure, include/licensecc/datatypes.h:120-144 (see `LicInfo`). -/
structure OutInfo where
  status : List Event
  info : LicInfo
  deriving DecidableEq, Repr

/-- Loop of `mergeLicenses`, src/library/licensecc.cpp:60-70: `days` is `days_left`, `out` what `*license_out` holds. -/
def mergeLoop (days : Int) (out : LicInfo) : List LicInfo → LicInfo
  | [] => out
  | l :: ls =>
    if l.hasExpiry = false then l
    else if days < l.daysLeft then mergeLoop l.daysLeft l ls
    else mergeLoop days out ls

/-- `mergeLicenses`, src/library/licensecc.cpp:58-72 (INT_MIN). -/
def mergeLicenses (ls : List LicInfo) (out : LicInfo) : LicInfo := mergeLoop (-2147483648) out ls

/-- The caller's magic number is stored in the licence, src/library/licensecc.cpp:93-95. -/
def withMagic (caller : Option Caller) (l : FullLicense) : FullLicense := { l with magic := match caller with
  | some c => c.magic
  | none => l.magic }

/-- Loop over the licences, src/library/licensecc.cpp:92-108: registry, clock readings, licences that are ok, licences
    with errors. -/
def judgeLoop (cfg : Config) (w : World) (caller : Option Caller) :
    Registry → Nat → List FullLicense → Outcome (Registry × Nat × List LicInfo × List LicInfo)
  | r, k, [] => .ok (r, k, [], [])
  | r, k, l :: ls => do
    let lic := withMagic caller l
    let (r, good) ← verifySignature w lic r
    let (info, k) ← toLicenseInfo w lic k
    if good then do
      let (r, k, v) ← verifyLimits cfg w lic r k
      let (r, k, oks, errs) ← judgeLoop cfg w caller r k ls
      return (r, k, (if v then info :: oks else oks), (if v then errs else info :: errs))
    else do
      let (r, k, oks, errs) ← judgeLoop cfg w caller r k ls
      return (r, k, oks, info :: errs)

/-- Everything observable about a call, plus the event registry and the number of clock readings. -/
structure AcquireResult where
  ret : EventType
  out : Option OutInfo
  registry : Registry
  ticks : Nat
  deriving DecidableEq, Repr

/-- `er.getLastFailure()->event_type`: dereferencing a null pointer is undefined. -/
def lastFailureType (r : Registry) : Outcome EventType := do
  match ← r.getLastFailure with
  | some e => return e.type
  | none => .ub

/-- Final export, src/library/licensecc.cpp:130-133; the status array has 5 entries (LCC_API_AUDIT_EVENT_NUM). -/
def finish (w : World) (ret : EventType) (r : Registry) (k : Nat) (out : Option LicInfo) : Outcome AcquireResult :=
  match out with
  | none => .ok ⟨ret, none, r, k⟩
  | some i => do
    let st ← r.exportLastEvents (List.replicate 5 w.junk) 5
    return ⟨ret, some ⟨st, i⟩, r, k⟩

/-- `acquire_license` after the licences have been read, src/library/licensecc.cpp:86-134. -/
def judge (cfg : Config) (w : World) (caller : Option Caller) (out : Option LicInfo) (r : Registry) (lics : List FullLicense) :
    Outcome AcquireResult :=
  match lics with
  | [] => do
    let (r, _) ← r.turnWarningsIntoErrors
    let t ← lastFailureType r
    finish w t r 0 (out.map fun o => { o with proprietary := some [], linkedToPc := false, daysLeft := 0 })
  | _ => do
    let (r, k, oks, errs) ← judgeLoop cfg w caller r 0 lics
    match oks with
    | _ :: _ => finish w .licenseOk r.turnErrorsIntoWarnings.1 k (out.map (mergeLicenses oks))
    | [] => do
      let (r, _) ← r.turnWarningsIntoErrors
      let t ← lastFailureType r
      finish w t r k (out.map (mergeLicenses errs))

/-- The feature asked for, src/library/licensecc.cpp:79-84: `sizeof feature_name` is 16. -/
def featureOf (cfg : Config) (caller : Option Caller) : Outcome Bytes :=
  match caller with
  | none => .ok cfg.projectName
  | some c => do
    let f ← boundedString c.featureName 16
    return if f = [] then cfg.projectName else f

/-- `acquire_license`, src/library/licensecc.cpp:74-135.  `out` is what the caller's structure holds before the call,
    `none` for a null pointer. -/
def acquire (cfg : Config) (w : World) (caller : Option Caller) (hint : Option LicenseLocation) (out : Option LicInfo) :
    Outcome AcquireResult := do
  let feature ← featureOf cfg caller
  let (r, lics) ← readLicenses cfg w hint feature
  judge cfg w caller out r lics

/-- `confirm_license` and `release_license`, src/library/licensecc.cpp:137-139. -/
def confirmLicense : EventType := .licenseOk
def releaseLicense : EventType := .licenseOk

end Licensecc
