import Verif.Model.Threads
import Verif.Model.Windows
/-!
# Calls in several threads (Windows)

On Windows the threads share, without a lock, only the pointer `logFile` (src/library/base/logger.cpp:17).  The other cells of
Model/Threads do not exist: src/library/os/windows/signature_verifier.cpp has no static variable, disks are enumerated without `getmntent`, and
the Microsoft C library has one result of `localtime` for each thread.  Neither src/library/os/windows nor the enumeration of the
hardware logs (outside debug builds), so what is left are the log entries of the parts both systems have in common.
-/
namespace Licensecc.Win.Threads
open Licensecc.Threads (Prog Shared Cell)

/-- A Windows system as one call sees it, and whether the log file can be opened. -/
structure View where
  sys : Windows
  opens : Bytes → Bool

/-- The system with the uses of the log left to `logP`. -/
def View.quiet (v : View) : Windows := { v.sys with log := ⟨some [], v.sys.log.files⟩ }

/-- Lines 55-63 of `_log`, src/library/base/logger.cpp: `vfprintf` gets the pointer.  Simplification: the characters written are left
    out (see `Logger`). -/
def logBody : Prog Unit := .read .logFile fun
  | none => .ret .ub
  | some _ => .ret (.ok ())

/-- `_log`, src/library/base/logger.cpp:46-64, with `getLogFname` of lines 38-43. -/
def logP (v : View) : Prog Unit := .read .logFile fun
  | some _ => logBody
  | none =>
    match Logger.getLogFnameWin v.sys.tempPath with
    | .ok p => .write .logFile (if v.opens p then some p else none) (.read .logFile fun
      | none => .ret (.ok ())
      | some _ => logBody)
    | .throw e => .ret (.throw e)
    | .ub => .ret .ub

/-- `HwIdentifierFacade::validate_pc_signature`, src/library/hw_identifier/hw_identifier_facade.cpp:23-35. -/
def validatePcSignatureP (v : View) (code : Bytes) : Prog EventType :=
  let r : Outcome EventType := do
    let h ← HwId.ofString code
    let s ← getStrategy h.strategy
    validateIdentifier v.quiet.os.machine s h
  match r with
  | .throw e => if e.isLogicError then do
      logP v
      return .identifiersMismatch
    else .ret (.throw e)
  | o => .ret o

/-- The warning, src/library/hw_identifier/hw_identifier_facade.cpp:44-45. -/
def warnUnknownP (v : View) (strategy : Int) : Prog Unit :=
  if strategyUnknown (v.sys.getenv (b!"IDENTIFICATION_STRATEGY")) strategy then logP v else .ret (.ok ())

/-- `HwIdentifierFacade::generate_user_pc_signature`, src/library/hw_identifier/hw_identifier_facade.cpp:37-61. -/
def generateUserPcSignatureP (v : View) (strategy : Int) : Prog Bytes := do
  warnUnknownP v strategy
  let s ← .ret (getStrategy (selectStrategy (v.sys.getenv (b!"IDENTIFICATION_STRATEGY")) strategy).1)
  let r ← .ret (generatePcId v.quiet.os.machine s)
  match r with
  | none => .ret (.throw .logicError)
  | some h => .ret (h.setUseEnvVar (selectStrategy (v.sys.getenv (b!"IDENTIFICATION_STRATEGY")) strategy).2).print

/-- `identify_pc` without the environment report, src/library/licensecc.cpp:32-48, 55. -/
def identifyPcP (v : View) (strategy : Int) (buf : Option Bytes) (bufSize : Nat) : Prog IdentifyResult :=
  match buf with
  | some mem =>
    if bufSize > 19 then
      (generateUserPcSignatureP v strategy).andThen fun
        | .ub => .ret .ub
        | .throw _ => do
          logP v
          return ⟨false, bufSize, some mem⟩
        | .ok id =>
          match mstrlcpy mem (id ++ [0]) bufSize with
          | .ok (mem', _) => return ⟨true, bufSize, some mem'⟩
          | .throw e => .ret (.throw e)
          | .ub => .ret .ub
    else return ⟨false, 20, some mem⟩
  | none => return ⟨false, 20, none⟩

/-- `license_locations`, see `licenseLocations`: src/library/locate/ApplicationFolder.cpp:45-47 logs. -/
def licenseLocationsP (v : View) (l : Locator) (r : Registry) : Prog (Registry × List Bytes × Bool) :=
  match l, v.quiet.world.moduleName with
  | .applicationFolder, none => do
    logP v
    .ret (licenseLocations v.quiet.world .applicationFolder r)
  | l, _ => .ret (licenseLocations v.quiet.world l r)

/-- Loop over the locators, src/library/LicenseReader.cpp:57-102. -/
def readLocatorsP (v : View) (feature : Bytes) : Registry → List Locator → Prog (Registry × List FullLicense)
  | r, [] => return (r, [])
  | r, l :: ls => do
    let (r, locations, isBase64) ← licenseLocationsP v l r
    let (r, lics) ← .ret (readLocations v.quiet.world feature l isBase64 r locations)
    let (r, lics') ← readLocatorsP v feature r ls
    return (r, lics ++ lics')

/-- `LicenseReader::readLicenses`, src/library/LicenseReader.cpp:44-107. -/
def readLicensesP (cfg : Config) (v : View) (hint : Option LicenseLocation) (feature : Bytes) : Prog (Registry × List FullLicense) :=
  let strategies := activeStrategies cfg hint
  if strategies.isEmpty then .ret (readLicenses cfg v.quiet.world hint feature)
  else do
    let (r, lics) ← readLocatorsP v feature (Registry.empty .windows) strategies
    if lics.isEmpty then do
      let (r, _) ← .ret r.turnWarningsIntoErrors
      return (r, lics)
    else return (r, lics)

/-- Check of client-signature, src/library/limits/license_verifier.cpp:58-63. -/
def checkClientP (v : View) (lic : FullLicense) (r : Registry) : Prog (Registry × Bool) :=
  match SMap.find? kClient lic.limits with
  | none => return (r, true)
  | some s => do
    let ev ← validatePcSignatureP v s
    let r ← .ret (r.addEvent ev (some lic.source))
    return (r, ev = .licenseOk)

/-- `LicenseVerifier::verify_limits`, src/library/limits/license_verifier.cpp:37-65. -/
def verifyLimitsP (cfg : Config) (v : View) (lic : FullLicense) (r : Registry) (k : Nat) : Prog (Registry × Nat × Bool) :=
  if lic.magic = cfg.magic then do
    let (r, ok) ← .ret (checkExpiry v.quiet.world (v.sys.clock k) lic r)
    if ok then do
      let (r, ok) ← .ret (checkBegin v.quiet.world (v.sys.clock k) lic r)
      if ok then do
        let (r, ok) ← checkClientP v lic r
        return (r, k + 1, ok)
      else return (r, k + 1, false)
    else return (r, k + 1, false)
  else do
    let r ← .ret (r.addEvent .corrupted (some lic.source))
    return (r, k + 1, false)

/-- Loop over the licences, src/library/licensecc.cpp:92-108. -/
def judgeLoopP (cfg : Config) (v : View) (caller : Option Caller) :
    Registry → Nat → List FullLicense → Prog (Registry × Nat × List LicInfo × List LicInfo)
  | r, k, [] => return (r, k, [], [])
  | r, k, l :: ls => do
    let (r, good) ← .ret (verifySignature v.quiet.world (withMagic caller l) r)
    let (info, k) ← .ret (toLicenseInfo v.quiet.world (withMagic caller l) k)
    if good then do
      let (r, k, ok) ← verifyLimitsP cfg v (withMagic caller l) r k
      let (r, k, oks, errs) ← judgeLoopP cfg v caller r k ls
      return (r, k, (if ok then info :: oks else oks), (if ok then errs else info :: errs))
    else do
      let (r, k, oks, errs) ← judgeLoopP cfg v caller r k ls
      return (r, k, oks, info :: errs)

/-- After the loop, src/library/licensecc.cpp:109-134. -/
def conclude (v : View) (out : Option LicInfo) (r : Registry) (k : Nat) (oks errs : List LicInfo) : Outcome AcquireResult :=
  match oks with
  | _ :: _ => finish v.quiet.world .licenseOk r.turnErrorsIntoWarnings.1 k (out.map (mergeLicenses oks))
  | [] => do
    let (r, _) ← r.turnWarningsIntoErrors
    let t ← lastFailureType r
    finish v.quiet.world t r k (out.map (mergeLicenses errs))

/-- `acquire_license`, src/library/licensecc.cpp:74-135. -/
def acquireP (cfg : Config) (v : View) (caller : Option Caller) (hint : Option LicenseLocation) (out : Option LicInfo) :
    Prog AcquireResult := do
  let feature ← .ret (featureOf cfg caller)
  let (r, lics) ← readLicensesP cfg v hint feature
  match lics with
  | [] => .ret (judge cfg v.quiet.world caller out r [])
  | _ => do
    let (r, k, oks, errs) ← judgeLoopP cfg v caller r 0 lics
    .ret (conclude v out r k oks errs)

/-- A call of the library. -/
inductive Call where
  | acquire (cfg : Config) (v : View) (caller : Option Caller) (hint : Option LicenseLocation) (out : Option LicInfo)
  | identify (v : View) (strategy : Int) (buf : Option Bytes) (bufSize : Nat)

def Call.prog : Call → Prog Licensecc.Threads.Result
  | .acquire cfg v caller hint out => do return .acquired (← acquireP cfg v caller hint out)
  | .identify v strategy buf size => do return .identified (← identifyPcP v strategy buf size)

/-- A thread makes one call after the other. -/
def threadP : List Call → Prog (List Licensecc.Threads.Result)
  | [] => return []
  | c :: cs => do
    let r ← c.prog
    let rs ← threadP cs
    return r :: rs

end Licensecc.Win.Threads
