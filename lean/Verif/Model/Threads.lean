import Verif.Model.Linux
/-!
# Calls in several threads (Linux)

The library keeps four pieces of memory that all threads share and no lock protects: the flag `initialized`
(src/library/os/openssl/signature_verifier.cpp:35), the pointer `logFile` (src/library/base/logger.cpp:17), and, inside the C library,
the result of `localtime` (src/library/base/logger.cpp:24) and of `getmntent` (src/library/os/linux/os_linux.cpp:266).  The calls are
modelled again here as programs that read and write these cells; everything else they do is the code of the sequential model.

Not cells, because no thread ever writes to them or the compiler locks them: the tables and regular expressions (src/library/base/base64.cpp:9-40,
string_utils.cpp:85-86), the switches of `LocatorFactory` (src/library/locate/LocatorFactory.cpp:14-15), `exec_env` of `identify_pc`
(src/library/licensecc.cpp:49, a local static object, initialised under a lock since C++11).  `strerror` (src/library/base/logger.h:12,
file_utils.cpp:48) does not share memory since glibc 2.32 and is left out.
-/
namespace Licensecc.Threads

/-- The shared memory. -/
inductive Cell where
  /-- `initialized`, src/library/os/openssl/signature_verifier.cpp:35 (`none` for 0) -/
  | sslInitialized
  /-- `logFile`, src/library/base/logger.cpp:17 (`none` for NULL) -/
  | logFile
  /-- what `localtime` returns a pointer to -/
  | tmBuffer
  /-- what `getmntent` returns a pointer to -/
  | mntBuffer
  deriving DecidableEq, Repr

/-- Contents of the shared memory. -/
abbrev Shared := Cell → Option Bytes

def Shared.set (s : Shared) (c : Cell) (v : Option Bytes) : Shared := fun d => if d = c then v else s d

/-- A thread's program: the accesses to shared memory in between are private. -/
inductive Prog (α : Type) where
  | ret (o : Outcome α)
  | read (c : Cell) (k : Option Bytes → Prog α)
  | write (c : Cell) (v : Option Bytes) (p : Prog α)

namespace Prog

/-- First `p`, then, whatever its outcome, `f`. -/
def andThen {α β : Type} : Prog α → (Outcome α → Prog β) → Prog β
  | ret o, f => f o
  | read c k, f => read c fun v => (k v).andThen f
  | write c v p, f => write c v (p.andThen f)

/-- First `p`, then `f` unless `p` threw or was undefined. -/
def bind {α β : Type} (p : Prog α) (f : α → Prog β) : Prog β := p.andThen fun
  | .ok a => f a
  | .throw e => .ret (.throw e)
  | .ub => .ret .ub

instance : Monad Prog where
  pure a := .ret (.ok a)
  bind := bind

end Prog

/-- A Linux system as one call sees it, and whether the log file can be opened. -/
structure View where
  sys : Linux
  opens : Bytes → Bool

/-- The system with the uses of the log left to `logP`. -/
def View.quiet (v : View) : Linux := { v.sys with log := ⟨some [], v.sys.log.files⟩ }

/-- Lines 55-63 of `_log`, src/library/base/logger.cpp: `localtime` writes, `strftime` reads, `vfprintf` gets the pointer.
    Simplification: the characters written are left out (see `Logger`). -/
def logBody : Prog Unit := .write .tmBuffer (some []) (.read .tmBuffer fun _ => .read .logFile fun
  | none => .ret .ub
  | some _ => .ret (.ok ()))

/-- `_log`, src/library/base/logger.cpp:46-64. -/
def logP (v : View) : Prog Unit := .read .logFile fun
  | some _ => logBody
  | none =>
    match Logger.getLogFname (v.sys.getenv (b!"TMPDIR")) with
    | .ok p => .write .logFile (if v.opens p then some p else none) (.read .logFile fun
      | none => .ret (.ok ())
      | some _ => logBody)
    | .throw e => .ret (.throw e)
    | .ub => .ret .ub

/-- `initialize`, src/library/os/openssl/signature_verifier.cpp:34-42.  The flag is set before the calls. -/
def initializeP : Prog Unit := .read .sslInitialized fun
  | none => .write .sslInitialized (some []) (.ret (.ok ()))
  | some _ => .ret (.ok ())

/-- `verify_signature`, src/library/os/openssl/signature_verifier.cpp:44-106 (`OpenSsl.verify`): every failure is logged. -/
def verifyP (v : View) (data signature : Bytes) : Prog Bool := do
  initializeP
  let good ← .ret (v.quiet.world.verify data signature)
  if good then return true
  else do
    logP v
    return false

/-- One round of the loop of `set_preferred_disks`, src/library/os/linux/os_linux.cpp:266-310: `getmntent` writes the entry, and
    `ent->mnt_fsname` is read up to three times (268, 270, 286). -/
def entryP (m : UuidMap) (e : Bytes) (ds : List Disk) : Prog (List Disk) :=
  .write .mntBuffer (some e) (.read .mntBuffer fun name => .read .mntBuffer fun again =>
    if (b!"UUID=").isPrefixOf (again.getD []) then
      if (name.getD []).length < 5 then .ret (.throw .outOfRange)
      else match m.find? ((name.getD []).drop 5) with
        | some id => .ret (.ok (updateFirst (fun d => d.id = id) (fun d => { d with preferred := true }) ds))
        | none => .ret (.ok ds)
    else .read .mntBuffer fun again =>
      if (b!"LABEL=").isPrefixOf (again.getD []) then
        if (name.getD []).length < 6 then .ret (.throw .outOfRange)
        else .ret (markLabel ((name.getD []).drop 6) ds)
      else .ret (.ok ds))

/-- The loop.  The last call of `getmntent` finds no entry; it may write to its buffer all the same. -/
def entriesP (m : UuidMap) : List Bytes → List Disk → Prog (List Disk)
  | [], ds => .write .mntBuffer none (.ret (.ok ds))
  | e :: es, ds => do entriesP m es (← entryP m e ds)

/-- `set_preferred_disks`, src/library/os/linux/os_linux.cpp:259-313. -/
def setPreferredP (h : DiskHost) (ds : List Disk) (m : UuidMap) : Prog (List Disk) :=
  match h.fstab with
  | some es => entriesP m es ds
  | none => .ret (.ok ds)

/-- The disks before the preferred ones are marked, src/library/os/linux/os_linux.cpp:323-329. -/
def listDisks (h : DiskHost) : Outcome (FuncRet × List Disk × UuidMap) := do
  let (r, ds, m) ← getDiskInfosDev h
  if r ≠ .ok then getDiskInfosBlkid h ds m else .ok (r, ds, m)

/-- `getDiskInfos`, src/library/os/linux/os_linux.cpp:322-334. -/
def getDiskInfosP (h : DiskHost) : Prog (FuncRet × List Disk) := do
  let (r, ds, m) ← .ret (listDisks h)
  if r = .ok then do
    let ds ← setPreferredP h ds m
    return (r, ds)
  else return (r, ds)

/-- `alternative_ids`, src/library/hw_identifier/ethernet.cpp:69-83, disk_strategy.cpp:65-79, with the logging of
    src/library/os/linux/network.cpp:54-57. -/
def alternativeIdsP (v : View) (s : Strategy) : Prog (List HwId) :=
  match s with
  | .disk => (getDiskInfosP v.sys.disks).andThen fun o => .ret (alternativeIds { v.quiet.os.machine with disks := o } .disk)
  | .default => .ret (alternativeIds v.quiet.os.machine .default)
  | s =>
    if v.sys.net.ifaddrs = none then do
      logP v
      .ret (alternativeIds v.quiet.os.machine s)
    else .ret (alternativeIds v.quiet.os.machine s)

/-- `validate_identifier`, src/library/hw_identifier/identification_strategy.cpp:10-23 and default_strategy.cpp:74-77. -/
def validateIdentifierP (v : View) (s : Strategy) (h : HwId) : Prog EventType :=
  if s = .default then return .identifiersMismatch
  else if h.strategy = s.code then do
    let ids ← alternativeIdsP v s
    return if ids.any (fun x => x.eq h) then .licenseOk else .identifiersMismatch
  else return .identifiersMismatch

/-- `HwIdentifierFacade::validate_pc_signature`, src/library/hw_identifier/hw_identifier_facade.cpp:23-35. -/
def validatePcSignatureP (v : View) (code : Bytes) : Prog EventType :=
  let r : Prog EventType := do
    let h ← .ret (HwId.ofString code)
    let s ← .ret (getStrategy h.strategy)
    validateIdentifierP v s h
  r.andThen fun
    | .throw e => if e.isLogicError then do
        logP v
        return .identifiersMismatch
      else .ret (.throw e)
    | o => .ret o

/-- The loop of `DefaultStrategy::generate_pc_id`, src/library/hw_identifier/default_strategy.cpp:44-56. -/
def tryStrategiesP (v : View) : List Int → Prog (Option HwId)
  | [] => return none
  | n :: ns => do
    let s ← .ret (getStrategy n)
    let ids ← alternativeIdsP v s
    match ids.head? with
    | some h => return some h
    | none => tryStrategiesP v ns

/-- virtual `generate_pc_id`, src/library/hw_identifier/identification_strategy.cpp:25-33, default_strategy.cpp:44-56. -/
def generatePcIdP (v : View) (s : Strategy) : Prog (Option HwId) :=
  match s with
  | .default => do
    let e ← .ret (execSummary v.sys.host)
    tryStrategiesP v (availableStrategies e)
  | s => do
    let ids ← alternativeIdsP v s
    return ids.head?

/-- The warning, src/library/hw_identifier/hw_identifier_facade.cpp:44-45. -/
def warnUnknownP (v : View) (strategy : Int) : Prog Unit :=
  if strategyUnknown (v.sys.getenv (b!"IDENTIFICATION_STRATEGY")) strategy then logP v else .ret (.ok ())

/-- `HwIdentifierFacade::generate_user_pc_signature`, src/library/hw_identifier/hw_identifier_facade.cpp:37-61. -/
def generateUserPcSignatureP (v : View) (strategy : Int) : Prog Bytes := do
  warnUnknownP v strategy
  let s ← .ret (getStrategy (selectStrategy (v.sys.getenv (b!"IDENTIFICATION_STRATEGY")) strategy).1)
  let r ← generatePcIdP v s
  match r with
  | none => .ret (.throw .logicError)
  | some h => .ret (h.setUseEnvVar (selectStrategy (v.sys.getenv (b!"IDENTIFICATION_STRATEGY")) strategy).2).print

/-- `identify_pc` without the environment report, src/library/licensecc.cpp:32-48, 55. -/
def identifyPcP (v : View) (strategy : Int) (buf : Option Bytes) (bufSize : Nat) : Prog IdentifyResult :=
  match buf with
  | some mem =>
    if bufSize > 19 then
      (generateUserPcSignatureP v strategy).andThen fun
        | .ub => .ret .ub
        | .throw _ => do
          logP v
          return ⟨false, bufSize, some mem⟩
        | .ok id =>
          match mstrlcpy mem (id ++ [0]) bufSize with
          | .ok (mem', _) => return ⟨true, bufSize, some mem'⟩
          | .throw e => .ret (.throw e)
          | .ub => .ret .ub
    else return ⟨false, 20, some mem⟩
  | none => return ⟨false, 20, none⟩

/-- `license_locations`, see `licenseLocations`: src/library/locate/ApplicationFolder.cpp:45-47 logs. -/
def licenseLocationsP (v : View) (l : Locator) (r : Registry) : Prog (Registry × List Bytes × Bool) :=
  match l, v.quiet.world.moduleName with
  | .applicationFolder, none => do
    logP v
    .ret (licenseLocations v.quiet.world .applicationFolder r)
  | l, _ => .ret (licenseLocations v.quiet.world l r)

/-- Loop over the locators, src/library/LicenseReader.cpp:57-102. -/
def readLocatorsP (v : View) (feature : Bytes) : Registry → List Locator → Prog (Registry × List FullLicense)
  | r, [] => return (r, [])
  | r, l :: ls => do
    let (r, locations, isBase64) ← licenseLocationsP v l r
    let (r, lics) ← .ret (readLocations v.quiet.world feature l isBase64 r locations)
    let (r, lics') ← readLocatorsP v feature r ls
    return (r, lics ++ lics')

/-- `LicenseReader::readLicenses`, src/library/LicenseReader.cpp:44-107. -/
def readLicensesP (cfg : Config) (v : View) (hint : Option LicenseLocation) (feature : Bytes) : Prog (Registry × List FullLicense) :=
  let strategies := activeStrategies cfg hint
  if strategies.isEmpty then .ret (readLicenses cfg v.quiet.world hint feature)
  else do
    let (r, lics) ← readLocatorsP v feature (Registry.empty .linux) strategies
    if lics.isEmpty then do
      let (r, _) ← .ret r.turnWarningsIntoErrors
      return (r, lics)
    else return (r, lics)

/-- `LicenseVerifier::verify_signature`, src/library/limits/license_verifier.cpp:23-34. -/
def verifySignatureP (v : View) (lic : FullLicense) (r : Registry) : Prog (Registry × Bool) := do
  let good ← verifyP v lic.printForSign lic.signature
  let r ← .ret (r.addEvent (if good then .signatureVerified else .corrupted) (some lic.source))
  return (r, good)

/-- Check of client-signature, src/library/limits/license_verifier.cpp:58-63. -/
def checkClientP (v : View) (lic : FullLicense) (r : Registry) : Prog (Registry × Bool) :=
  match SMap.find? kClient lic.limits with
  | none => return (r, true)
  | some s => do
    let ev ← validatePcSignatureP v s
    let r ← .ret (r.addEvent ev (some lic.source))
    return (r, ev = .licenseOk)

/-- `LicenseVerifier::verify_limits`, src/library/limits/license_verifier.cpp:37-65. -/
def verifyLimitsP (cfg : Config) (v : View) (lic : FullLicense) (r : Registry) (k : Nat) : Prog (Registry × Nat × Bool) :=
  if lic.magic = cfg.magic then do
    let (r, ok) ← .ret (checkExpiry v.quiet.world (v.sys.clock k) lic r)
    if ok then do
      let (r, ok) ← .ret (checkBegin v.quiet.world (v.sys.clock k) lic r)
      if ok then do
        let (r, ok) ← checkClientP v lic r
        return (r, k + 1, ok)
      else return (r, k + 1, false)
    else return (r, k + 1, false)
  else do
    let r ← .ret (r.addEvent .corrupted (some lic.source))
    return (r, k + 1, false)

/-- Loop over the licences, src/library/licensecc.cpp:92-108. -/
def judgeLoopP (cfg : Config) (v : View) (caller : Option Caller) :
    Registry → Nat → List FullLicense → Prog (Registry × Nat × List LicInfo × List LicInfo)
  | r, k, [] => return (r, k, [], [])
  | r, k, l :: ls => do
    let (r, good) ← verifySignatureP v (withMagic caller l) r
    let (info, k) ← .ret (toLicenseInfo v.quiet.world (withMagic caller l) k)
    if good then do
      let (r, k, ok) ← verifyLimitsP cfg v (withMagic caller l) r k
      let (r, k, oks, errs) ← judgeLoopP cfg v caller r k ls
      return (r, k, (if ok then info :: oks else oks), (if ok then errs else info :: errs))
    else do
      let (r, k, oks, errs) ← judgeLoopP cfg v caller r k ls
      return (r, k, oks, info :: errs)

/-- After the loop, src/library/licensecc.cpp:109-134. -/
def conclude (v : View) (out : Option LicInfo) (r : Registry) (k : Nat) (oks errs : List LicInfo) : Outcome AcquireResult :=
  match oks with
  | _ :: _ => finish v.quiet.world .licenseOk r.turnErrorsIntoWarnings.1 k (out.map (mergeLicenses oks))
  | [] => do
    let (r, _) ← r.turnWarningsIntoErrors
    let t ← lastFailureType r
    finish v.quiet.world t r k (out.map (mergeLicenses errs))

/-- `acquire_license`, src/library/licensecc.cpp:74-135. -/
def acquireP (cfg : Config) (v : View) (caller : Option Caller) (hint : Option LicenseLocation) (out : Option LicInfo) :
    Prog AcquireResult := do
  let feature ← .ret (featureOf cfg caller)
  let (r, lics) ← readLicensesP cfg v hint feature
  match lics with
  | [] => .ret (judge cfg v.quiet.world caller out r [])
  | _ => do
    let (r, k, oks, errs) ← judgeLoopP cfg v caller r 0 lics
    .ret (conclude v out r k oks errs)

/-- A call of the library. -/
inductive Call where
  | acquire (cfg : Config) (v : View) (caller : Option Caller) (hint : Option LicenseLocation) (out : Option LicInfo)
  | identify (v : View) (strategy : Int) (buf : Option Bytes) (bufSize : Nat)

/-- What it returns. -/
inductive Result where
  | acquired (r : AcquireResult)
  | identified (r : IdentifyResult)
  deriving DecidableEq, Repr

def Call.prog : Call → Prog Result
  | .acquire cfg v caller hint out => do return .acquired (← acquireP cfg v caller hint out)
  | .identify v strategy buf size => do return .identified (← identifyPcP v strategy buf size)

/-- A thread makes one call after the other. -/
def threadP : List Call → Prog (List Result)
  | [] => return []
  | c :: cs => do
    let r ← c.prog
    let rs ← threadP cs
    return r :: rs

end Licensecc.Threads
