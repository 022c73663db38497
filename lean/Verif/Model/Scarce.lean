import Verif.Model.Linux
/-!
# The library on Linux when memory runs out

Every step that asks for memory may be refused.  The functions on the way from the API to the steps are modelled a second time, with what
the code does when it is refused: `new` throws `std::bad_alloc`, which only `identify_pc` and `DmiInfo` catch; streams swallow it and
go on with less text; `malloc` returns a null pointer that is used nevertheless; functions of the C library and of OpenSSL fail.
That all is as in the first model when there is enough memory is a theorem (Props/Scarce, C84_enough).
Simplifications: builds with `NDEBUG`; one decision stands for all the memory that a step needs for strings and containers, as whichever
request is refused, only the exception is left; `mktime` finds its time zone loaded; a refusal while something is written to the log file, and
in `initialize` of the signature check, changes nothing.
-/
namespace Licensecc.Scarce
open Licensecc

/-- Is the n-th request refused, and if so, how: the number tells how far a stream came before, or which of two requests it was. -/
abbrev Memory := Nat → Option Nat

/-- How a computation ends: as before, or with `std::bad_alloc`. -/
inductive End (α : Type) where
  | ok (a : α)
  | throw (e : Exn)
  | noMemory
  | ub
  deriving Repr, DecidableEq

/-- A computation that asks for memory: from the number of requests so far to the end and the number of requests then. -/
structure Scarce (α : Type) where
  run : Memory → Nat → End α × Nat

/-- Sequencing. -/
def Scarce.bind {α β : Type} (x : Scarce α) (f : α → Scarce β) : Scarce β := ⟨fun m n =>
  match x.run m n with
  | (.ok a, n') => (f a).run m n'
  | (.throw e, n') => (.throw e, n')
  | (.noMemory, n') => (.noMemory, n')
  | (.ub, n') => (.ub, n')⟩

instance : Monad Scarce where
  pure a := ⟨fun _ n => (.ok a, n)⟩
  bind := Scarce.bind

/-- The end of a computation that asks for no memory. -/
def ended {α : Type} : Outcome α → End α
  | .ok a => .ok a
  | .throw e => .throw e
  | .ub => .ub

/-- A computation that asks for no memory. -/
def plain {α : Type} (x : Outcome α) : Scarce α := ⟨fun _ n => (ended x, n)⟩

/-- A request whose refusal the code looks at. -/
def request : Scarce Bool := ⟨fun m n => (.ok (m n).isNone, n + 1)⟩

/-- A request whose refusal throws. -/
def need : Scarce Unit := ⟨fun m n => (if (m n).isNone then .ok () else .noMemory, n + 1)⟩

/-- A step that needs memory for strings and containers. -/
def step {α : Type} (x : Outcome α) : Scarce α := do
  need
  plain x

/-- The constructor of `ifstream`: is the file opened?  Refused the memory for the `FILE` it is not; refused the buffer it throws. -/
def opening : Scarce Bool := ⟨fun m n =>
  (match m n with
    | none => .ok true
    | some 0 => .ok false
    | some _ => .noMemory, n + 1)⟩

/-- What comes through a stream that swallows the exception: as much as before it. -/
def streamed {β : Type} (s : List β) : Scarce (List β) := ⟨fun m n =>
  (.ok (match m n with
    | none => s
    | some k => s.take k), n + 1)⟩

/-- `try { x } catch (const std::exception&) { handler }`; `std::bad_alloc` is one. -/
def catchAll {α : Type} (x handler : Scarce α) : Scarce α := ⟨fun m n =>
  match x.run m n with
  | (.throw _, n') => handler.run m n'
  | (.noMemory, n') => handler.run m n'
  | r => r⟩

/-- `try { x } catch (const std::logic_error&) { handler }`; `std::bad_alloc` is not one. -/
def catchLogic {α : Type} (x handler : Scarce α) : Scarce α := ⟨fun m n =>
  match x.run m n with
  | (.throw e, n') => if e.isLogicError then handler.run m n' else (.throw e, n')
  | r => r⟩

/-- What the functions see and call. -/
structure Hooks where
  /-- the surroundings; `verify`, `machine.adapters`, `machine.disks`, `machine.exec` and `machine.logOverruns` are not used -/
  world : World
  /-- `license::os::verify_signature(...) == FUNC_RET_OK` -/
  verify : Bytes → Bytes → Scarce Bool
  /-- `getAdapterInfos` -/
  adapters : Scarce (FuncRet × List Adapter)
  /-- `getDiskInfos` -/
  disks : Scarce (FuncRet × List Disk)
  /-- a fresh `ExecutionEnvironment` -/
  env : Scarce Env
  /-- what the answers of `ExecutionEnvironment` depend on besides -/
  host : Host
  /-- `LOG_WARN`, `LOG_ERROR` -/
  log : Scarce Unit

/-! ## Finding and reading licences -/

/-- `split_string`, src/library/base/string_utils.cpp:75-83: `getline` swallows a refusal and the loop ends. -/
def split (s : Bytes) : Scarce (List Bytes) := do
  need
  streamed (splitString s 59)

/-- `ifstream f(path); f.good()`. -/
def probe (w : World) (path : Bytes) : Scarce Bool := do
  let opened ← opening
  return opened && w.probe path

/-- `filter_existing_files`, src/library/base/file_utils.cpp:20-35. -/
def filterExistingFiles (w : World) (extra : Bytes) : Registry → List Bytes → Scarce (Registry × List Bytes)
  | r, [] => pure (r, [])
  | r, p :: ps => do
    let r ← step (r.addEvent .specified (some p) (some extra))
    if ← probe w p then do
      let r ← step (r.addEvent .found (some p) (some extra))
      let (r, fs) ← filterExistingFiles w extra r ps
      return (r, p :: fs)
    else do
      let r ← step (r.addEvent .fileNotFound (some p) (some extra))
      filterExistingFiles w extra r ps

/-- `get_file_contents`, src/library/base/file_utils.cpp:37-51. -/
def getFileContents (w : World) (path : Bytes) (max : Nat) : Scarce Bytes := do
  if ← opening then step (Licensecc.getFileContents w path max)
  else plain (.throw .runtimeError)

/-- `license_locations`, src/library/locate/ApplicationFolder.cpp:30-49, EnvironmentVarLocation.cpp:22-38, EnvironmentVarData.cpp:30-46,
    ExternalDefinition.cpp:31-52. -/
def licenseLocations (h : Hooks) (l : Locator) (r : Registry) : Scarce (Registry × List Bytes × Bool) :=
  match l with
  | .applicationFolder =>
    match h.world.moduleName with
    | none => do
      h.log
      return (r, [], false)
    | some m => do
      need
      let f := removeExtension m ++ licenseExt
      if ← probe h.world f then do
        let r ← step (r.addEvent .found (some f))
        return (r, [f], false)
      else do
        let r ← step (r.addEvent .fileNotFound (some f))
        return (r, [], false)
  | .environmentVarLocation => do
    need
    match h.world.getenv locationVar with
    | some (c :: v) => do
      let declared ← split (c :: v)
      let (r, fs) ← filterExistingFiles h.world locationVar r declared
      return (r, fs, false)
    | _ => do
      let r ← step (r.addEvent .envVarNotDefined none)
      return (r, [], false)
  | .environmentVarData => step (Licensecc.licenseLocations h.world .environmentVarData r)
  | .externalDefinition loc =>
    match loc.data with
    | [] => plain .ub
    | c :: _ =>
      if c = 0 then pure (r, [], false)
      else do
        let r ← step (r.addEvent .specified (some externalName))
        if loc.kind = 0 then do
          let d ← step (boundedString loc.data maxLicenseData)
          let declared ← split d
          let (r, fs) ← filterExistingFiles h.world externalName r declared
          return (r, fs, false)
        else if loc.kind = 1 ∨ loc.kind = 2 then step (.ok (r, [externalName], false))
        else step (.throw .logicError)

/-- `retrieve_license_content`, src/library/locate/LocatorStrategy.cpp:17-19, EnvironmentVarData.cpp:48-56,
    ExternalDefinition.cpp:54-69. -/
def retrieveContent (w : World) (l : Locator) (isBase64 : Bool) (location : Bytes) : Scarce Bytes :=
  match l with
  | .applicationFolder => getFileContents w location maxLicenseData
  | .environmentVarLocation => getFileContents w location maxLicenseData
  | .environmentVarData => step (Licensecc.retrieveContent w .environmentVarData isBase64 location)
  | .externalDefinition loc =>
    if location = externalName then step (Licensecc.retrieveContent w (.externalDefinition loc) isBase64 location)
    else getFileContents w location maxLicenseData

/-- Loop over the locations of one locator, src/library/LicenseReader.cpp:63-101.  `LoadData` throws where memory is refused
    (src/library/ini/SimpleIni.h:1411 is a plain `new`), so nothing of line 69 is seen. -/
def readLocations (w : World) (feature : Bytes) (l : Locator) (isBase64 : Bool) :
    Registry → List Bytes → Scarce (Registry × List FullLicense)
  | r, [] => pure (r, [])
  | r, src :: rest => do
    let content ← retrieveContent w l isBase64 src
    let (r, lic) ← step (readOne feature r src content)
    let (r, lics) ← readLocations w feature l isBase64 r rest
    return (r, lic.toList ++ lics)

/-- Loop over the locators, src/library/LicenseReader.cpp:57-102. -/
def readLocators (h : Hooks) (feature : Bytes) : Registry → List Locator → Scarce (Registry × List FullLicense)
  | r, [] => pure (r, [])
  | r, l :: ls => do
    let (r, locations, isBase64) ← licenseLocations h l r
    let (r, lics) ← readLocations h.world feature l isBase64 r locations
    let (r, lics') ← readLocators h feature r ls
    return (r, lics ++ lics')

/-- `LicenseReader::readLicenses`, src/library/LicenseReader.cpp:44-107. -/
def readLicenses (cfg : Config) (h : Hooks) (hint : Option LicenseLocation) (feature : Bytes) : Scarce (Registry × List FullLicense) := do
  need
  if (activeStrategies cfg hint).isEmpty then do
    let r ← step ((Registry.empty h.world.platform).addEvent .fileNotFound none)
    let (r, _) ← plain r.turnWarningsIntoErrors
    return (r, [])
  else do
    let (r, lics) ← readLocators h feature (Registry.empty h.world.platform) (activeStrategies cfg hint)
    if lics.isEmpty then do
      let (r, _) ← plain r.turnWarningsIntoErrors
      return (r, lics)
    else return (r, lics)

/-! ## The hardware identification -/

/-- `generate_ethernet_pc_id`, src/library/hw_identifier/ethernet.cpp:22-59. -/
def generateEthernetIds (h : Hooks) (useIp : Bool) : Scarce (FuncRet × List Payload) := do
  let (r, as) ← h.adapters
  if r ≠ .ok then return (r, [])
  else if as.length = 0 then return (.notAvail, [])
  else step (.ok (r, as.filterMap (adapterPayload useIp)))

/-- `generate_disk_pc_id`, src/library/hw_identifier/disk_strategy.cpp:30-57. -/
def generateDiskIds (h : Hooks) : Scarce (FuncRet × List Payload) := do
  let (r, ds) ← h.disks
  if r ≠ .ok then return (r, [])
  else if ds.length = 0 then return (.notAvail, [])
  else
    let ids := (ds.filter (·.preferred)).flatMap diskPayloads ++ (ds.filter (!·.preferred)).flatMap diskPayloads
    step (.ok (if ids.length > 0 then .ok else .notAvail, ids))

/-- The identifiers from the payloads, src/library/hw_identifier/ethernet.cpp:72-81, disk_strategy.cpp:68-77. -/
def makeIds (s : Strategy) (x : FuncRet × List Payload) : Scarce (List HwId) :=
  if x.1 = .ok then step (x.2.mapM (mkId s.code)) else pure []

/-- `alternative_ids`, src/library/hw_identifier/ethernet.cpp:69-83, disk_strategy.cpp:65-79. -/
def alternativeIds (h : Hooks) (s : Strategy) : Scarce (List HwId) :=
  match s with
  | .ethernet => do makeIds s (← generateEthernetIds h false)
  | .ip => do makeIds s (← generateEthernetIds h true)
  | .disk => do makeIds s (← generateDiskIds h)
  | .default => return []

/-- `validate_identifier`, src/library/hw_identifier/identification_strategy.cpp:10-23, default_strategy.cpp:74-77. -/
def validateIdentifier (h : Hooks) (s : Strategy) (id : HwId) : Scarce EventType :=
  if s = .default then return .identifiersMismatch
  else if id.strategy = s.code then do
    let ids ← alternativeIds h s
    return if ids.any (fun x => x.eq id) then .licenseOk else .identifiersMismatch
  else return .identifiersMismatch

/-- `HwIdentifierFacade::validate_pc_signature`, src/library/hw_identifier/hw_identifier_facade.cpp:23-35. -/
def validatePcSignature (h : Hooks) (code : Bytes) : Scarce EventType :=
  catchLogic
    (do
      let id ← step (HwId.ofString code)
      let s ← step (getStrategy id.strategy)
      validateIdentifier h s id)
    (do
      h.log
      return .identifiersMismatch)

/-! ## Judging licences -/

/-- Check of client-signature, src/library/limits/license_verifier.cpp:58-63. -/
def checkClient (h : Hooks) (lic : FullLicense) (r : Registry) : Scarce (Registry × Bool) :=
  match SMap.find? kClient lic.limits with
  | none => pure (r, true)
  | some s => do
    let ev ← validatePcSignature h s
    let r ← step (r.addEvent ev (some lic.source))
    return (r, ev = .licenseOk)

/-- `LicenseVerifier::verify_limits`, src/library/limits/license_verifier.cpp:37-65. -/
def verifyLimits (cfg : Config) (h : Hooks) (lic : FullLicense) (r : Registry) (k : Nat) : Scarce (Registry × Nat × Bool) :=
  if lic.magic = cfg.magic then do
    let (r, v) ← step (checkExpiry h.world (h.world.clock k) lic r)
    if v then do
      let (r, v) ← step (checkBegin h.world (h.world.clock k) lic r)
      if v then do
        let (r, v) ← checkClient h lic r
        return (r, k + 1, v)
      else return (r, k + 1, false)
    else return (r, k + 1, false)
  else do
    let r ← step (r.addEvent .corrupted (some lic.source))
    return (r, k + 1, false)

/-- `FullLicenseInfo::printForSign`, src/library/LicenseReader.cpp:111-124: `ostringstream` swallows a refusal and ignores what is
    written afterwards; how much fits before is left open. -/
def printForSign (lic : FullLicense) : Scarce Bytes := do
  need
  streamed lic.printForSign

/-- `LicenseVerifier::verify_signature`, src/library/limits/license_verifier.cpp:23-34. -/
def verifySignature (h : Hooks) (lic : FullLicense) (r : Registry) : Scarce (Registry × Bool) := do
  let data ← printForSign lic
  let good ← h.verify data lic.signature
  let r ← step (r.addEvent (if good then .signatureVerified else .corrupted) (some lic.source))
  return (r, good)

/-- Loop over the licences, src/library/licensecc.cpp:92-108. -/
def judgeLoop (cfg : Config) (h : Hooks) (caller : Option Caller) :
    Registry → Nat → List FullLicense → Scarce (Registry × Nat × List LicInfo × List LicInfo)
  | r, k, [] => pure (r, k, [], [])
  | r, k, l :: ls => do
    let lic := withMagic caller l
    let (r, good) ← verifySignature h lic r
    let (info, k) ← step (toLicenseInfo h.world lic k)
    if good then do
      let (r, k, v) ← verifyLimits cfg h lic r k
      need
      let (r, k, oks, errs) ← judgeLoop cfg h caller r k ls
      return (r, k, (if v then info :: oks else oks), (if v then errs else info :: errs))
    else do
      need
      let (r, k, oks, errs) ← judgeLoop cfg h caller r k ls
      return (r, k, oks, info :: errs)

/-- `acquire_license` after the licences have been read, src/library/licensecc.cpp:86-134: of what is called after the loop nothing asks
    for memory. -/
def judge (cfg : Config) (h : Hooks) (caller : Option Caller) (out : Option LicInfo) (r : Registry) (lics : List FullLicense) :
    Scarce AcquireResult :=
  match lics with
  | [] => plain (Licensecc.judge cfg h.world caller out r [])
  | l :: ls => do
    need
    let (r, k, oks, errs) ← judgeLoop cfg h caller r 0 (l :: ls)
    match oks with
    | _ :: _ => plain (finish h.world .licenseOk r.turnErrorsIntoWarnings.1 k (out.map (mergeLicenses oks)))
    | [] => do
      let (r, _) ← plain r.turnWarningsIntoErrors
      let t ← plain (lastFailureType r)
      plain (finish h.world t r k (out.map (mergeLicenses errs)))

/-- `acquire_license`, src/library/licensecc.cpp:74-135. -/
def acquire (cfg : Config) (h : Hooks) (caller : Option Caller) (hint : Option LicenseLocation) (out : Option LicInfo) :
    Scarce AcquireResult := do
  let feature ← step (featureOf cfg caller)
  let (r, lics) ← readLicenses cfg h hint feature
  judge cfg h caller out r lics

/-! ## identify_pc -/

/-- `IdentificationStrategy::generate_pc_id`, src/library/hw_identifier/identification_strategy.cpp:25-33. -/
def generateFirst (h : Hooks) (s : Strategy) : Scarce (Option HwId) := do
  let ids ← alternativeIds h s
  return ids.head?

/-- The loop of `DefaultStrategy::generate_pc_id`, src/library/hw_identifier/default_strategy.cpp:44-56. -/
def tryStrategies (h : Hooks) : List Int → Scarce (Option HwId)
  | [] => pure none
  | n :: ns => do
    let s ← step (getStrategy n)
    match ← generateFirst h s with
    | some id => return some id
    | none => tryStrategies h ns

/-- What `available_strategies` asks, src/library/hw_identifier/default_strategy.cpp:16-36. -/
def exec (h : Hooks) : Scarce ExecSummary := do
  let e ← h.env
  step (.ok ⟨virtualization h.host e, e.container = .docker, isCloud e⟩)

/-- virtual `generate_pc_id`. -/
def generatePcId (h : Hooks) (s : Strategy) : Scarce (Option HwId) :=
  if s = .default then do tryStrategies h (availableStrategies (← exec h)) else generateFirst h s

/-- The warning, src/library/hw_identifier/hw_identifier_facade.cpp:45. -/
def warnUnknown (h : Hooks) (strategy : Int) : Scarce Unit :=
  if strategyUnknown h.world.machine.strategyVar strategy then h.log else pure ()

/-- `HwIdentifierFacade::generate_user_pc_signature`, src/library/hw_identifier/hw_identifier_facade.cpp:37-61. -/
def generateUserPcSignature (h : Hooks) (strategy : Int) : Scarce Bytes := do
  let _ ← warnUnknown h strategy
  let s ← step (getStrategy (selectStrategy h.world.machine.strategyVar strategy).1)
  match ← generatePcId h s with
  | none => step (.throw .logicError)
  | some id => step ((id.setUseEnvVar (selectStrategy h.world.machine.strategyVar strategy).2).print)

/-- The identifier part of `identify_pc`, src/library/licensecc.cpp:34-48. -/
def identifyPc (h : Hooks) (strategy : Int) (buf : Option Bytes) (bufSize : Nat) : Scarce IdentifyResult :=
  match buf with
  | some mem =>
    if bufSize > 19 then
      catchAll
        (do
          let id ← generateUserPcSignature h strategy
          let (mem', _) ← plain (mstrlcpy mem (id ++ [0]) bufSize)
          return ⟨true, bufSize, some mem'⟩)
        (do
          h.log
          return ⟨false, bufSize, some mem⟩)
    else return ⟨false, 20, some mem⟩
  | none => return ⟨false, 20, none⟩

/-- `identify_pc`, src/library/licensecc.cpp:32-56 (see `identifyPcEnv`).  A constructor of the static object that throws leaves it to be
    constructed by the next call. -/
def identify (h : Hooks) (cache : Option Env) (strategy : Int) (buf : Option Bytes) (bufSize : Nat) (info : Bool) :
    Scarce (IdentifyResult × Option EnvInfo × Option Env) := do
  let r ← identifyPc h strategy buf bufSize
  let e ← match cache with
    | some e => pure e
    | none => h.env
  if info then step (.ok (r, some ⟨cloudProvider e, virtualization h.host e, virtualizationDetail h.host e⟩, some e))
  else return (r, none, some e)

/-! ## Linux -/

/-- `_log`, src/library/base/logger.cpp:46-64: refused the `FILE` it returns (line 53), refused the buffer it writes to a null pointer
    (lines 57-58).  Simplification: a log file opened during the call is opened again by the next message. -/
def log (l : Linux) : Scarce Unit := do
  if l.logOverruns then plain .ub
  else if l.log.logFile.isNone then do
    if ← request then do
      if ← request then pure () else plain .ub
    else pure ()
  else if ← request then pure () else plain .ub

/-- `LOG_ERROR(...)` followed by `return FUNC_RET_ERROR`. -/
def fail (log : Scarce Unit) : Scarce Bool := do
  log
  return false

/-- Reading the signature, src/library/os/openssl/signature_verifier.cpp:68-75.  Without the base64 filter (`BIO_push` returns its second
    argument) the bytes are taken as they are; without the memory BIO nothing is read; without both line 72 uses a null pointer. -/
def readSignature (o : OpenSsl) (signature : Bytes) : Scarce Bytes := do
  let filter ← request
  let buffer ← request
  let read := match filter, buffer with
    | true, true => o.bioRead signature
    | false, true => some signature
    | true, false => some []
    | false, false => none
  match read with
  | none => plain .ub
  | some d => if signatureBuffer ≤ d.length then plain .ub else return d

/-- `verify_signature`, src/library/os/openssl/signature_verifier.cpp:44-106.  Without the structure for the key
    `EVP_DigestVerifyInit` fails. -/
def verify (log : Scarce Unit) (o : OpenSsl) (data signature : Bytes) : Scarce Bool := do
  if (← request) && o.keyParses then do
    let pkey ← request
    let d ← readSignature o signature
    if (← request) && o.contextCreated then do
      if (← request) && pkey && o.digestInit then do
        if (← request) && o.digestUpdate data = 1 then do
          if (← request) && o.digestFinal data d = 1 then return true
          else fail log
        else fail log
      else fail log
    else fail log
  else fail log

/-- `getAdapterInfos`, src/library/os/linux/network.cpp:46-115. -/
def getAdapterInfos (log : Scarce Unit) (h : NetHost) : Scarce (FuncRet × List Adapter) := do
  if (← request) && h.ifaddrs.isSome then step (.ok (Licensecc.getAdapterInfos h))
  else do
    log
    return (.error, [])

/-- `parseUUID`, src/library/os/linux/os_linux.cpp:43-72: the result of `malloc` is not looked at. -/
def parseUuid (uuid : Bytes) : Scarce DiskSn := do
  if ← request then plain (Licensecc.parseUuid uuid) else plain .ub

/-- One entry in the loop of `getDiskInfos_dev`, src/library/os/linux/os_linux.cpp:203-243. -/
def addUuidEntry (e : UuidEntry) (ds : List Disk) (m : UuidMap) : Scarce (List Disk × UuidMap) :=
  if skippedName e.name then pure (ds, m)
  else do
    need
    match e.inode, e.link with
    | some ino, some link => do
      let sn ← parseUuid e.name
      let d : Disk := ⟨ino, (baseName link).take 1023, sn, true, [], false, false⟩
      step (.ok (if ds.any (fun x => x.id = ino) then ds else ds ++ [d], m.insert e.name ino))
    | _, _ => return (ds, m)

/-- The loop of `getDiskInfos_dev`, src/library/os/linux/os_linux.cpp:202-244. -/
def uuidLoop : List UuidEntry → List Disk → UuidMap → Scarce (List Disk × UuidMap)
  | [], ds, m => pure (ds, m)
  | e :: es, ds, m =>
    if ds.length < 40 then do
      let (ds, m) ← addUuidEntry e ds m
      uuidLoop es ds m
    else pure (ds, m)

/-- `opendir`, `setmntent`: nothing if it is not there or memory is refused. -/
def openDir {β : Type} (d : Option β) : Scarce (Option β) := do
  return if ← request then d else none

/-- `read_disk_labels`, src/library/os/linux/os_linux.cpp:153-188. -/
def readDiskLabels (h : DiskHost) (ds : List Disk) : Scarce (List Disk) := do
  match ← openDir h.byLabel with
  | some es => step (.ok (labelLoop es ds))
  | none =>
    match ← openDir h.byPartLabel with
    | some es => step (.ok (labelLoop es ds))
    | none => return ds

/-- `getDiskInfos_dev`, src/library/os/linux/os_linux.cpp:190-251. -/
def getDiskInfosDev (h : DiskHost) : Scarce (FuncRet × List Disk × UuidMap) := do
  let (ds, m) ← match ← openDir h.byUuid with
    | some es => uuidLoop es [] []
    | none => pure ([], [])
  let labelled ← readDiskLabels h ds
  return (if ds.length > 0 then FuncRet.ok else .notAvail, labelled, m)

/-- One iteration of the loop of `parse_blkid`, src/library/os/linux/os_linux.cpp:107-123. -/
def blkidDevice (cur : Bytes) (n : Nat) : Scarce (Disk × Bytes) := do
  let device := ((afterLastGt cur).takeWhile (· ≠ 0)).take 1023
  let label ← step (getAttribute cur b!"PARTLABEL")
  let uuid ← step (getAttribute cur b!"UUID")
  let sn ← parseUuid (uuid.takeWhile (· ≠ 0))
  let type ← step (getAttribute cur b!"TYPE")
  return (⟨n, device, sn, true, (label.takeWhile (· ≠ 0)).take 254, true, type = b!"swap"⟩, uuid)

/-- The loop of `parse_blkid`, src/library/os/linux/os_linux.cpp:105-124. -/
def blkidLoop (win : Bytes) (pos : Nat) (n : Nat) (ds : List Disk) (m : UuidMap) : Bytes → Scarce (List Disk × UuidMap)
  | [] => pure (ds, m)
  | c :: s =>
    if (b!"</device>").isPrefixOf (c :: s) then do
      let (d, uuid) ← blkidDevice (win.take pos) n
      need
      blkidLoop s (pos + 1) (n + 1) (ds ++ [d]) (m.insert uuid n) s
    else blkidLoop win (pos + 1) n ds m s

/-- `parse_blkid`, src/library/os/linux/os_linux.cpp:101-126. -/
def parseBlkid (content : Bytes) (ds : List Disk) (m : UuidMap) : Scarce (FuncRet × List Disk × UuidMap) := do
  let (ds, m) ← blkidLoop content 0 0 ds m content
  return (.ok, ds, m)

/-- `std::ifstream t(location); if (t.is_open()) buffer << t.rdbuf();`, src/library/os/linux/os_linux.cpp:136-141: the text that comes
    through; `stringstream` swallows a refusal. -/
def slurp (file : Option Bytes) : Scarce (Option Bytes) := do
  if ← opening then
    match file with
    | some c => do return some (← streamed c)
    | none => return none
  else return none

/-- `getDiskInfos_blkid`, src/library/os/linux/os_linux.cpp:130-149. -/
def getDiskInfosBlkid (h : DiskHost) (ds : List Disk) (m : UuidMap) : Scarce (FuncRet × List Disk × UuidMap) := do
  need
  match ← slurp h.blkidRun with
  | some c => parseBlkid c ds m
  | none =>
    match ← slurp h.blkidEtc with
    | some c => parseBlkid c ds m
    | none => return (.notAvail, ds, m)

/-- `set_preferred_disks`, src/library/os/linux/os_linux.cpp:259-313; `getmntent` needs memory when it is first called. -/
def setPreferredDisks (h : DiskHost) (ds : List Disk) (m : UuidMap) : Scarce (List Disk) := do
  match ← openDir h.fstab with
  | none => return ds
  | some es =>
    if ← request then step (markEntries m es ds) else return ds

/-- `getDiskInfos`, src/library/os/linux/os_linux.cpp:322-334. -/
def getDiskInfos (h : DiskHost) : Scarce (FuncRet × List Disk) := do
  let (r, ds, m) ← getDiskInfosDev h
  let (r, ds, m) ← if r ≠ .ok then getDiskInfosBlkid h ds m else pure (r, ds, m)
  if r = .ok then do
    let ds ← setPreferredDisks h ds m
    return (r, ds)
  else return (r, ds)

/-- `checkContainerProc`, src/library/os/linux/execution_environment.cpp:29-59: `getline` fails where memory is refused. -/
def checkContainerProc (h : Host) : Scarce Container := do
  match ← openDir h.cgroup with
  | none => return .none
  | some s => return procLines (← streamed (splitString s 10))

/-- `checkSystemdContainer`, src/library/os/linux/execution_environment.cpp:62-78: `getline` swallows a refusal. -/
def checkSystemdContainer (h : Host) : Scarce Container := do
  if ← opening then
    match h.systemdContainer with
    | none => return .none
    | some s => return systemdLines (← streamed (splitString s 10))
  else return .none

/-- `get_container_type`, src/library/os/linux/execution_environment.cpp:80-86. -/
def containerType (h : Host) : Scarce Container := do
  let r ← checkContainerProc h
  if r = .none then checkSystemdContainer h else return r

/-- One of the three texts of `DmiInfo::DmiInfo`, src/library/os/linux/dmi_info.cpp:10-37: empty where memory is refused. -/
def dmiText (x : Outcome Bytes) : Scarce Bytes :=
  catchAll
    (do
      if ← opening then step x else return [])
    (return [])

/-- `DmiInfo::DmiInfo`, src/library/os/linux/dmi_info.cpp:10-37. -/
def dmiInfo (h : Host) : Scarce Dmi := do
  let vendor ← dmiText (.ok (dmiBiosVendor h))
  let description ← dmiText (dmiDescription h)
  let sys ← dmiText (dmiSysVendor h)
  return ⟨vendor, description, sys⟩

/-- The constructor of `ExecutionEnvironment` on Linux, src/library/os/linux/execution_environment.cpp:88. -/
def mkEnv (h : Host) : Scarce Env := do
  need
  let d ← dmiInfo h
  let c ← containerType h
  return ⟨d, h.cpuVendor, h.cpuBrand, c⟩

/-- The library on Linux. -/
def linuxHooks (l : Linux) : Hooks where
  world := l.world
  verify := verify (log l) l.ssl
  adapters := getAdapterInfos (log l) l.net
  disks := getDiskInfos l.disks
  env := mkEnv l.host
  host := l.host
  log := log l

end Licensecc.Scarce
