import Verif.Model.Linux
import Verif.Model.Windows
/-!
# What a call takes from the system and gives back

Files, directories, blocks of memory, handles of the crypto libraries: the functions on the way from the API to the places where the
library takes such a thing are modelled a second time, with what they take and give back; that they compute the same is a theorem
(Props/Resources).  Standard containers, strings and smart pointers are left out (they give back by construction), streams are not:
`during` is an object with a destructor, `take` and `give` are calls written out in the code.  Simplifications: builds with `NDEBUG` (no
`LOG_DEBUG`); `malloc`, `EVP_PKEY_new`, `BIO_new` and the operators `new` succeed.
-/
namespace Licensecc.Resources
open Licensecc

/-- The kinds of things.  Each has one way to be given back. -/
inductive Kind where
  /-- an open `ifstream`: closed by `close` or its destructor -/
  | stream
  /-- `fopen`, `fclose` -/
  | file
  /-- the file of the log: `fopen`, `fclose` in `_shutdown_log` (which the library never calls) -/
  | logFile
  /-- `opendir`, `closedir` -/
  | dir
  /-- `setmntent`, `endmntent` -/
  | mntent
  /-- `getifaddrs`, `freeifaddrs` -/
  | ifaddrs
  /-- `malloc` or `getline`, `free` -/
  | block
  /-- `BIO_new`, `BIO_new_mem_buf`; `BIO_free`, `BIO_free_all` -/
  | bio
  /-- `d2i_RSAPublicKey_bio`; `RSA_free` or handed over to a key by `EVP_PKEY_assign_RSA` -/
  | rsa
  /-- `EVP_PKEY_new`, `EVP_PKEY_free` -/
  | pkey
  /-- `EVP_MD_CTX_create`, `EVP_MD_CTX_destroy` -/
  | digest
  /-- `HeapAlloc`, `HeapFree` -/
  | heap
  /-- `new[]`, `delete[]` -/
  | array
  /-- `BCryptOpenAlgorithmProvider`, `BCryptCloseAlgorithmProvider` -/
  | provider
  /-- `BCryptCreateHash`, `BCryptDestroyHash` -/
  | hash
  /-- `BCryptImportKeyPair`, `BCryptDestroyKey` -/
  | key
  deriving DecidableEq, Repr

/-- Something is taken or given back.  Things are numbered in the order in which they are taken. -/
inductive Ev where
  | took (h : Nat) (k : Kind)
  | gave (h : Nat) (k : Kind)
  deriving DecidableEq, Repr

/-- What persists: how many things have been taken, the static `logFile` (src/library/base/logger.cpp:17), how often `fopen` was tried
    for it. -/
structure Store where
  next : Nat
  log : Option Nat
  tries : Nat
  deriving DecidableEq, Repr

/-- What happened in a computation. -/
structure Run (α : Type) where
  trace : List Ev
  store : Store
  result : Outcome α

/-- Computations that take and give back. -/
def Uses (α : Type) := Store → Run α

/-- Sequencing. -/
def Uses.bind {α β : Type} (u : Uses α) (f : α → Uses β) : Uses β := fun s =>
  match (u s).result with
  | .ok a => let r := f a (u s).store; ⟨(u s).trace ++ r.trace, r.store, r.result⟩
  | .throw e => ⟨(u s).trace, (u s).store, .throw e⟩
  | .ub => ⟨(u s).trace, (u s).store, .ub⟩

instance : Monad Uses where
  pure a := fun s => ⟨[], s, .ok a⟩
  bind := Uses.bind

/-- A computation that takes nothing. -/
def lift {α : Type} (x : Outcome α) : Uses α := fun s => ⟨[], s, x⟩

/-- A successful call that takes something. -/
def take (k : Kind) : Uses Nat := fun s => ⟨[.took s.next k], { s with next := s.next + 1 }, .ok s.next⟩

/-- Giving back. -/
def give (h : Nat) (k : Kind) : Uses Unit := fun s => ⟨[.gave h k], s, .ok ()⟩

/-- `if (p) give(p)`. -/
def giveIf (h : Option Nat) (k : Kind) : Uses Unit :=
  match h with
  | some h => give h k
  | none => pure ()

/-- A call that takes something if it succeeds. -/
def takeIf (succeeds : Bool) (k : Kind) : Uses (Option Nat) := if succeeds then do return some (← take k) else pure none

/-- An object whose destructor gives back what its constructor took (if it did), also when an exception passes. -/
def during {α : Type} (k : Kind) (opened : Bool) (u : Uses α) : Uses α := fun s =>
  if opened then
    let r := u { s with next := s.next + 1 }
    ⟨.took s.next k :: r.trace ++ (match r.result with
      | .ub => []
      | _ => [.gave s.next k]), r.store, r.result⟩
  else u s

/-- `try { u } catch (...) { handler }` for the exceptions `p`. -/
def catching {α : Type} (p : Exn → Bool) (u : Uses α) (handler : Uses α) : Uses α := fun s =>
  match (u s).result with
  | .throw e =>
    if p e then let r := handler (u s).store; ⟨(u s).trace ++ r.trace, r.store, r.result⟩
    else u s
  | _ => u s

/-- What the logger meets during a call. -/
structure LogEnv where
  /-- path of the log file (`getLogFname`); `none` if the array is overrun -/
  fname : Option Bytes
  /-- does the n-th attempt of `fopen` succeed? -/
  opens : Nat → Bool
  /-- the file is not open at the beginning of the call -/
  closed : Bool

/-- Does logging overrun (`Logger.overruns`)? -/
def LogEnv.overruns (e : LogEnv) : Bool := e.closed && e.fname.isNone

/-- Lines 57-63 of `_log`, src/library/base/logger.cpp. -/
def logLine : Uses Unit := do
  let buffer ← take .block
  give buffer .block

/-- `logFile = fopen(...)`, successful: src/library/base/logger.cpp:52. -/
def openLog : Uses Unit := fun s =>
  ⟨[.took s.next .logFile], { s with next := s.next + 1, log := some s.next, tries := s.tries + 1 }, .ok ()⟩

/-- `fopen` fails: src/library/base/logger.cpp:52. -/
def failLog : Uses Unit := fun s => ⟨[], { s with tries := s.tries + 1 }, .ok ()⟩

/-- `_log`, src/library/base/logger.cpp:46-64. -/
def log (e : LogEnv) : Uses Unit := fun s =>
  match s.log with
  | some _ => logLine s
  | none =>
    match e.fname with
    | none => lift .ub s
    | some _ => if e.opens s.tries then (do openLog; logLine) s else failLog s

/-! ## What the platforms provide -/

/-- The functions behind src/library/os, and what else a call meets. -/
structure Hooks where
  world : World
  /-- `license::os::verify_signature(...) == FUNC_RET_OK` -/
  verify : Bytes → Bytes → Uses Bool
  /-- `getAdapterInfos` -/
  adapters : Uses (FuncRet × List Adapter)
  /-- `getDiskInfos` -/
  disks : Uses (FuncRet × List Disk)
  /-- a fresh `ExecutionEnvironment` -/
  env : Uses Env
  /-- what the answers of `ExecutionEnvironment` depend on besides -/
  host : Host
  /-- `LOG_WARN`, `LOG_ERROR` -/
  log : Uses Unit

/-! ## The hardware identification -/

/-- `generate_ethernet_pc_id`, src/library/hw_identifier/ethernet.cpp:22-59. -/
def generateEthernetIds (h : Hooks) (useIp : Bool) : Uses (FuncRet × List Payload) := do
  let (r, as) ← h.adapters
  if r ≠ .ok then return (r, [])
  else if as.length = 0 then return (.notAvail, [])
  else return (r, as.filterMap (adapterPayload useIp))

/-- `generate_disk_pc_id`, src/library/hw_identifier/disk_strategy.cpp:30-57. -/
def generateDiskIds (h : Hooks) : Uses (FuncRet × List Payload) := do
  let (r, ds) ← h.disks
  if r ≠ .ok then return (r, [])
  else if ds.length = 0 then return (.notAvail, [])
  else
    let ids := (ds.filter (·.preferred)).flatMap diskPayloads ++ (ds.filter (!·.preferred)).flatMap diskPayloads
    return (if ids.length > 0 then .ok else .notAvail, ids)

/-- The identifiers from the payloads, src/library/hw_identifier/ethernet.cpp:72-81, disk_strategy.cpp:68-77. -/
def makeIds (s : Strategy) (x : FuncRet × List Payload) : Outcome (List HwId) :=
  if x.1 = .ok then x.2.mapM (mkId s.code) else .ok []

/-- `alternative_ids`, src/library/hw_identifier/ethernet.cpp:69-83, disk_strategy.cpp:65-79. -/
def alternativeIds (h : Hooks) (s : Strategy) : Uses (List HwId) :=
  match s with
  | .ethernet => do lift (makeIds s (← generateEthernetIds h false))
  | .ip => do lift (makeIds s (← generateEthernetIds h true))
  | .disk => do lift (makeIds s (← generateDiskIds h))
  | .default => return []

/-- `validate_identifier`, src/library/hw_identifier/identification_strategy.cpp:10-23, default_strategy.cpp:74-77. -/
def validateIdentifier (h : Hooks) (s : Strategy) (id : HwId) : Uses EventType :=
  if s = .default then return .identifiersMismatch
  else if id.strategy = s.code then do
    let ids ← alternativeIds h s
    return if ids.any (fun x => x.eq id) then .licenseOk else .identifiersMismatch
  else return .identifiersMismatch

/-- `HwIdentifierFacade::validate_pc_signature`, src/library/hw_identifier/hw_identifier_facade.cpp:23-35. -/
def validatePcSignature (h : Hooks) (code : Bytes) : Uses EventType :=
  catching Exn.isLogicError
    (do
      let id ← lift (HwId.ofString code)
      let s ← lift (getStrategy id.strategy)
      validateIdentifier h s id)
    (do
      h.log
      return .identifiersMismatch)

/-- `IdentificationStrategy::generate_pc_id`, src/library/hw_identifier/identification_strategy.cpp:25-33. -/
def generateFirst (h : Hooks) (s : Strategy) : Uses (Option HwId) := do
  let ids ← alternativeIds h s
  return ids.head?

/-- The loop of `DefaultStrategy::generate_pc_id`, src/library/hw_identifier/default_strategy.cpp:44-56. -/
def tryStrategies (h : Hooks) : List Int → Uses (Option HwId)
  | [] => pure none
  | n :: ns => do
    let s ← lift (getStrategy n)
    match ← generateFirst h s with
    | some id => return some id
    | none => tryStrategies h ns

/-- What `available_strategies` asks, src/library/hw_identifier/default_strategy.cpp:16-36. -/
def exec (h : Hooks) : Uses ExecSummary := do
  let e ← h.env
  return ⟨virtualization h.host e, e.container = .docker, isCloud e⟩

/-- virtual `generate_pc_id`. -/
def generatePcId (h : Hooks) (s : Strategy) : Uses (Option HwId) :=
  if s = .default then do tryStrategies h (availableStrategies (← exec h)) else generateFirst h s

/-- The warning, src/library/hw_identifier/hw_identifier_facade.cpp:45. -/
def warnUnknown (h : Hooks) (strategy : Int) : Uses Unit :=
  if strategyUnknown h.world.machine.strategyVar strategy then h.log else pure ()

/-- `HwIdentifierFacade::generate_user_pc_signature`, src/library/hw_identifier/hw_identifier_facade.cpp:37-61. -/
def generateUserPcSignature (h : Hooks) (strategy : Int) : Uses Bytes := do
  let _ ← warnUnknown h strategy
  let s ← lift (getStrategy (selectStrategy h.world.machine.strategyVar strategy).1)
  match ← generatePcId h s with
  | none => lift (.throw .logicError)
  | some id => lift ((id.setUseEnvVar (selectStrategy h.world.machine.strategyVar strategy).2).print)

/-- The identifier part of `identify_pc`, src/library/licensecc.cpp:34-48. -/
def identifyPc (h : Hooks) (strategy : Int) (buf : Option Bytes) (bufSize : Nat) : Uses IdentifyResult :=
  match buf with
  | some mem =>
    if bufSize > 19 then
      catching (fun _ => true)
        (do
          let id ← generateUserPcSignature h strategy
          let (mem', _) ← lift (mstrlcpy mem (id ++ [0]) bufSize)
          return ⟨true, bufSize, some mem'⟩)
        (do
          h.log
          return ⟨false, bufSize, some mem⟩)
    else return ⟨false, 20, some mem⟩
  | none => return ⟨false, 20, none⟩

/-- `identify_pc`, src/library/licensecc.cpp:32-56 (see `identifyPcEnv`). -/
def identify (h : Hooks) (cache : Option Env) (strategy : Int) (buf : Option Bytes) (bufSize : Nat) (info : Bool) :
    Uses (IdentifyResult × Option EnvInfo × Option Env) := do
  let r ← identifyPc h strategy buf bufSize
  let e ← match cache with
    | some e => pure e
    | none => h.env
  return (r, if info then some ⟨cloudProvider e, virtualization h.host e, virtualizationDetail h.host e⟩ else none, some e)

/-! ## Finding, reading and judging licences -/

/-- `filter_existing_files`, src/library/base/file_utils.cpp:20-35: the stream of line 25 lives until the end of the iteration. -/
def filterExistingFiles (w : World) (extra : Bytes) : Registry → List Bytes → Uses (Registry × List Bytes)
  | r, [] => pure (r, [])
  | r, p :: ps => do
    let r ← lift (r.addEvent .specified (some p) (some extra))
    if w.probe p then do
      let r ← during .stream true (lift (r.addEvent .found (some p) (some extra)))
      let (r, fs) ← filterExistingFiles w extra r ps
      return (r, p :: fs)
    else do
      let r ← during .stream false (lift (r.addEvent .fileNotFound (some p) (some extra)))
      filterExistingFiles w extra r ps

/-- `get_file_contents`, src/library/base/file_utils.cpp:37-51. -/
def getFileContents (w : World) (path : Bytes) (max : Nat) : Uses Bytes :=
  during .stream (w.read path).isSome (lift (Licensecc.getFileContents w path max))

/-- `license_locations`, src/library/locate/ApplicationFolder.cpp:30-49, EnvironmentVarLocation.cpp:22-38, EnvironmentVarData.cpp:30-46,
    ExternalDefinition.cpp:31-52. -/
def licenseLocations (h : Hooks) (l : Locator) (r : Registry) : Uses (Registry × List Bytes × Bool) :=
  match l with
  | .applicationFolder =>
    match h.world.moduleName with
    | none => do
      h.log
      return (r, [], false)
    | some m =>
      let f := removeExtension m ++ licenseExt
      if h.world.probe f then during .stream true (do
        let r ← lift (r.addEvent .found (some f))
        return (r, [f], false))
      else during .stream false (do
        let r ← lift (r.addEvent .fileNotFound (some f))
        return (r, [], false))
  | .environmentVarLocation =>
    match h.world.getenv locationVar with
    | some (c :: v) => do
      let (r, fs) ← filterExistingFiles h.world locationVar r (splitString (c :: v) 59)
      return (r, fs, false)
    | _ => do
      let r ← lift (r.addEvent .envVarNotDefined none)
      return (r, [], false)
  | .environmentVarData => lift (Licensecc.licenseLocations h.world .environmentVarData r)
  | .externalDefinition loc =>
    match loc.data with
    | [] => lift .ub
    | c :: _ =>
      if c = 0 then return (r, [], false)
      else do
        let r ← lift (r.addEvent .specified (some externalName))
        if loc.kind = 0 then do
          let d ← lift (boundedString loc.data maxLicenseData)
          let (r, fs) ← filterExistingFiles h.world externalName r (splitString d 59)
          return (r, fs, false)
        else if loc.kind = 1 ∨ loc.kind = 2 then return (r, [externalName], false)
        else lift (.throw .logicError)

/-- `retrieve_license_content`, src/library/locate/LocatorStrategy.cpp:17-19, EnvironmentVarData.cpp:48-56,
    ExternalDefinition.cpp:54-69. -/
def retrieveContent (w : World) (l : Locator) (isBase64 : Bool) (location : Bytes) : Uses Bytes :=
  match l with
  | .applicationFolder => getFileContents w location maxLicenseData
  | .environmentVarLocation => getFileContents w location maxLicenseData
  | .environmentVarData => lift (Licensecc.retrieveContent w .environmentVarData isBase64 location)
  | .externalDefinition loc =>
    if location = externalName then lift (Licensecc.retrieveContent w (.externalDefinition loc) isBase64 location)
    else getFileContents w location maxLicenseData

/-- Loop over the locations of one locator, src/library/LicenseReader.cpp:63-101. -/
def readLocations (w : World) (feature : Bytes) (l : Locator) (isBase64 : Bool) :
    Registry → List Bytes → Uses (Registry × List FullLicense)
  | r, [] => pure (r, [])
  | r, src :: rest => do
    let content ← retrieveContent w l isBase64 src
    let (r, lic) ← lift (readOne feature r src content)
    let (r, lics) ← readLocations w feature l isBase64 r rest
    return (r, lic.toList ++ lics)

/-- Loop over the locators, src/library/LicenseReader.cpp:57-102. -/
def readLocators (h : Hooks) (feature : Bytes) : Registry → List Locator → Uses (Registry × List FullLicense)
  | r, [] => pure (r, [])
  | r, l :: ls => do
    let (r, locations, isBase64) ← licenseLocations h l r
    let (r, lics) ← readLocations h.world feature l isBase64 r locations
    let (r, lics') ← readLocators h feature r ls
    return (r, lics ++ lics')

/-- What `readLicenses` does after the loop, src/library/LicenseReader.cpp:103-106. -/
def afterReading (x : Registry × List FullLicense) : Outcome (Registry × List FullLicense) :=
  if x.2.isEmpty then do
    let (r, _) ← x.1.turnWarningsIntoErrors
    return (r, x.2)
  else return x

/-- `LicenseReader::readLicenses`, src/library/LicenseReader.cpp:44-107. -/
def readLicenses (cfg : Config) (h : Hooks) (hint : Option LicenseLocation) (feature : Bytes) : Uses (Registry × List FullLicense) :=
  if (activeStrategies cfg hint).isEmpty then lift (Licensecc.readLicenses cfg h.world hint feature)
  else do lift (afterReading (← readLocators h feature (Registry.empty h.world.platform) (activeStrategies cfg hint)))

/-- Check of client-signature, src/library/limits/license_verifier.cpp:58-63. -/
def checkClient (h : Hooks) (lic : FullLicense) (r : Registry) : Uses (Registry × Bool) :=
  match SMap.find? kClient lic.limits with
  | none => pure (r, true)
  | some s => do
    let ev ← validatePcSignature h s
    let r ← lift (r.addEvent ev (some lic.source))
    return (r, ev = .licenseOk)

/-- `LicenseVerifier::verify_limits`, src/library/limits/license_verifier.cpp:37-65. -/
def verifyLimits (cfg : Config) (h : Hooks) (lic : FullLicense) (r : Registry) (k : Nat) : Uses (Registry × Nat × Bool) :=
  if lic.magic = cfg.magic then do
    let (r, v) ← lift (checkExpiry h.world (h.world.clock k) lic r)
    if v then do
      let (r, v) ← lift (checkBegin h.world (h.world.clock k) lic r)
      if v then do
        let (r, v) ← checkClient h lic r
        return (r, k + 1, v)
      else return (r, k + 1, false)
    else return (r, k + 1, false)
  else do
    let r ← lift (r.addEvent .corrupted (some lic.source))
    return (r, k + 1, false)

/-- `LicenseVerifier::verify_signature`, src/library/limits/license_verifier.cpp:23-34. -/
def verifySignature (h : Hooks) (lic : FullLicense) (r : Registry) : Uses (Registry × Bool) := do
  let good ← h.verify lic.printForSign lic.signature
  let r ← lift (r.addEvent (if good then .signatureVerified else .corrupted) (some lic.source))
  return (r, good)

/-- Loop over the licences, src/library/licensecc.cpp:92-108. -/
def judgeLoop (cfg : Config) (h : Hooks) (caller : Option Caller) :
    Registry → Nat → List FullLicense → Uses (Registry × Nat × List LicInfo × List LicInfo)
  | r, k, [] => pure (r, k, [], [])
  | r, k, l :: ls => do
    let lic := withMagic caller l
    let (r, good) ← verifySignature h lic r
    let (info, k) ← lift (toLicenseInfo h.world lic k)
    if good then do
      let (r, k, v) ← verifyLimits cfg h lic r k
      let (r, k, oks, errs) ← judgeLoop cfg h caller r k ls
      return (r, k, (if v then info :: oks else oks), (if v then errs else info :: errs))
    else do
      let (r, k, oks, errs) ← judgeLoop cfg h caller r k ls
      return (r, k, oks, info :: errs)

/-- What `acquire_license` does after the loop, src/library/licensecc.cpp:109-134. -/
def afterJudging (w : World) (out : Option LicInfo) (x : Registry × Nat × List LicInfo × List LicInfo) : Outcome AcquireResult :=
  match x.2.2.1 with
  | _ :: _ => finish w .licenseOk x.1.turnErrorsIntoWarnings.1 x.2.1 (out.map (mergeLicenses x.2.2.1))
  | [] => do
    let (r, _) ← x.1.turnWarningsIntoErrors
    let t ← lastFailureType r
    finish w t r x.2.1 (out.map (mergeLicenses x.2.2.2))

/-- `acquire_license` after the licences have been read, src/library/licensecc.cpp:86-134. -/
def judge (cfg : Config) (h : Hooks) (caller : Option Caller) (out : Option LicInfo) (r : Registry) (lics : List FullLicense) :
    Uses AcquireResult :=
  match lics with
  | [] => lift (Licensecc.judge cfg h.world caller out r [])
  | l :: ls => do lift (afterJudging h.world out (← judgeLoop cfg h caller r 0 (l :: ls)))

/-- `acquire_license`, src/library/licensecc.cpp:74-135. -/
def acquire (cfg : Config) (h : Hooks) (caller : Option Caller) (hint : Option LicenseLocation) (out : Option LicInfo) :
    Uses AcquireResult := do
  let feature ← lift (featureOf cfg caller)
  let (r, lics) ← readLicenses cfg h hint feature
  judge cfg h caller out r lics

/-! ## Linux -/

/-- `free_resources`, src/library/os/openssl/signature_verifier.cpp:25-32. -/
def freeResources (pkey mdctx : Option Nat) : Uses Unit := do
  giveIf pkey .pkey
  giveIf mdctx .digest

/-- The message at line 99 of `verify_signature`, src/library/os/openssl/signature_verifier.cpp. -/
def warnFinal (logging : Uses Unit) (good : Bool) : Uses Unit := if good then pure () else logging

/-- From line 80 on in `verify_signature`, src/library/os/openssl/signature_verifier.cpp. -/
def verifyDigest (logging : Uses Unit) (o : OpenSsl) (data d : Bytes) (pkey : Nat) : Uses Bool := do
  let mdctx ← takeIf o.contextCreated .digest
  if mdctx = none then do
    freeResources (some pkey) mdctx
    logging
    return false
  else if o.digestInit = false then do
    logging
    freeResources (some pkey) mdctx
    return false
  else if o.digestUpdate data ≠ 1 then do
    logging
    freeResources (some pkey) mdctx
    return false
  else do
    let _ ← warnFinal logging (o.digestFinal data d = 1)
    freeResources (some pkey) mdctx
    return o.digestFinal data d = 1

/-- `verify_signature`, src/library/os/openssl/signature_verifier.cpp:44-106. -/
def verify (logging : Uses Unit) (o : OpenSsl) (data signature : Bytes) : Uses Bool := do
  let bio ← take .bio
  let rsa ← takeIf o.keyParses .rsa
  give bio .bio
  match rsa with
  | none => do
    logging
    return false
  | some rsa => do
    let pkey ← take .pkey
    give rsa .rsa
    let b64 ← take .bio
    let encoded ← take .bio
    match o.bioRead signature with
    | none => lift .ub
    | some d =>
      if signatureBuffer ≤ d.length then lift .ub
      else do
        give b64 .bio
        give encoded .bio
        verifyDigest logging o data d pkey

/-- `getAdapterInfos`, src/library/os/linux/network.cpp:46-115. -/
def getAdapterInfos (logging : Uses Unit) (h : NetHost) : Uses (FuncRet × List Adapter) :=
  match h.ifaddrs with
  | none => do
    logging
    return Licensecc.getAdapterInfos h
  | some _ => do
    let ifaddr ← take .ifaddrs
    give ifaddr .ifaddrs
    return Licensecc.getAdapterInfos h

/-- `parseUUID`, src/library/os/linux/os_linux.cpp:43-72. -/
def parseUuid (uuid : Bytes) : Uses DiskSn := do
  let hexuuid ← take .block
  let sn ← lift (Licensecc.parseUuid uuid)
  give hexuuid .block
  return sn

/-- One entry in the loop of `getDiskInfos_dev`, src/library/os/linux/os_linux.cpp:203-243. -/
def addUuidEntry (e : UuidEntry) (ds : List Disk) (m : UuidMap) : Uses (List Disk × UuidMap) :=
  if skippedName e.name then pure (ds, m)
  else
    match e.inode, e.link with
    | some ino, some link => do
      let sn ← parseUuid e.name
      let d : Disk := ⟨ino, (baseName link).take 1023, sn, true, [], false, false⟩
      return (if ds.any (fun x => x.id = ino) then ds else ds ++ [d], m.insert e.name ino)
    | _, _ => pure (ds, m)

/-- The loop of `getDiskInfos_dev`, src/library/os/linux/os_linux.cpp:202-244. -/
def uuidLoop : List UuidEntry → List Disk → UuidMap → Uses (List Disk × UuidMap)
  | [], ds, m => pure (ds, m)
  | e :: es, ds, m =>
    if ds.length < 40 then do
      let (ds, m) ← addUuidEntry e ds m
      uuidLoop es ds m
    else pure (ds, m)

/-- `read_disk_labels`, src/library/os/linux/os_linux.cpp:153-188. -/
def readDiskLabels (h : DiskHost) (ds : List Disk) : Uses (List Disk) := do
  let byLabel ← takeIf h.byLabel.isSome .dir
  let dir ← match byLabel with
    | none => takeIf h.byPartLabel.isSome .dir
    | some d => pure (some d)
  match dir with
  | some d => do
    give d .dir
    return Licensecc.readDiskLabels h ds
  | none => return Licensecc.readDiskLabels h ds

/-- Lines 197-246 of `getDiskInfos_dev`, src/library/os/linux/os_linux.cpp. -/
def readUuids (h : DiskHost) : Uses (List Disk × UuidMap) :=
  match h.byUuid with
  | none => pure ([], [])
  | some es => do
    let dir ← take .dir
    let x ← uuidLoop es [] []
    give dir .dir
    return x

/-- `getDiskInfos_dev`, src/library/os/linux/os_linux.cpp:190-251. -/
def getDiskInfosDev (h : DiskHost) : Uses (FuncRet × List Disk × UuidMap) := do
  let (ds, m) ← readUuids h
  let labelled ← readDiskLabels h ds
  return (if ds.length > 0 then FuncRet.ok else .notAvail, labelled, m)

/-- One iteration of the loop of `parse_blkid`, src/library/os/linux/os_linux.cpp:107-123. -/
def blkidDevice (cur : Bytes) (n : Nat) : Uses (Disk × Bytes) := do
  let device := ((afterLastGt cur).takeWhile (· ≠ 0)).take 1023
  let label ← lift (getAttribute cur b!"PARTLABEL")
  let uuid ← lift (getAttribute cur b!"UUID")
  let sn ← parseUuid (uuid.takeWhile (· ≠ 0))
  let type ← lift (getAttribute cur b!"TYPE")
  return (⟨n, device, sn, true, (label.takeWhile (· ≠ 0)).take 254, true, type = b!"swap"⟩, uuid)

/-- The loop of `parse_blkid`, src/library/os/linux/os_linux.cpp:105-124. -/
def blkidLoop (win : Bytes) (pos : Nat) (n : Nat) (ds : List Disk) (m : UuidMap) : Bytes → Uses (List Disk × UuidMap)
  | [] => pure (ds, m)
  | c :: s =>
    if (b!"</device>").isPrefixOf (c :: s) then do
      let (d, uuid) ← blkidDevice (win.take pos) n
      blkidLoop s (pos + 1) (n + 1) (ds ++ [d]) (m.insert uuid n) s
    else blkidLoop win (pos + 1) n ds m s

/-- `parse_blkid`, src/library/os/linux/os_linux.cpp:101-126. -/
def parseBlkid (content : Bytes) (ds : List Disk) (m : UuidMap) : Uses (FuncRet × List Disk × UuidMap) := do
  let (ds, m) ← blkidLoop content 0 0 ds m content
  return (.ok, ds, m)

/-- `getDiskInfos_blkid`, src/library/os/linux/os_linux.cpp:130-149: the stream is closed before the text is parsed. -/
def getDiskInfosBlkid (h : DiskHost) (ds : List Disk) (m : UuidMap) : Uses (FuncRet × List Disk × UuidMap) := do
  let first ← during .stream h.blkidRun.isSome (pure h.blkidRun)
  match first with
  | some c => parseBlkid c ds m
  | none => do
    let second ← during .stream h.blkidEtc.isSome (pure h.blkidEtc)
    match second with
    | some c => parseBlkid c ds m
    | none => return (.notAvail, ds, m)

/-- `set_preferred_disks`, src/library/os/linux/os_linux.cpp:259-313. -/
def setPreferredDisks (h : DiskHost) (ds : List Disk) (m : UuidMap) : Uses (List Disk) :=
  match h.fstab with
  | none => pure ds
  | some es => do
    let fstab ← take .mntent
    let ds ← lift (markEntries m es ds)
    give fstab .mntent
    return ds

/-- `getDiskInfos`, src/library/os/linux/os_linux.cpp:322-334. -/
def getDiskInfos (h : DiskHost) : Uses (FuncRet × List Disk) := do
  let (r, ds, m) ← getDiskInfosDev h
  let (r, ds, m) ← if r ≠ .ok then getDiskInfosBlkid h ds m else pure (r, ds, m)
  if r = .ok then do
    let ds ← setPreferredDisks h ds m
    return (r, ds)
  else return (r, ds)

/-- `checkContainerProc`, src/library/os/linux/execution_environment.cpp:29-59: the first `getline` allocates the line. -/
def checkContainerProc (h : Host) : Uses Container :=
  match h.cgroup with
  | none => pure .none
  | some s => do
    let fp ← take .file
    let line ← take .block
    let result := procLines (splitString s 10)
    give line .block
    give fp .file
    return result

/-- `checkSystemdContainer`, src/library/os/linux/execution_environment.cpp:62-78. -/
def checkSystemdContainer (h : Host) : Uses Container :=
  during .stream h.systemdContainer.isSome (pure (Licensecc.checkSystemdContainer h))

/-- `get_container_type`, src/library/os/linux/execution_environment.cpp:80-86. -/
def containerType (h : Host) : Uses Container := do
  let r ← checkContainerProc h
  if r = .none then checkSystemdContainer h else return r

/-- `DmiInfo::DmiInfo`, src/library/os/linux/dmi_info.cpp:10-37: three files, read one after the other. -/
def dmiInfo (h : Host) : Uses Dmi := do
  let vendor ← during .stream h.sysVendor.isSome (pure (dmiBiosVendor h))
  during .stream h.modalias.isSome (pure ())
  let d ← lift (dmiDescription h)
  during .stream h.sysVendor.isSome (pure ())
  let s ← lift (dmiSysVendor h)
  return ⟨vendor, d, s⟩

/-- The constructor of `ExecutionEnvironment` on Linux, src/library/os/linux/execution_environment.cpp:88. -/
def mkEnv (h : Host) : Uses Env := do
  let d ← dmiInfo h
  let c ← containerType h
  return ⟨d, h.cpuVendor, h.cpuBrand, c⟩

/-- What the logger meets on Linux. -/
def linuxLog (l : Linux) (opens : Nat → Bool) : LogEnv where
  fname := match Logger.getLogFname (l.getenv (b!"TMPDIR")) with
    | .ub => none
    | .ok p => some p
    | .throw _ => some []
  opens := opens
  closed := l.log.logFile.isNone

/-- The library on Linux. -/
def linuxHooks (l : Linux) (opens : Nat → Bool) : Hooks where
  world := l.world
  verify := verify (log (linuxLog l opens)) l.ssl
  adapters := getAdapterInfos (log (linuxLog l opens)) l.net
  disks := getDiskInfos l.disks
  env := mkEnv l.host
  host := l.host
  log := log (linuxLog l opens)

/-! ## Windows -/

/-- `verifyHash`, src/library/os/windows/signature_verifier.cpp:134-180. -/
def verifyHash (b : Win.Bcrypt) (hash signature : Bytes) : Uses Bool := do
  let blob ← lift (unbase64 signature)
  if blob.length = 0 then lift .ub
  else do
    let hSignAlg ← takeIf b.rsaProvider .provider
    if hSignAlg = none then return false
    else do
      let (m, e) ← lift (Win.readKey b.publicKey b.oldModulus b.oldExponent)
      let phKey ← takeIf (b.imports m e) .key
      giveIf phKey .key
      giveIf hSignAlg .provider
      return b.imports m e && b.verifies m e hash blob

/-- Lines 205-219 of `verify_signature`, src/library/os/windows/signature_verifier.cpp: the handle of the hash and the result. -/
def hashed (b : Win.Bcrypt) (data signature : Bytes) : Uses (Option Nat × Bool) := do
  let hHash ← takeIf b.hashCreated .hash
  if hHash = none then return (hHash, false)
  else match b.hash data with
    | none => return (hHash, false)
    | some h => do
      let good ← verifyHash b h signature
      return (hHash, good)

/-- Lines 202-223: the handles of the hash and of the two blocks, and the result; `first` and `second` tell which `HeapAlloc`
    succeeds. -/
def allocated (b : Win.Bcrypt) (first second : Bool) (data signature : Bytes) : Uses (Option Nat × Option Nat × Option Nat × Bool) := do
  let pbHashObject ← takeIf first .heap
  let pbHashData ← takeIf second .heap
  if pbHashObject ≠ none ∧ pbHashData ≠ none then do
    let (hHash, good) ← hashed b data signature
    return (hHash, pbHashObject, pbHashData, good)
  else return (none, pbHashObject, pbHashData, false)

/-- `verify_signature`, src/library/os/windows/signature_verifier.cpp:182-244. -/
def verifyWin (b : Win.Bcrypt) (first second : Bool) (data signature : Bytes) : Uses Bool :=
  if b.hashProvider = false then lift (.throw .logicError)
  else do
    let hashAlg ← take .provider
    let (hHash, pbHashObject, pbHashData, good) ←
      if b.properties then allocated b first second data signature else pure (none, none, none, false)
    giveIf hHash .hash
    giveIf pbHashObject .heap
    giveIf pbHashData .heap
    give hashAlg .provider
    return good

/-- `getAdapterInfos` on Windows, src/library/os/windows/network.cpp:83-163. -/
def getAdapterInfosWin (n : Win.Net) : Uses (FuncRet × List Adapter) :=
  let named : Uses (FuncRet × List (Bytes × Adapter)) := do
    let p ← takeIf n.alloc .heap
    match p with
    | none => return (.error, [])
    | some p =>
      match n.first with
      | .noError l => do
        let t ← lift (Win.adaptersOfList l)
        give p .heap
        return if t.length = 0 then (.notAvail, []) else (.ok, n.sort t)
      | .other => lift .ub
      | .overflow => do
        give p .heap
        let q ← takeIf n.alloc2 .heap
        match q with
        | none => return (.bufferTooSmall, [])
        | some q =>
          match n.second with
          | .noError l => do
            let t ← lift (Win.adaptersOfList l)
            give q .heap
            return if t.length = 0 then (.notAvail, []) else (.ok, n.sort t)
          | .overflow => do
            give q .heap
            return (.bufferTooSmall, [])
          | .other => do
            give q .heap
            return (.error, [])
  do
    let (r, l) ← named
    return (r, l.map (·.2))

/-- `DmiInfo::DmiInfo`, src/library/os/windows/dmi_info.cpp:41-100: the parser owns a copy of the table (src/library/os/windows/smbios.hpp:379,
    316-318, 391-395). -/
def mkEnvWin (h : Win.WinHost) : Uses Env := during .array h.raw.isSome (lift h.mkEnv)

/-- What the logger meets on Windows. -/
def windowsLog (l : Win.Windows) (opens : Nat → Bool) : LogEnv where
  fname := match Logger.getLogFnameWin l.tempPath with
    | .ub => none
    | .ok p => some p
    | .throw _ => some []
  opens := opens
  closed := l.log.logFile.isNone

/-- The library on Windows; `first` and `second` tell which `HeapAlloc` of the signature check succeeds. -/
def windowsHooks (l : Win.Windows) (first second : Bool) (opens : Nat → Bool) : Hooks where
  world := l.world
  verify := verifyWin l.crypt first second
  adapters := getAdapterInfosWin l.net
  disks := pure (Win.getDiskInfos l.drives)
  env := mkEnvWin l.host
  host := l.host.common
  log := log (windowsLog l opens)

end Licensecc.Resources
