import Verif.Model.Linux
import Verif.Model.InspectorMain
/-!
# What the library writes in its log

The functions on the way from the API to the places where the library logs are modelled a second time, with what they log; that they
compute the same is a theorem (Props/LogText).  Builds with `NDEBUG` (no `LOG_DEBUG`).  Simplification: the texts of exceptions thrown by
the standard library are parameters.
-/
namespace Licensecc.LogText
open Licensecc

/-- The uses of `LOG_WARN` and `LOG_ERROR` in the library. -/
inductive Entry where
  /-- src/library/licensecc.cpp:41 -/
  | identifying (what : Bytes)
  /-- src/library/hw_identifier/hw_identifier_facade.cpp:31 -/
  | validating (code what : Bytes)
  /-- src/library/hw_identifier/hw_identifier_facade.cpp:45 -/
  | unknownStrategy (value : Bytes)
  /-- src/library/locate/ApplicationFolder.cpp:46 -/
  | moduleName
  /-- src/library/os/linux/network.cpp:55 -/
  | getifaddrs
  /-- src/library/os/openssl/signature_verifier.cpp:54 -/
  | publicKey
  /-- src/library/os/openssl/signature_verifier.cpp:82 -/
  | context
  /-- src/library/os/openssl/signature_verifier.cpp:86 -/
  | digestInit
  /-- src/library/os/openssl/signature_verifier.cpp:93 -/
  | digestUpdate (n : Int)
  /-- src/library/os/openssl/signature_verifier.cpp:100 -/
  | digestFinal (n : Int)
  deriving DecidableEq, Repr

/-- A computation: what it logs until it returns, throws or becomes undefined; `what` is the text of the exception, if it throws. -/
structure Tells (α : Type) where
  entries : List Entry
  result : Outcome α
  what : Bytes

/-- Sequencing. -/
def Tells.bind {α β : Type} (x : Tells α) (f : α → Tells β) : Tells β :=
  match x.result with
  | .ok a => ⟨x.entries ++ (f a).entries, (f a).result, (f a).what⟩
  | .throw e => ⟨x.entries, .throw e, x.what⟩
  | .ub => ⟨x.entries, .ub, []⟩

instance : Monad Tells where
  pure a := ⟨[], .ok a, []⟩
  bind := Tells.bind

/-- A computation that logs nothing; the text of its exceptions. -/
def quiet {α : Type} (x : Outcome α) (what : Exn → Bytes := fun _ => []) : Tells α :=
  ⟨[], x, match x with
    | .throw e => what e
    | _ => []⟩

/-- `LOG_WARN`, `LOG_ERROR`: nothing is written if the array for the path is overrun (`Machine.logged`). -/
def log (m : Machine) (e : Entry) : Tells Unit := ⟨if m.logOverruns then [] else [e], m.logged (.ok ()), []⟩

/-- `try { u } catch (E& e) { handler(e.what()) }` for the exceptions `p`. -/
def catching {α : Type} (p : Exn → Bool) (u : Tells α) (handler : Bytes → Tells α) : Tells α :=
  match u.result with
  | .throw e => if p e then ⟨u.entries ++ (handler u.what).entries, (handler u.what).result, (handler u.what).what⟩ else u
  | _ => u

/-- What a call meets. -/
structure Hooks where
  world : World
  /-- `license::os::verify_signature(...) == FUNC_RET_OK` -/
  verify : Bytes → Bytes → Tells Bool
  /-- `getAdapterInfos` -/
  adapters : Tells (FuncRet × List Adapter)
  /-- `what()` of an exception thrown by the standard library -/
  lib : Exn → Bytes

/-- `HwIdentifier(const string&)`, src/library/hw_identifier/hw_identifier.cpp:19-28. -/
def ofString (lib : Exn → Bytes) (s : Bytes) : Tells HwId := do
  let decoded ← quiet (unbase64 (HwId.replaceByte 45 10 s)) lib
  match decoded with
  | [a, b, c, d, e, f, g, h] => return ⟨a, b, c, d, e, f, g, h⟩
  | _ => quiet (.throw .logicError) fun _ => b!"wrong identifier size " ++ s

/-- `IdentificationStrategy::get_strategy`, src/library/hw_identifier/identification_strategy.cpp:35-54. -/
def getStrategy (n : Int) : Tells Strategy := quiet (Licensecc.getStrategy n) fun _ => b!"strategy not supported"

/-- `generate_ethernet_pc_id`, src/library/hw_identifier/ethernet.cpp:22-59. -/
def generateEthernetIds (h : Hooks) (useIp : Bool) : Tells (FuncRet × List Payload) := do
  let (r, as) ← h.adapters
  if r ≠ .ok then return (r, [])
  else if as.length = 0 then return (.notAvail, [])
  else return (r, as.filterMap (adapterPayload useIp))

/-- The identifiers from the payloads, src/library/hw_identifier/ethernet.cpp:72-81, disk_strategy.cpp:68-77; the text of the exception of
    `set_identification_strategy` (hw_identifier.cpp:36). -/
def makeIds (s : Strategy) (x : FuncRet × List Payload) : Tells (List HwId) :=
  quiet (if x.1 = .ok then x.2.mapM (mkId s.code) else .ok []) fun _ => b!"Only known strategies are permitted"

/-- `alternative_ids`, src/library/hw_identifier/ethernet.cpp:69-83, disk_strategy.cpp:65-79. -/
def alternativeIds (h : Hooks) (s : Strategy) : Tells (List HwId) :=
  match s with
  | .ethernet => do makeIds s (← generateEthernetIds h false)
  | .ip => do makeIds s (← generateEthernetIds h true)
  | .disk => do makeIds s (← quiet (generateDiskIds h.world.machine) h.lib)
  | .default => return []

/-- `validate_identifier`, src/library/hw_identifier/identification_strategy.cpp:10-23, default_strategy.cpp:74-77. -/
def validateIdentifier (h : Hooks) (s : Strategy) (id : HwId) : Tells EventType :=
  if s = .default then return .identifiersMismatch
  else if id.strategy = s.code then do
    let ids ← alternativeIds h s
    return if ids.any (fun x => x.eq id) then .licenseOk else .identifiersMismatch
  else return .identifiersMismatch

/-- `HwIdentifierFacade::validate_pc_signature`, src/library/hw_identifier/hw_identifier_facade.cpp:23-35. -/
def validatePcSignature (h : Hooks) (code : Bytes) : Tells EventType :=
  catching Exn.isLogicError
    (do
      let id ← ofString h.lib code
      let s ← getStrategy id.strategy
      validateIdentifier h s id)
    fun what => do
      log h.world.machine (.validating code what)
      return .identifiersMismatch

/-- `IdentificationStrategy::generate_pc_id`, src/library/hw_identifier/identification_strategy.cpp:25-33. -/
def generateFirst (h : Hooks) (s : Strategy) : Tells (Option HwId) := do
  let ids ← alternativeIds h s
  return ids.head?

/-- The loop of `DefaultStrategy::generate_pc_id`, src/library/hw_identifier/default_strategy.cpp:44-56. -/
def tryStrategies (h : Hooks) : List Int → Tells (Option HwId)
  | [] => pure none
  | n :: ns => do
    let s ← getStrategy n
    match ← generateFirst h s with
    | some id => return some id
    | none => tryStrategies h ns

/-- virtual `generate_pc_id`. -/
def generatePcId (h : Hooks) (s : Strategy) : Tells (Option HwId) :=
  if s = .default then do tryStrategies h (availableStrategies (← quiet h.world.machine.exec h.lib)) else generateFirst h s

/-- The warning, src/library/hw_identifier/hw_identifier_facade.cpp:45. -/
def warnUnknown (m : Machine) (strategy : Int) : Tells Unit :=
  if strategyUnknown m.strategyVar strategy then log m (.unknownStrategy (m.strategyVar.getD [])) else pure ()

/-- `to_string` of an `int`; `%d`. -/
def decimal (n : Int) : Bytes := if n < 0 then 45 :: Inspector.number 10 n.natAbs else Inspector.number 10 n.natAbs

/-- `HwIdentifierFacade::generate_user_pc_signature`, src/library/hw_identifier/hw_identifier_facade.cpp:37-61. -/
def generateUserPcSignature (h : Hooks) (strategy : Int) : Tells Bytes := do
  let _ ← warnUnknown h.world.machine strategy
  let s ← getStrategy (selectStrategy h.world.machine.strategyVar strategy).1
  match ← generatePcId h s with
  | none => quiet (.throw .logicError) fun _ => b!"strategy " ++ decimal s.code ++ b!" failed"
  | some id => quiet ((id.setUseEnvVar (selectStrategy h.world.machine.strategyVar strategy).2).print)

/-- The identifier part of `identify_pc`, src/library/licensecc.cpp:34-48. -/
def identifyPc (h : Hooks) (strategy : Int) (buf : Option Bytes) (bufSize : Nat) : Tells IdentifyResult :=
  match buf with
  | some mem =>
    if bufSize > 19 then
      catching (fun _ => true)
        (do
          let id ← generateUserPcSignature h strategy
          let (mem', _) ← quiet (mstrlcpy mem (id ++ [0]) bufSize)
          return ⟨true, bufSize, some mem'⟩)
        fun what => do
          log h.world.machine (.identifying what)
          return ⟨false, bufSize, some mem⟩
    else return ⟨false, 20, some mem⟩
  | none => return ⟨false, 20, none⟩

/-! ## `acquire_license` -/

/-- Check of client-signature, src/library/limits/license_verifier.cpp:58-63. -/
def checkClient (h : Hooks) (lic : FullLicense) (r : Registry) : Tells (Registry × Bool) :=
  match SMap.find? kClient lic.limits with
  | none => pure (r, true)
  | some s => do
    let ev ← validatePcSignature h s
    let r ← quiet (r.addEvent ev (some lic.source))
    return (r, ev = .licenseOk)

/-- `LicenseVerifier::verify_limits`, src/library/limits/license_verifier.cpp:37-65. -/
def verifyLimits (cfg : Config) (h : Hooks) (lic : FullLicense) (r : Registry) (k : Nat) : Tells (Registry × Nat × Bool) := do
  let now := h.world.clock k
  if lic.magic = cfg.magic then do
    let (r, v) ← quiet (checkExpiry h.world now lic r)
    if v then do
      let (r, v) ← quiet (checkBegin h.world now lic r)
      if v then do
        let (r, v) ← checkClient h lic r
        return (r, k + 1, v)
      else return (r, k + 1, false)
    else return (r, k + 1, false)
  else do
    let r ← quiet (r.addEvent .corrupted (some lic.source))
    return (r, k + 1, false)

/-- `LicenseVerifier::verify_signature`, src/library/limits/license_verifier.cpp:23-34. -/
def verifySignature (h : Hooks) (lic : FullLicense) (r : Registry) : Tells (Registry × Bool) := do
  let good ← h.verify lic.printForSign lic.signature
  let r ← quiet (r.addEvent (if good then .signatureVerified else .corrupted) (some lic.source))
  return (r, good)

/-- Loop over the licences, src/library/licensecc.cpp:92-108. -/
def judgeLoop (cfg : Config) (h : Hooks) (caller : Option Caller) :
    Registry → Nat → List FullLicense → Tells (Registry × Nat × List LicInfo × List LicInfo)
  | r, k, [] => pure (r, k, [], [])
  | r, k, l :: ls => do
    let lic := withMagic caller l
    let (r, good) ← verifySignature h lic r
    let (info, k) ← quiet (toLicenseInfo h.world lic k)
    if good then do
      let (r, k, v) ← verifyLimits cfg h lic r k
      let (r, k, oks, errs) ← judgeLoop cfg h caller r k ls
      return (r, k, (if v then info :: oks else oks), (if v then errs else info :: errs))
    else do
      let (r, k, oks, errs) ← judgeLoop cfg h caller r k ls
      return (r, k, oks, info :: errs)

/-- `acquire_license` after the licences have been read, src/library/licensecc.cpp:86-134. -/
def judge (cfg : Config) (h : Hooks) (caller : Option Caller) (out : Option LicInfo) (r : Registry)
    (lics : List FullLicense) : Tells AcquireResult :=
  match lics with
  | [] => quiet (do
    let (r, _) ← r.turnWarningsIntoErrors
    let t ← lastFailureType r
    finish h.world t r 0 (out.map fun o => { o with proprietary := some [], linkedToPc := false, daysLeft := 0 }))
  | _ => do
    let (r, k, oks, errs) ← judgeLoop cfg h caller r 0 lics
    match oks with
    | _ :: _ => quiet (finish h.world .licenseOk r.turnErrorsIntoWarnings.1 k (out.map (mergeLicenses oks)))
    | [] => quiet (do
      let (r, _) ← r.turnWarningsIntoErrors
      let t ← lastFailureType r
      finish h.world t r k (out.map (mergeLicenses errs)))

/-- `license_locations` of the four classes, src/library/locate/ApplicationFolder.cpp:30-49 with line 46; the others log nothing. -/
def licenseLocations (w : World) (l : Locator) (r : Registry) : Tells (Registry × List Bytes × Bool) :=
  match l with
  | .applicationFolder =>
    match w.moduleName with
    | none => do
      log w.machine .moduleName
      return (r, [], false)
    | some _ => quiet (Licensecc.licenseLocations w .applicationFolder r)
  | l => quiet (Licensecc.licenseLocations w l r)

/-- Loop over the locators, src/library/LicenseReader.cpp:57-102. -/
def readLocators (w : World) (feature : Bytes) : Registry → List Locator → Tells (Registry × List FullLicense)
  | r, [] => pure (r, [])
  | r, l :: ls => do
    let (r, locations, isBase64) ← licenseLocations w l r
    let (r, lics) ← quiet (readLocations w feature l isBase64 r locations)
    let (r, lics') ← readLocators w feature r ls
    return (r, lics ++ lics')

/-- `LicenseReader::readLicenses`, src/library/LicenseReader.cpp:44-107. -/
def readLicenses (cfg : Config) (w : World) (hint : Option LicenseLocation) (feature : Bytes) : Tells (Registry × List FullLicense) :=
  let strategies := activeStrategies cfg hint
  if strategies.isEmpty then quiet (do
    let r ← (Registry.empty w.platform).addEvent .fileNotFound none
    let (r, _) ← r.turnWarningsIntoErrors
    return (r, []))
  else do
    let (r, lics) ← readLocators w feature (Registry.empty w.platform) strategies
    if lics.isEmpty then quiet (do
      let (r, _) ← r.turnWarningsIntoErrors
      return (r, lics))
    else return (r, lics)

/-- `acquire_license`, src/library/licensecc.cpp:74-135. -/
def acquire (cfg : Config) (h : Hooks) (caller : Option Caller) (hint : Option LicenseLocation) (out : Option LicInfo) :
    Tells AcquireResult := do
  let feature ← quiet (featureOf cfg caller)
  let (r, lics) ← readLicenses cfg h.world hint feature
  judge cfg h caller out r lics

/-! ## Linux -/

/-- `LOG_ERROR(...)` and `return FUNC_RET_ERROR`, src/library/os/openssl/signature_verifier.cpp. -/
def refuse (o : OpenSsl) (e : Entry) : Tells Bool := ⟨if o.logOverruns then [] else [e], o.fail, []⟩

/-- `verify_signature(...) == FUNC_RET_OK`, src/library/os/openssl/signature_verifier.cpp:44-106 (see `OpenSsl.verify`). -/
def verify (o : OpenSsl) (data signature : Bytes) : Tells Bool :=
  if o.keyParses = false then refuse o .publicKey
  else match o.bioRead signature with
    | none => quiet .ub
    | some d =>
      if signatureBuffer ≤ d.length then quiet .ub
      else if o.contextCreated = false then refuse o .context
      else if o.digestInit = false then refuse o .digestInit
      else if o.digestUpdate data ≠ 1 then refuse o (.digestUpdate (o.digestUpdate data))
      else if o.digestFinal data d = 1 then pure true
      else refuse o (.digestFinal (o.digestFinal data d))

/-- `getAdapterInfos`, src/library/os/linux/network.cpp:46-115, with line 55. -/
def getAdapterInfos (m : Machine) (h : NetHost) : Tells (FuncRet × List Adapter) :=
  match h.ifaddrs with
  | none => do
    log m .getifaddrs
    return Licensecc.getAdapterInfos h
  | some _ => return Licensecc.getAdapterInfos h

/-- The library on Linux. -/
def linuxHooks (l : Linux) (lib : Exn → Bytes) : Hooks where
  world := l.world
  verify := verify { l.ssl with logOverruns := l.logOverruns }
  adapters := getAdapterInfos l.world.machine l.net
  lib := lib

/-! ## The text of an entry -/

/-- An argument of `vfprintf`. -/
inductive Arg where
  | str (s : Bytes)
  | int (n : Int)
  deriving DecidableEq, Repr

/-- `vfprintf` for formats with `%s` and `%d`: anything else behind a `%`, or an argument of another kind, counts as undefined. -/
def printf : Bytes → List Arg → Outcome Bytes
  | [], _ => .ok []
  | 37 :: 115 :: f, .str s :: as => do return s.takeWhile (· ≠ 0) ++ (← printf f as)
  | 37 :: 100 :: f, .int n :: as => do return decimal n ++ (← printf f as)
  | c :: f, as => if c = 37 then .ub else do return c :: (← printf f as)

/-- The format given to `LOG_WARN` or `LOG_ERROR`. -/
def Entry.own : Entry → Bytes
  | .identifying _ => b!"Error calculating hw_identifier: %s"
  | .validating _ _ => b!"Error validating identifier %s: %s"
  | .unknownStrategy _ => b!"unknown IDENTIFICATION_STRATEGY %s"
  | .moduleName => b!"Error determining module name."
  | .getifaddrs => b!"getifaddrs failed == -1"
  | .publicKey => b!"Error reading public key"
  | .context => b!"Error creating context"
  | .digestInit => b!"Error initializing digest"
  | .digestUpdate _ => b!"Error verifying digest %d"
  | .digestFinal _ => b!"Error verifying digest %d"

/-- The arguments given to `LOG_WARN` or `LOG_ERROR`. -/
def Entry.ownArgs : Entry → List Arg
  | .identifying w => [.str w]
  | .validating c w => [.str c, .str w]
  | .unknownStrategy v => [.str v]
  | .digestUpdate n => [.int n]
  | .digestFinal n => [.int n]
  | _ => []

/-- The macro used. -/
def Entry.isWarning : Entry → Bool
  | .unknownStrategy _ | .moduleName | .getifaddrs => true
  | _ => false

/-- `__FILE__` below src/library, and `__LINE__`. -/
def Entry.place : Entry → Bytes × Nat
  | .identifying _ => (b!"licensecc.cpp", 41)
  | .validating _ _ => (b!"hw_identifier/hw_identifier_facade.cpp", 31)
  | .unknownStrategy _ => (b!"hw_identifier/hw_identifier_facade.cpp", 45)
  | .moduleName => (b!"locate/ApplicationFolder.cpp", 46)
  | .getifaddrs => (b!"os/linux/network.cpp", 55)
  | .publicKey => (b!"os/openssl/signature_verifier.cpp", 54)
  | .context => (b!"os/openssl/signature_verifier.cpp", 82)
  | .digestInit => (b!"os/openssl/signature_verifier.cpp", 86)
  | .digestUpdate _ => (b!"os/openssl/signature_verifier.cpp", 93)
  | .digestFinal _ => (b!"os/openssl/signature_verifier.cpp", 100)

/-- `LOG_WARN`, `LOG_ERROR`, src/library/base/logger.h:20-21: the format. -/
def Entry.format (e : Entry) : Bytes :=
  (if e.isWarning then b!"[WARN] (%s:%d: errno: %s) " else b!"[ERROR] (%s:%d: errno: %s) ") ++ e.own ++ b!"\n"

/-- What an entry meets: the time, the text of `errno`, whether the file can be opened. -/
structure Stamp where
  now : Bytes
  errno : Bytes
  canOpen : Bytes → Bool

/-- `LOG_WARN`, `LOG_ERROR`, src/library/base/logger.h:20-21: the arguments; `dir` is how the compiler was called for src/library. -/
def Entry.args (dir : Bytes) (x : Stamp) (e : Entry) : List Arg :=
  [.str (dir ++ e.place.1), .int e.place.2, .str x.errno] ++ e.ownArgs

/-- What `_log` meets, src/library/base/logger.cpp:46-64. -/
def Entry.env (dir : Bytes) (tmpdir : Option Bytes) (x : Stamp) (e : Entry) : Logger.Env where
  tmpdir := tmpdir
  canOpen := x.canOpen
  now := x.now
  printf f := match printf f (e.args dir x) with
    | .ok t => t
    | _ => []

/-- The use of the logger (`Logger.log`), src/library/base/logger.h:20-21. -/
def Entry.op (dir : Bytes) (tmpdir : Option Bytes) (x : Stamp) (e : Entry) : Logger.Op := .log (e.env dir tmpdir x) e.format

end Licensecc.LogText
