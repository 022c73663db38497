import Verif.Model.LogDebug
/-!
# Debug builds on Windows
-/
namespace Licensecc.Win
open LogDebug

/-- `formatError`, src/library/os/windows/signature_verifier.cpp:32-37.  `sys` gives, for a description, what `FormatMessage` stored and
    the status. -/
def formatError (g : Log) (sys : Bytes → Bytes × Int) (description : Bytes) : Outcome Unit :=
  tell g (.formatError description (sys description).1 (sys description).2)

/-- `verifyHash`, src/library/os/windows/signature_verifier.cpp:134-180, with lines 127-129, 156, 160 and 166. -/
def Bcrypt.verifyHashDebug (b : Bcrypt) (g : Log) (sys : Bytes → Bytes × Int) (hash signature : Bytes) : Outcome Bool := do
  let blob ← unbase64 signature
  if blob.length = 0 then .ub
  else if b.rsaProvider = false then do
    let _ ← formatError g sys (b!"error opening RSA provider")
    .ok false
  else
    let (m, e) ← readKey b.publicKey b.oldModulus b.oldExponent
    if b.imports m e = false then do
      let _ ← formatError g sys (b!"error importing public key")
      let _ ← tell g .noKey
      .ok false
    else if b.verifies m e hash blob then .ok true
    else do
      let _ ← formatError g sys (b!"error verifying signature")
      .ok false

/-- `verify_signature(...) == FUNC_RET_OK`, src/library/os/windows/signature_verifier.cpp:182-244, with lines 211, 217, 222 and 227. -/
def Bcrypt.verifyDebug (b : Bcrypt) (g : Log) (sys : Bytes → Bytes × Int) (data signature : Bytes) : Outcome Bool :=
  if b.hashProvider = false then .throw .logicError
  else if b.properties = false then do
    let _ ← formatError g sys (b!"**** Error returned by BCryptGetProperty")
    .ok false
  else if b.allocated = false then do
    let _ ← tell g .noMemory
    .ok false
  else if b.hashCreated = false then do
    let _ ← formatError g sys (b!"error creating hash")
    .ok false
  else match b.hash data with
    | none => do
      let _ ← formatError g sys (b!"error hashing data")
      .ok false
    | some h => b.verifyHashDebug g sys h signature

/-- The message of one iteration, src/library/os/windows/os_win.cpp:44-72. -/
def driveMessage (d : Drive) : Message :=
  if d.fixed then
    match d.volume with
    | some (name, serial, fs) => .drive d.root name serial.toNat fs
    | none => .unreadable d.root
  else .notFixed d.root

/-- `getDiskInfos`, src/library/os/windows/os_win.cpp:29-82, with its messages.  Simplification: they come first; nothing else in the
    function can fail. -/
def getDiskInfosDebug (g : Log) (drives : List Drive) : Outcome (FuncRet × List Disk) := do
  let _ ← tellAll g ((drives.take 40).map driveMessage)
  let _ ← tellAll g (if (disksOfDrives 0 (drives.take 40)).length > 0 then [] else [.noDrive])
  return getDiskInfos drives

/-- The adapters the loop goes through, src/library/os/windows/network.cpp:130-151 (see `Net.getAdapterInfosNamed`). -/
def Net.listed (n : Net) : List IpAdapter :=
  if n.alloc = false then []
  else match n.first with
    | .noError l => l
    | .other => []
    | .overflow =>
      if n.alloc2 = false then []
      else match n.second with
        | .noError l => l
        | _ => []

/-- `getAdapterInfos`, src/library/os/windows/network.cpp:83-163, with its messages (line 133).  `names` gives the `AdapterName`.
    Simplification: they come first; the rest of the function does not throw. -/
def Net.getAdapterInfosDebug (g : Log) (names : IpAdapter → Bytes) (n : Net) : Outcome (FuncRet × List Adapter) := do
  let _ ← tellAll g ((n.listed.filter (·.ethernet)).map fun a => .ethernet (names a) a.description a.addressLength)
  n.getAdapterInfos

/-- What a debug build reads besides, for its messages. -/
structure DebugSystem where
  /-- `FormatMessage` and the status, by description -/
  sys : Bytes → Bytes × Int
  names : IpAdapter → Bytes
  /-- the address of the event registry -/
  address : Bytes
  /-- can the file be opened for appending? -/
  canOpen : Bytes → Bool
  now : Bytes
  dir : Bytes

/-- The log, src/library/base/logger.cpp:38-54. -/
def Windows.debugLog (l : Windows) (d : DebugSystem) : Log where
  overruns := l.logOverruns
  opens := match l.log.logFile with
    | some _ => true
    | none => match Logger.getLogFnameWin l.tempPath with
      | .ok p => d.canOpen p
      | _ => false
  now := d.now
  dir := d.dir

/-- What the identification strategies call (`WinOs.machine`). -/
def Windows.debugMachine (l : Windows) (d : DebugSystem) : Machine :=
  { l.os.machine with
    adapters := l.net.getAdapterInfosDebug (l.debugLog d) d.names
    disks := getDiskInfosDebug (l.debugLog d) l.drives }

/-- What `acquire_license` sees (`Windows.world`). -/
def Windows.debugWorld (l : Windows) (d : DebugSystem) : World :=
  { l.world with verify := l.crypt.verifyDebug (l.debugLog d) d.sys, machine := l.debugMachine d }

/-- `acquire_license` of a debug build. -/
def Windows.acquireDebug (l : Windows) (d : DebugSystem) (cfg : Config) (caller : Option Caller) (hint : Option LicenseLocation)
    (out : Option LicInfo) : Outcome AcquireResult :=
  LogDebug.acquire (l.debugLog d) cfg (l.debugWorld d) d.address caller hint out

/-- `identify_pc` of a debug build, src/library/licensecc.cpp:32-48, 55. -/
def Windows.identifyDebug (l : Windows) (d : DebugSystem) (strategy : Int) (buf : Option Bytes) (bufSize : Nat) :
    Outcome IdentifyResult :=
  identifyPc (l.debugMachine d) strategy buf bufSize

end Licensecc.Win
