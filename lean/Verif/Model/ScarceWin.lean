import Verif.Model.Scarce
import Verif.Model.InspectorWin
/-!
# The library on Windows when memory runs out

As Model/Scarce; the functions of Windows that need memory of their own fail when it is refused, as they do for other reasons.
Simplifications: those of Model/Scarce; `GetDriveType`, `GetModuleFileName`, `GetTempPath`, `BCryptGetProperty` and the functions that close
handles ask for no memory.
-/
namespace Licensecc.Scarce
open Licensecc

/-- `_log`, src/library/base/logger.cpp:46-64 with lines 38-43 (see `log`). -/
def logWin (l : Win.Windows) : Scarce Unit := do
  if l.logOverruns then plain .ub
  else if l.log.logFile.isNone then do
    if ← request then do
      if ← request then pure () else plain .ub
    else pure ()
  else if ← request then pure () else plain .ub

/-- `verifyHash`, src/library/os/windows/signature_verifier.cpp:134-180. -/
def verifyHashWin (b : Win.Bcrypt) (hash signature : Bytes) : Scarce Bool := do
  let blob ← step (unbase64 signature)
  if blob.length = 0 then plain .ub
  else if (← request) && b.rsaProvider then do
    let (m, e) ← plain (Win.readKey b.publicKey b.oldModulus b.oldExponent)
    if (← request) && b.imports m e then return (← request) && b.verifies m e hash blob
    else return false
  else return false

/-- `verify_signature(...) == FUNC_RET_OK`, src/library/os/windows/signature_verifier.cpp:182-244; the text of the exception (50-53) needs
    memory, both `HeapAlloc` (202-203) are made. -/
def verifyWin (b : Win.Bcrypt) (data signature : Bytes) : Scarce Bool := do
  if (← request) && b.hashProvider then
    if b.properties then do
      let object ← request
      let result ← request
      if object && result && b.allocated then do
        if (← request) && b.hashCreated then do
          if ← request then
            match b.hash data with
            | some h => verifyHashWin b h signature
            | none => return false
          else return false
        else return false
      else return false
    else return false
  else step (.throw .logicError)

/-- From src/library/os/windows/network.cpp:129 on: what the identification strategies see. -/
def collectWin (n : Win.Net) (l : List Win.IpAdapter) : Scarce (FuncRet × List Adapter) := do
  let (r, l) ← step (n.collect l)
  return (r, l.map (·.2))

/-- `getAdapterInfos`, src/library/os/windows/network.cpp:83-163.  If the first call of `GetAdaptersInfo` is refused memory, the loop goes
    through uninitialised memory. -/
def getAdapterInfosWin (n : Win.Net) : Scarce (FuncRet × List Adapter) := do
  if (← request) && n.alloc then do
    if ← request then
      match n.first with
      | .noError l => collectWin n l
      | .other => plain .ub
      | .overflow => do
        if (← request) && n.alloc2 then do
          if ← request then
            match n.second with
            | .noError l => collectWin n l
            | .overflow => return (.bufferTooSmall, [])
            | .other => return (.error, [])
          else return (.error, [])
        else return (.bufferTooSmall, [])
    else plain .ub
  else return (.error, [])

/-- One drive as `GetVolumeInformation` shows it, src/library/os/windows/os_win.cpp:49-50: only fixed drives are asked. -/
def lookAt (d : Win.Drive) : Scarce Win.Drive := do
  if d.fixed then
    if ← request then return d else return { d with volume := none }
  else return d

/-- The loop, src/library/os/windows/os_win.cpp:44-72; `push_back` (62) needs memory. -/
def driveLoop : Nat → List Win.Drive → Scarce (List Disk)
  | _, [] => pure []
  | n, d :: ds => do
    let d ← lookAt d
    match Win.diskOfDrive n d with
    | some x => do
      need
      let xs ← driveLoop (n + 1) ds
      return x :: xs
    | none => driveLoop n ds

/-- `getDiskInfos`, src/library/os/windows/os_win.cpp:29-82; line 36 is `GetLogicalDriveStrings`. -/
def getDiskInfosWin (drives : List Win.Drive) : Scarce (FuncRet × List Disk) := do
  let l ← if ← request then driveLoop 0 (drives.take 40) else pure []
  return if l.length > 0 then (.ok, l) else (.notAvail, [])

/-- `DmiInfo::DmiInfo`, src/library/os/windows/dmi_info.cpp:41-102, with `readSMBIOS` (27-39): `GetSystemFirmwareTable` is asked for the
    size and for the table. -/
def dmiInfoWin (raw : Option Bytes) : Scarce Win.WinDmi := do
  if ← request then
    match raw with
    | none => plain (Win.winDmiInfo none)
    | some t => do
      need
      if ← request then step (Win.winDmiInfo (some t)) else plain (Win.winDmiInfo none)
  else plain (Win.winDmiInfo none)

/-- `ExecutionEnvironment::ExecutionEnvironment`, src/library/os/windows/execution_environment.cpp:23. -/
def mkEnvWin (h : Win.WinHost) : Scarce Env := do
  need
  let d ← dmiInfoWin h.raw
  return ⟨⟨d.biosVendor, d.biosDescription, d.sysVendor⟩, h.cpuVendor, h.cpuBrand, .none⟩

/-- The library on Windows. -/
def windowsHooks (l : Win.Windows) : Hooks where
  world := l.world
  verify := verifyWin l.crypt
  adapters := getAdapterInfosWin l.net
  disks := getDiskInfosWin l.drives
  env := mkEnvWin l.host
  host := l.host.common
  log := logWin l

end Licensecc.Scarce
