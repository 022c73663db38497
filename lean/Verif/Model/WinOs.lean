import Verif.Model.WinNetwork
import Verif.Model.Smbios
/-!
# Model of the disk enumeration on Windows (src/library/os/windows/os_win.cpp), and the machine of the identification strategies
-/
namespace Licensecc.Win

/-- A logical drive.  `volume` is `none` if `GetVolumeInformation` fails. -/
structure Drive where
  /-- the text `GetLogicalDriveStrings` gives for it, such as `C:\\` -/
  root : Bytes
  /-- `GetDriveType(...) == DRIVE_FIXED` -/
  fixed : Bool
  /-- volume name, volume serial number, file system name -/
  volume : Option (Bytes × UInt32 × Bytes)
  deriving DecidableEq, Repr

/-- `memcpy(diskInfo.disk_sn, &volSerial, sizeof(DWORD))` on the zeroed array, src/library/os/windows/os_win.cpp:59. -/
def serialBytes (n : UInt32) : DiskSn :=
  ⟨n.toUInt8, (n >>> 8).toUInt8, (n >>> 16).toUInt8, (n >>> 24).toUInt8, 0, 0, 0, 0⟩

/-- One iteration of the loop, src/library/os/windows/os_win.cpp:44-72; `ndrives` counts the disks found. -/
def diskOfDrive (ndrives : Nat) (d : Drive) : Option Disk :=
  if d.fixed then
    match d.volume with
    | some (name, serial, fs) =>
      some ⟨ndrives, name.take 259, serialBytes serial, true, fs.take 254, true, d.root.head? = some 67⟩
    | none => none
  else none

/-- The loop, src/library/os/windows/os_win.cpp:44-72. -/
def disksOfDrives : Nat → List Drive → List Disk
  | _, [] => []
  | n, d :: ds =>
    match diskOfDrive n d with
    | some x => x :: disksOfDrives (n + 1) ds
    | none => disksOfDrives n ds

/-- `getDiskInfos`, src/library/os/windows/os_win.cpp:29-82: at most MAX_UNITS = 40 drives.  The strings fit in the buffer of 260
    bytes (26 drives need 105). -/
def getDiskInfos (drives : List Drive) : FuncRet × List Disk :=
  let l := disksOfDrives 0 (drives.take 40)
  if l.length > 0 then (.ok, l) else (.notAvail, [])

/-- Network, drives, firmware and CPU, the environment variable IDENTIFICATION_STRATEGY, and whether the path of the log file
    overruns its array. -/
structure WinOs where
  net : Net
  drives : List Drive
  host : WinHost
  strategyVar : Option Bytes
  /-- does logging overrun (`Logger.overrunsWin`)? -/
  logOverruns : Bool := false

/-- The functions the strategies call: `getAdapterInfos` (src/library/hw_identifier/ethernet.cpp:26), `getDiskInfos`
    (src/library/hw_identifier/disk_strategy.cpp:32), `ExecutionEnvironment` (src/library/hw_identifier/default_strategy.cpp:17)
    and `getenv` (src/library/hw_identifier/hw_identifier_facade.cpp:41). -/
def WinOs.machine (o : WinOs) : Machine where
  adapters := o.net.getAdapterInfos
  disks := .ok (getDiskInfos o.drives)
  exec := o.host.execSummary
  strategyVar := o.strategyVar
  logOverruns := o.logOverruns

end Licensecc.Win
