import Verif.Model.LogDebug
import Verif.Model.Linux
/-!
# Debug builds on Linux
-/
namespace Licensecc.LogDebug
open Licensecc

/-- A part of a call, with the messages it gives to `LOG_DEBUG`. -/
structure Says (α : Type) where
  said : List Message
  result : Outcome α

def Says.bind {α β : Type} (x : Says α) (f : α → Says β) : Says β :=
  match x.result with
  | .ok a => ⟨x.said ++ (f a).said, (f a).result⟩
  | .throw e => ⟨x.said, .throw e⟩
  | .ub => ⟨x.said, .ub⟩

instance : Monad Says where
  pure a := ⟨[], .ok a⟩
  bind := Says.bind

/-- A part with no messages. -/
def silent {α : Type} (x : Outcome α) : Says α := ⟨[], x⟩

def say (m : Message) : Says Unit := ⟨[m], .ok ()⟩

/-- The call with the messages written.  Simplification: they come first; if one of them overruns, so it is with the call, whatever it
    does before. -/
def Says.run {α : Type} (g : Log) (x : Says α) : Outcome α := do
  let _ ← tellAll g x.said
  x.result

/-- What a debug build reads besides, for its messages. -/
structure LinuxDebug where
  /-- `sa_family` of an address that is neither AF_INET nor AF_PACKET -/
  family : IfEntry → Nat
  /-- `strerror(errno)` after `opendir`, by path -/
  opendir : Bytes → Bytes
  /-- after `stat` -/
  stat : Bytes → Bytes
  /-- after `readlink` -/
  readlink : Bytes → Bytes
  /-- after opening a file, by path -/
  file : Bytes → Bytes
  /-- the address of the event registry -/
  address : Bytes
  /-- can the log file be opened for appending, or is it open? -/
  opens : Bool
  now : Bytes
  dir : Bytes

/-! ## src/library/os/linux/network.cpp -/

/-- `ifa->ifa_addr->sa_family`. -/
def LinuxDebug.familyOf (d : LinuxDebug) (e : IfEntry) : SockAddr → Nat
  | .inet _ => 2
  | .packet _ => 17
  | .other => d.family e

def macBytes (m : Mac) : List UInt8 := [m.m0, m.m1, m.m2, m.m3, m.m4, m.m5]

/-- The messages of one iteration, src/library/os/linux/network.cpp:78-81, 94-99. -/
def interfaceMessages (d : LinuxDebug) (e : IfEntry) : List Message :=
  match e.addr with
  | none => []
  | some a =>
    if e.flags &&& 8 ≠ 0 then []
    else .interface e.name (d.familyOf e a) ::
      match a with
      | .packet mac => if e.hasData then (macBytes mac).map .macByte ++ [.interfaceEnd e.name] else []
      | _ => []

/-- `getAdapterInfos`, src/library/os/linux/network.cpp:46-115. -/
def getAdapterInfosSays (d : LinuxDebug) (o : Os) : Says (FuncRet × List Adapter) :=
  ⟨match o.net.ifaddrs with
    | none => []
    | some es => es.flatMap (interfaceMessages d), o.machine.adapters⟩

/-! ## src/library/os/linux/os_linux.cpp -/

def byUuidDir : Bytes := b!"/dev/disk/by-uuid"

/-- One entry in the loop of `getDiskInfos_dev`, src/library/os/linux/os_linux.cpp:203-244 (`addUuidEntry`). -/
def addUuidEntrySays (d : LinuxDebug) (e : UuidEntry) (ds : List Disk) (m : UuidMap) : Says (List Disk × UuidMap) :=
  if skippedName e.name then pure (ds, m)
  else
    let path := byUuidDir ++ [47] ++ e.name
    match e.inode with
    | none => do
      let _ ← say (.uuidStat (d.stat path) path)
      return (ds, m)
    | some ino =>
      match e.link with
      | none => do
        let _ ← say (.readlink (d.readlink path) path)
        return (ds, m)
      | some link => do
        let sn ← silent (parseUuid e.name)
        let x : Disk := ⟨ino, (baseName link).take 1023, sn, true, [], false, false⟩
        let m := m.insert e.name ino
        if ds.any (fun x => x.id = ino) then return (ds, m)
        else do
          let _ ← say (.diskFound ino x.device e.name)
          return (ds ++ [x], m)

/-- The loop of `getDiskInfos_dev`, src/library/os/linux/os_linux.cpp:202-244 (`uuidLoop`). -/
def uuidLoopSays (d : LinuxDebug) : List UuidEntry → List Disk → UuidMap → Says (List Disk × UuidMap)
  | [], ds, m => pure (ds, m)
  | e :: es, ds, m =>
    if ds.length < 40 then do
      let (ds, m) ← addUuidEntrySays d e ds m
      uuidLoopSays d es ds m
    else pure (ds, m)

/-- The loop of `read_disk_labels`, src/library/os/linux/os_linux.cpp:163-182 (`labelLoop`): its messages. -/
def labelMessages (d : LinuxDebug) (dir : Bytes) : List LabelEntry → List Disk → List Message
  | [], _ => []
  | e :: es, ds =>
    if e.name = b!"." ∨ e.name = b!".." then labelMessages d dir es ds
    else
      match e.inode with
      | some ino =>
        match ds.find? (fun x => x.id = ino) with
        | some x => .labelSet ino x.device (e.name.take 254) :: labelMessages d dir es ds
        | none => labelMessages d dir es ds
      | none => .labelStat (dir ++ [47] ++ e.name) (d.stat (dir ++ [47] ++ e.name)) :: labelMessages d dir es ds

/-- The messages of `read_disk_labels`, src/library/os/linux/os_linux.cpp:153-188. -/
def readDiskLabelsMessages (d : LinuxDebug) (h : DiskHost) (ds : List Disk) : List Message :=
  match h.byLabel with
  | some es => labelMessages d (b!"/dev/disk/by-label") es ds
  | none =>
    match h.byPartLabel with
    | some es => labelMessages d (b!"/dev/disk/by-partlabel") es ds
    | none => [.labelOpen (b!"/dev/disk/by-partlabel") (d.opendir (b!"/dev/disk/by-partlabel"))]

/-- The directory of the disks, src/library/os/linux/os_linux.cpp:197-246. -/
def openUuid (d : LinuxDebug) (h : DiskHost) : Says (List Disk × UuidMap) :=
  match h.byUuid with
  | some es => uuidLoopSays d es [] []
  | none => do
    let _ ← say (.uuidOpen (d.opendir byUuidDir))
    return ([], [])

/-- `getDiskInfos_dev`, src/library/os/linux/os_linux.cpp:190-251. -/
def getDiskInfosDevSays (d : LinuxDebug) (h : DiskHost) : Says (FuncRet × List Disk × UuidMap) := do
  let (ds, m) ← openUuid d h
  let r := if ds.length > 0 then FuncRet.ok else .notAvail
  let _ ← (⟨readDiskLabelsMessages d h ds, .ok ()⟩ : Says Unit)
  return (r, readDiskLabels h ds, m)

/-- What the search for a label says, src/library/os/linux/os_linux.cpp:287-293. -/
def labelFound (l : Bytes) (ds : List Disk) : List Message :=
  match ds.find? (fun x => l = x.label) with
  | some x => [.preferredLabel x.id x.device]
  | none => []

/-- One fstab entry, src/library/os/linux/os_linux.cpp:267-309 (`markEntry`).  Simplification: if the search for a label looks at one that was
    never written, it says nothing (it is undefined). -/
def markEntrySays (m : UuidMap) (fsname : Bytes) (ds : List Disk) : Says (List Disk) := do
  let _ ← say (.fstabEntry fsname)
  if (b!"UUID=").isPrefixOf fsname then
    match m.find? (fsname.drop 5) with
    | some id =>
      let _ ← (⟨match ds.find? (fun x => x.id = id) with
        | some x => [.preferredUuid x.id x.device]
        | none => [], .ok ()⟩ : Says Unit)
      return updateFirst (fun x => x.id = id) (fun x => { x with preferred := true }) ds
    | none =>
      let _ ← say (.fstabNoDisk fsname)
      return ds
  else if (b!"LABEL=").isPrefixOf fsname then
    let ds' ← silent (markLabel (fsname.drop 6) ds)
    let _ ← (⟨labelFound (fsname.drop 6) ds, .ok ()⟩ : Says Unit)
    return ds'
  else
    let _ ← (⟨match ds.find? (fun x => baseName fsname = x.device) with
      | some x => [.preferredDevice x.id x.device]
      | none => [], .ok ()⟩ : Says Unit)
    return ds

/-- The loop of `set_preferred_disks`. -/
def markEntriesSays (m : UuidMap) : List Bytes → List Disk → Says (List Disk)
  | [], ds => pure ds
  | e :: es, ds => do
    let ds ← markEntrySays m e ds
    markEntriesSays m es ds

/-- `set_preferred_disks`, src/library/os/linux/os_linux.cpp:259-313. -/
def setPreferredDisksSays (h : DiskHost) (ds : List Disk) (m : UuidMap) : Says (List Disk) :=
  match h.fstab with
  | some es => markEntriesSays m es ds
  | none => do
    let _ ← say .fstab
    return ds

/-- `getDiskInfos`, src/library/os/linux/os_linux.cpp:322-334. -/
def getDiskInfosSays (d : LinuxDebug) (h : DiskHost) : Says (FuncRet × List Disk) := do
  let (r, ds, m) ← getDiskInfosDevSays d h
  let (r, ds, m) ← if r ≠ .ok then silent (getDiskInfosBlkid h ds m) else pure (r, ds, m)
  if r = .ok then do
    let ds ← setPreferredDisksSays h ds m
    return (r, ds)
  else return (r, ds)

/-! ## src/library/os/linux/dmi_info.cpp -/

/-- The messages of `DmiInfo::DmiInfo`, src/library/os/linux/dmi_info.cpp:10-37.  Simplification: that about the third file is counted even if
    the second part is undefined. -/
def dmiMessages (d : LinuxDebug) (h : Host) : List Message :=
  (if h.sysVendor = none then [.biosVendor (d.file (b!"/sys/class/dmi/id/sys_vendor"))] else [])
  ++ (if h.modalias = none then [.modalias (d.file (b!"/sys/class/dmi/id/modalias"))] else [])
  ++ (if h.sysVendor = none then [.sysVendor (d.file (b!"/sys/class/dmi/id/sys_vendor"))] else [])

/-! ## The library -/

/-- The log. -/
def debugLog (l : Linux) (d : LinuxDebug) : Log := ⟨l.logOverruns, d.opens, d.now, d.dir⟩

/-- What the identification strategies call (`Os.machine`). -/
def debugMachine (l : Linux) (d : LinuxDebug) : Machine :=
  { l.os.machine with
    adapters := (getAdapterInfosSays d l.os).run (debugLog l d)
    disks := (getDiskInfosSays d l.disks).run (debugLog l d)
    exec := (⟨dmiMessages d l.host, execSummary l.host⟩ : Says _).run (debugLog l d) }

/-- What `acquire_license` sees (`Linux.world`).  The check of the signature has no messages for debugging. -/
def debugWorld (l : Linux) (d : LinuxDebug) : World := { l.world with machine := debugMachine l d }

/-- `acquire_license` of a debug build. -/
def acquireLinux (l : Linux) (d : LinuxDebug) (cfg : Config) (caller : Option Caller) (hint : Option LicenseLocation)
    (out : Option LicInfo) : Outcome AcquireResult :=
  LogDebug.acquire (debugLog l d) cfg (debugWorld l d) d.address caller hint out

/-- `identify_pc` of a debug build, src/library/licensecc.cpp:32-48, 55. -/
def identifyLinux (l : Linux) (d : LinuxDebug) (strategy : Int) (buf : Option Bytes) (bufSize : Nat) : Outcome IdentifyResult :=
  identifyPc (debugMachine l d) strategy buf bufSize

end Licensecc.LogDebug
