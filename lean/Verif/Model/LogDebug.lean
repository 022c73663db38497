import Verif.Model.LogTextWin
/-!
# The messages of debug builds

Without `NDEBUG` the macro `LOG_DEBUG` (src/library/base/logger.h:14-15) calls `_log`.  All its uses in the library are here, with the
format and the arguments as they are written there.  The functions that use it are modelled a second time, with it, in
Model/LogDebugWin and Model/LogDebugLinux.
-/
namespace Licensecc.LogDebug
open Licensecc LogText

/-- The uses of `LOG_DEBUG` in the library. -/
inductive Message where
  /-- src/library/licensecc.cpp:127-128: `er.to_string()` writes the pointer `this` on a stream (src/library/base/EventRegistry.cpp:47),
      `address` is what that gives -/
  | status (address : Bytes)
  /-- src/library/os/linux/network.cpp:78-81; `sa_family` -/
  | interface (name : Bytes) (family : Nat)
  /-- src/library/os/linux/network.cpp:97 -/
  | macByte (b : UInt8)
  /-- src/library/os/linux/network.cpp:99 -/
  | interfaceEnd (name : Bytes)
  /-- src/library/os/linux/os_linux.cpp:175.  Simplification, also for `diskFound`: `%d` is given `st_ino`, which has 64 bits; `ino` are
      the 32 bits that are printed on x86-64. -/
  | labelSet (ino : Int) (device label : Bytes)
  /-- src/library/os/linux/os_linux.cpp:181 -/
  | labelStat (path errno : Bytes)
  /-- src/library/os/linux/os_linux.cpp:186 -/
  | labelOpen (dir errno : Bytes)
  /-- src/library/os/linux/os_linux.cpp:199 -/
  | uuidOpen (errno : Bytes)
  /-- src/library/os/linux/os_linux.cpp:234 -/
  | diskFound (ino : Int) (device sn : Bytes)
  /-- src/library/os/linux/os_linux.cpp:239 -/
  | readlink (errno path : Bytes)
  /-- src/library/os/linux/os_linux.cpp:242 -/
  | uuidStat (errno path : Bytes)
  /-- src/library/os/linux/os_linux.cpp:262 -/
  | fstab
  /-- src/library/os/linux/os_linux.cpp:269 -/
  | fstabEntry (name : Bytes)
  /-- src/library/os/linux/os_linux.cpp:278 -/
  | preferredUuid (id : Int) (device : Bytes)
  /-- src/library/os/linux/os_linux.cpp:283 -/
  | fstabNoDisk (name : Bytes)
  /-- src/library/os/linux/os_linux.cpp:291 -/
  | preferredLabel (id : Int) (device : Bytes)
  /-- src/library/os/linux/os_linux.cpp:305 -/
  | preferredDevice (id : Int) (device : Bytes)
  /-- src/library/os/linux/dmi_info.cpp:15 -/
  | biosVendor (what : Bytes)
  /-- src/library/os/linux/dmi_info.cpp:25 -/
  | modalias (what : Bytes)
  /-- src/library/os/linux/dmi_info.cpp:35 -/
  | sysVendor (what : Bytes)
  /-- src/library/os/windows/signature_verifier.cpp:32-37; `text` is what `FormatMessage` stored -/
  | formatError (description text : Bytes) (status : Int)
  /-- src/library/os/windows/signature_verifier.cpp:160 -/
  | noKey
  /-- src/library/os/windows/signature_verifier.cpp:222 -/
  | noMemory
  /-- src/library/os/windows/network.cpp:133 -/
  | ethernet (name description : Bytes) (addressLength : Nat)
  /-- src/library/os/windows/os_win.cpp:52 -/
  | drive (root volume : Bytes) (serial : Nat) (fs : Bytes)
  /-- src/library/os/windows/os_win.cpp:65 -/
  | unreadable (root : Bytes)
  /-- src/library/os/windows/os_win.cpp:68 -/
  | notFixed (root : Bytes)
  /-- src/library/os/windows/os_win.cpp:78 -/
  | noDrive
  deriving DecidableEq, Repr

/-- An argument of `vfprintf`. -/
inductive Arg where
  | str (s : Bytes)
  | int (n : Int)
  /-- a number that is not negative -/
  | uint (n : Nat)
  deriving DecidableEq, Repr

/-- `vfprintf` for formats with `%s`, `%d`, `%x`, `%02x` and `%-8s`: anything else behind a `%`, or an argument of another kind, or none,
    counts as undefined.  `%x` for a `DWORD` and `%d` for a `UINT` (both have 32 bits there) count as right. -/
def printf : Bytes → List Arg → Outcome Bytes
  | [], _ => .ok []
  | 37 :: 115 :: f, .str s :: as => do return s.takeWhile (· ≠ 0) ++ (← printf f as)
  | 37 :: 100 :: f, .int n :: as => do return decimal n ++ (← printf f as)
  | 37 :: 120 :: f, .uint n :: as => do return Inspector.number 16 n ++ (← printf f as)
  | 37 :: 48 :: 50 :: 120 :: f, .uint n :: as => do
    return List.replicate (2 - (Inspector.number 16 n).length) 48 ++ Inspector.number 16 n ++ (← printf f as)
  | 37 :: 45 :: 56 :: 115 :: f, .str s :: as => do
    return s.takeWhile (· ≠ 0) ++ List.replicate (8 - (s.takeWhile (· ≠ 0)).length) 32 ++ (← printf f as)
  | c :: f, as => if c = 37 then .ub else do return c :: (← printf f as)

/-- The format given to `LOG_DEBUG`. -/
def Message.own : Message → Bytes
  | .status _ => b!"License status %s"
  | .interface _ _ => b!"%-8s %s (%d)\n"
  | .macByte _ => b!"%02x:"
  | .interfaceEnd _ => b!"\t %s\n"
  | .labelSet _ _ _ => b!"Label for disk ino %d device %s, set to %s"
  | .labelStat _ _ => b!"Stat %s for fail:F %s"
  | .labelOpen _ _ => b!"Open %s for reading disk labels fail: %s"
  | .uuidOpen _ => b!"Open /dev/disk/by-uuid fail: %s"
  | .diskFound _ _ _ => b!"Found disk inode %d device %s, sn %s"
  | .readlink _ _ => b!"Error %s during readlink of %s"
  | .uuidStat _ _ => b!"Error %s during stat of %s"
  | .fstab => b!"/etc/fstab not accessible"
  | .fstabEntry _ => b!"found fstab entry %s "
  | .preferredUuid _ _ | .preferredLabel _ _ | .preferredDevice _ _ => b!"Disk %d device %s set as preferred"
  | .fstabNoDisk _ => b!"fstab device %s found, but no corresponding diskInfo"
  | .biosVendor _ => b!"Can not read sys_vendor %s"
  | .modalias _ | .sysVendor _ => b!"Can not read bios_description %s"
  | .formatError _ _ _ => b!"error %s : %s %h"
  | .noKey => b!"Error reading public key"
  | .noMemory => b!"Error allocating memory"
  | .ethernet _ _ _ => b!"Ethernet found %s, %s, mac_l: %d"
  | .drive _ _ _ _ => b!"drive: %s,volume Name: %s, Volume Serial: 0x%x,Filesystem: %s"
  | .unreadable _ => b!"Unable to retrieve information of '%s'"
  | .notFixed _ => b!"This volume is not fixed : %s, type: %d"
  | .noDrive => b!"No fixed drive were detected"

/-- The name of an address family, src/library/os/linux/network.cpp:79-80 (AF_PACKET is 17, AF_INET 2, AF_INET6 10). -/
def familyName (n : Nat) : Bytes :=
  if n = 17 then b!"AF_PACKET" else if n = 2 then b!"AF_INET" else if n = 10 then b!"AF_INET6" else b!"???"

/-- The arguments given to `LOG_DEBUG`. -/
def Message.ownArgs : Message → List Arg
  | .status a => [.str a]
  | .interface n f => [.str n, .str (familyName f), .int f]
  | .macByte b => [.uint b.toNat]
  | .interfaceEnd n => [.str n]
  | .labelSet i d l => [.int i, .str d, .str l]
  | .labelStat p e => [.str p, .str e]
  | .labelOpen d e => [.str d, .str e]
  | .uuidOpen e => [.str e]
  | .diskFound i d s => [.int i, .str d, .str s]
  | .readlink e p => [.str e, .str p]
  | .uuidStat e p => [.str e, .str p]
  | .fstab => []
  | .fstabEntry n => [.str n]
  | .preferredUuid i d | .preferredLabel i d | .preferredDevice i d => [.int i, .str d]
  | .fstabNoDisk n => [.str n]
  | .biosVendor w | .modalias w | .sysVendor w => [.str w]
  | .formatError d t s => [.str d, .str t, .int s]
  | .noKey | .noMemory | .noDrive => []
  | .ethernet n d l => [.str n, .str d, .int l]
  | .drive r v s f => [.str r, .str v, .uint s, .str f]
  | .unreadable r => [.str r]
  | .notFixed r => [.str r]

/-- `__FILE__` below src/library (with `/`), and `__LINE__`. -/
def Message.place : Message → Bytes × Nat
  | .status _ => (b!"licensecc.cpp", 128)
  | .interface _ _ => (b!"os/linux/network.cpp", 78)
  | .macByte _ => (b!"os/linux/network.cpp", 97)
  | .interfaceEnd _ => (b!"os/linux/network.cpp", 99)
  | .labelSet _ _ _ => (b!"os/linux/os_linux.cpp", 175)
  | .labelStat _ _ => (b!"os/linux/os_linux.cpp", 181)
  | .labelOpen _ _ => (b!"os/linux/os_linux.cpp", 186)
  | .uuidOpen _ => (b!"os/linux/os_linux.cpp", 199)
  | .diskFound _ _ _ => (b!"os/linux/os_linux.cpp", 234)
  | .readlink _ _ => (b!"os/linux/os_linux.cpp", 239)
  | .uuidStat _ _ => (b!"os/linux/os_linux.cpp", 242)
  | .fstab => (b!"os/linux/os_linux.cpp", 262)
  | .fstabEntry _ => (b!"os/linux/os_linux.cpp", 269)
  | .preferredUuid _ _ => (b!"os/linux/os_linux.cpp", 278)
  | .fstabNoDisk _ => (b!"os/linux/os_linux.cpp", 283)
  | .preferredLabel _ _ => (b!"os/linux/os_linux.cpp", 291)
  | .preferredDevice _ _ => (b!"os/linux/os_linux.cpp", 305)
  | .biosVendor _ => (b!"os/linux/dmi_info.cpp", 15)
  | .modalias _ => (b!"os/linux/dmi_info.cpp", 25)
  | .sysVendor _ => (b!"os/linux/dmi_info.cpp", 35)
  | .formatError _ _ _ => (b!"os/windows/signature_verifier.cpp", 36)
  | .noKey => (b!"os/windows/signature_verifier.cpp", 160)
  | .noMemory => (b!"os/windows/signature_verifier.cpp", 222)
  | .ethernet _ _ _ => (b!"os/windows/network.cpp", 133)
  | .drive _ _ _ _ => (b!"os/windows/os_win.cpp", 52)
  | .unreadable _ => (b!"os/windows/os_win.cpp", 65)
  | .notFixed _ => (b!"os/windows/os_win.cpp", 68)
  | .noDrive => (b!"os/windows/os_win.cpp", 78)

/-- `LOG_DEBUG`, src/library/base/logger.h:15: the format. -/
def Message.format (m : Message) : Bytes := b!"[DEBUG] (%s:%d) " ++ m.own ++ b!"\n"

/-- `LOG_DEBUG`, src/library/base/logger.h:15: the arguments; `dir` is how the compiler was called for src/library. -/
def Message.args (dir : Bytes) (m : Message) : List Arg := [.str (dir ++ m.place.1), .int m.place.2] ++ m.ownArgs

/-- Lines 55-63 of `_log`, src/library/base/logger.cpp:55-63: what `vfprintf` writes; `now` is the time. -/
def Message.written (dir now : Bytes) (m : Message) : Outcome Bytes :=
  if now.length + m.format.length + 1 ≤ m.format.length + 64 then printf (now ++ m.format) (m.args dir) else .ub

/-- What the uses of the logger during a call meet. -/
structure Log where
  /-- does the path of the log file overrun its array (`Logger.overruns`, `Logger.overrunsWin`)? -/
  overruns : Bool
  /-- is the log file open, or can it be opened?  (Simplification: the same throughout a call.) -/
  opens : Bool
  /-- the time, src/library/base/logger.cpp:19-27 -/
  now : Bytes
  dir : Bytes

/-- `LOG_DEBUG`: `_log`, src/library/base/logger.cpp:46-64. -/
def tell (g : Log) (m : Message) : Outcome Unit :=
  if g.overruns then .ub
  else if g.opens then do
    let _ ← m.written g.dir g.now
    return ()
  else return ()

/-- One after the other. -/
def tellAll (g : Log) : List Message → Outcome Unit
  | [] => .ok ()
  | m :: ms => do
    let _ ← tell g m
    tellAll g ms

/-- `acquire_license`, src/library/licensecc.cpp:74-135, with lines 126-129.  Simplification: the message comes last; what it is preceded by
    in the model (lines 131-133) throws nothing. -/
def acquire (g : Log) (cfg : Config) (w : World) (address : Bytes) (caller : Option Caller) (hint : Option LicenseLocation)
    (out : Option LicInfo) : Outcome AcquireResult := do
  let x ← Licensecc.acquire cfg w caller hint out
  let _ ← tell g (.status address)
  return x

end Licensecc.LogDebug
