import Verif.Model.Os
import Verif.Model.OpenSsl
import Verif.Model.Logger
import Verif.Model.Acquire
/-!
# The library on Linux: all the parts together
-/
namespace Licensecc

/-- MAX_PATH in src/library/os/linux/os_linux.cpp and src/library/locate/ApplicationFolder.cpp: include/licensecc/datatypes.h:21. -/
def pathArray : Nat := 1024

/-- `getModuleName`, src/library/os/linux/os_linux.cpp:360-378.  `link` is the target of /proc/PID/exe, `none` if it cannot be read;
    `buffer` is the caller's array (src/library/locate/ApplicationFolder.cpp:32).  `readlink` stores at most MAX_PATH - 1 bytes
    and no NUL.  The result is the C string in the array, `none` for FUNC_RET_ERROR.  Simplification: the name of the link in /proc
    (365-368) is the parameter. -/
def getModuleName (link : Option Bytes) (buffer : Bytes) : Outcome (Option Bytes) :=
  match link with
  | none => .ok none
  | some target =>
    let got := target.take (pathArray - 1)
    let path := got ++ List.replicate (pathArray - got.length) 0
    if got.length > pathArray then .ok none
    else do
      let (mem, _) ← mstrlcpy buffer path (got.length + 1)
      return some (mem.takeWhile (· ≠ 0))

/-- A Linux system and what it shows during a call. -/
structure Linux where
  net : NetHost
  disks : DiskHost
  host : Host
  ssl : OpenSsl
  getenv : Bytes → Option Bytes
  /-- target of /proc/PID/exe -/
  exe : Option Bytes
  clock : Nat → Int
  mktime : Int → Int → Int → Int
  probe : Bytes → Bool
  read : Bytes → Option Bytes
  /-- the logger's static variables -/
  log : Logger.State
  junk : Event

/-- Does logging overrun, src/library/base/logger.cpp:29-37? -/
def Linux.logOverruns (l : Linux) : Bool := Logger.overruns (l.getenv (b!"TMPDIR")) l.log

/-- What the hardware identification sees. -/
def Linux.os (l : Linux) : Os := ⟨l.net, l.disks, l.host, l.getenv (b!"IDENTIFICATION_STRATEGY"), l.logOverruns⟩

/-- The array `fname`, src/library/locate/ApplicationFolder.cpp:32. -/
def moduleArray : Bytes := List.replicate pathArray 0

/-- What `acquire_license` sees: the functions of src/library/os/linux and src/library/os/openssl behind the interfaces
    src/library/os/{os.h,network.hpp,signature_verifier.hpp,execution_environment.hpp}. -/
def Linux.world (l : Linux) : World where
  clock := l.clock
  mktime := l.mktime
  verify := { l.ssl with logOverruns := l.logOverruns }.verify
  probe := l.probe
  read := l.read
  getenv := l.getenv
  moduleName := match getModuleName l.exe moduleArray with
    | .ok r => r
    | _ => none
  machine := l.os.machine
  junk := l.junk
  platform := .linux

end Licensecc
