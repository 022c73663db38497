import Verif.Model.WinOs
import Verif.Model.WinSignature
import Verif.Model.Logger
import Verif.Model.Acquire
/-!
# The library on Windows: all the parts together
-/
namespace Licensecc.Win

/-- MAX_PATH of windows.h in src/library/os/windows/os_win.cpp and src/library/locate/ApplicationFolder.cpp. -/
def pathArray : Nat := 260

/-- `getModuleName`, src/library/os/windows/os_win.cpp:84-91.  `path` is the path of the executable, `none` if
    `GetModuleFileName` returns 0.  A path that does not fit is cut to MAX_PATH - 1 bytes and terminated, the call returns MAX_PATH
    (Windows Vista and later; Windows XP did not terminate it). -/
def getModuleName (path : Option Bytes) : Option Bytes := path.map (·.take (pathArray - 1))

/-- A Windows system and what it shows during a call. -/
structure Windows where
  net : Net
  drives : List Drive
  host : WinHost
  crypt : Bcrypt
  getenv : Bytes → Option Bytes
  /-- path of the executable -/
  exe : Option Bytes
  /-- directory for temporary files, as `GetTempPath` gives it -/
  tempPath : Option Bytes
  clock : Nat → Int
  mktime : Int → Int → Int → Int
  probe : Bytes → Bool
  read : Bytes → Option Bytes
  /-- the logger's static variables -/
  log : Logger.State
  junk : Event

/-- Does logging overrun, src/library/base/logger.cpp:38-43? -/
def Windows.logOverruns (l : Windows) : Bool := Logger.overrunsWin l.tempPath l.log

/-- What the hardware identification sees. -/
def Windows.os (l : Windows) : WinOs := ⟨l.net, l.drives, l.host, l.getenv (b!"IDENTIFICATION_STRATEGY"), l.logOverruns⟩

/-- What `acquire_license` sees: the functions of src/library/os/windows behind the interfaces
    src/library/os/{os.h,network.hpp,signature_verifier.hpp,execution_environment.hpp}. -/
def Windows.world (l : Windows) : World where
  clock := l.clock
  mktime := l.mktime
  verify := l.crypt.verify
  probe := l.probe
  read := l.read
  getenv := l.getenv
  moduleName := getModuleName l.exe
  machine := l.os.machine
  junk := l.junk
  platform := .windows

end Licensecc.Win
