import Verif.Model.LogDebugLinux
import Verif.Model.LogDebugWin
import Verif.Model.InspectorWin
/-!
# `identify_pc` of a debug build, with the report on the execution environment
-/
namespace Licensecc.LogDebug

/-- `identify_pc` of a debug build on Linux, src/library/licensecc.cpp:32-56 (see `identifyPcEnv`): the first call constructs the static object
    (line 49), which has messages (src/library/os/linux/dmi_info.cpp:10-37). -/
def identifyReportLinux (l : Linux) (d : LinuxDebug) (cache : Option Env) (strategy : Int) (buf : Option Bytes) (bufSize : Nat) (info : Bool) :
    Outcome (IdentifyResult × Option EnvInfo × Option Env) := do
  let r ← identifyPc (debugMachine l d) strategy buf bufSize
  let e ← match cache with
    | some e => .ok e
    | none => (⟨dmiMessages d l.host, mkEnv l.host⟩ : Says _).run (debugLog l d)
  let i := if info then some ⟨cloudProvider e, virtualization l.host e, virtualizationDetail l.host e⟩ else none
  return (r, i, some e)

end Licensecc.LogDebug

namespace Licensecc.Win

/-- The same on Windows: only the identifier has messages, src/library/os/windows/os_win.cpp:29-82. -/
def Windows.identifyReportDebug (l : Windows) (d : DebugSystem) (cache : Option Env) (strategy : Int) (buf : Option Bytes) (bufSize : Nat)
    (info : Bool) : Outcome (IdentifyResult × Option EnvInfo × Option Env) :=
  Inspector.identifyPcWin (l.debugMachine d) l.host cache strategy buf bufSize info

end Licensecc.Win
