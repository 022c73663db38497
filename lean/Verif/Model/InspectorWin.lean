import Verif.Model.InspectorMain
import Verif.Model.Windows
/-!
# Model of `main` of lccinspector on Windows, src/inspector/inspector.cpp:85-162
-/
namespace Licensecc.Inspector
open Licensecc

/-- `identify_pc` on Windows, src/library/licensecc.cpp:32-56 (see `identifyPcEnv`). -/
def identifyPcWin (m : Machine) (h : Win.WinHost) (cache : Option Env) (strategy : Int) (buf : Option Bytes) (bufSize : Nat) (info : Bool) :
    Outcome (IdentifyResult × Option EnvInfo × Option Env) := do
  let r ← identifyPc m strategy buf bufSize
  let e ← match cache with
    | some e => .ok e
    | none => h.mkEnv
  let i := if info then some ⟨cloudProvider e, virtualization h.common e, virtualizationDetail h.common e⟩ else none
  return (r, i, some e)

/-- The loop over the strategies, src/inspector/inspector.cpp:89-96 (see `identifyLoop`). -/
def identifyLoopWin (m : Machine) (h : Win.WinHost) : List (Int × Bytes) → Bytes → Nat → Option Env → Option EnvInfo →
    Outcome (List (Bytes × Bytes) × Option EnvInfo)
  | [], _, _, _, info => .ok ([], info)
  | (n, label) :: ss, mem, size, cache, _ => do
    let (r, info, cache) ← identifyPcWin m h cache n (some mem) size true
    let mem := r.buf.getD mem
    let text := if r.ret then mem.takeWhile (· ≠ 0) else b!" NA"
    let (lines, info) ← identifyLoopWin m h ss mem r.bufSize cache info
    return ((label, text) :: lines, info)

/-- First part of `main`, src/inspector/inspector.cpp:86-99: `mem` is what the uninitialised array of 20 bytes holds. -/
def identifyLinesWin (m : Machine) (h : Win.WinHost) (mem : Bytes) : Outcome (List (Bytes × Bytes)) := do
  let (lines, info) ← identifyLoopWin m h strategies mem 20 none none
  match info with
  | none => .ub
  | some i => do
    let a ← lookup (descByVirt i.virtualization)
    let b ← lookup (descByVirtDetail i.detail)
    let c ← lookup (descByCloudProvider i.provider)
    return lines ++ [(b!"Virtualiz. class ", a), (b!"Virtualiz. detail", b), (b!"Cloud provider   ", c)]

/-- `main` on Windows.  Nothing on the way of `getAdapterInfos` logs there (src/library/os/windows/network.cpp). -/
def mainWin (cfg : Config) (l : Win.Windows) (c : Cpu) (mem : Bytes) (arg : Option Bytes) (files : Nat → Bytes → Option Run) :
    Outcome Printed := do
  let h := l.host.WithCpu c
  let ident ← identifyLinesWin { l with host := h }.os.machine h mem
  let net ← l.net.getAdapterInfosNamed
  let d ← Win.winDmiInfo h.raw
  let lic ← licencePart cfg arg (l.getenv (b!"LICENSE_LOCATION")) files
  return ident.map (fun p => (.out, p.1 ++ b!":" ++ p.2)) ++ networkPart net
    ++ cpuPart (Win.cpuVendor c) (Win.cpuBrand c) (Win.hypervisorSet c) (Win.cpuModel c)
    ++ dmiPart ⟨d.biosVendor, d.biosDescription, d.sysVendor⟩ d.cpuManufacturer d.cores
    ++ [(.out, b!"==================")] ++ lic

end Licensecc.Inspector
