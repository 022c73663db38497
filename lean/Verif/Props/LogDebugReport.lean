import Verif.Props.LogDebugLinux
import Verif.Model.LogDebugReport
/-!
# C87: `identify_pc` of a debug build with the report on the execution environment
-/
namespace Licensecc.LogDebug
open Licensecc Licensecc.Spec

theorem env_said (d : LinuxDebug) (h : Host) : WellSaid (⟨dmiMessages d h, mkEnv h⟩ : Says _) := dmi_said d h

theorem report_below (l : Linux) (d : LinuxDebug) (cache : Option Env) (strategy : Int) (buf : Option Bytes) (size : Nat) (info : Bool) :
    Below (identifyReportLinux l d cache strategy buf size info) (identifyPcEnv l.os.machine l.host cache strategy buf size info) := by
  unfold identifyReportLinux identifyPcEnv
  refine Below.bind (identify_below (linux_below l d) strategy buf size) fun r => ?_
  cases cache with
  | some e => exact .refl _
  | none => exact Below.bind (Says.run_below _ _) fun e => .refl _

theorem tellAll_overruns {g : Log} (ho : g.overruns = true) {ms : List Message} (h : ms ≠ []) : tellAll g ms = .ub := by
  cases ms with
  | nil => exact absurd rfl h
  | cons m ms =>
    rw [tellAll]
    unfold tell
    rw [ho]
    rfl

theorem dmiMessages_some (d : LinuxDebug) {h : Host} (hd : h.sysVendor = none ∨ h.modalias = none) : dmiMessages d h ≠ [] := by
  unfold dmiMessages
  rcases hd with hd | hd <;> rw [hd] <;> simp

/-- **C87**: the lines about the DMI data are exactly one for each attempt to read a file that fails: two for `sys_vendor`, which is read twice, the first and
    the last line, and one for `modalias`, each with what the exception says about that file; none if both can be read. -/
theorem C87_linux_dmi (d : LinuxDebug) (h : Host) :
    (h.sysVendor ≠ none → h.modalias ≠ none → dmiMessages d h = [])
    ∧ (h.sysVendor ≠ none → h.modalias = none → dmiMessages d h = [.modalias (d.file b!"/sys/class/dmi/id/modalias")])
    ∧ (h.sysVendor = none → h.modalias ≠ none →
        dmiMessages d h = [.biosVendor (d.file b!"/sys/class/dmi/id/sys_vendor"), .sysVendor (d.file b!"/sys/class/dmi/id/sys_vendor")])
    ∧ (h.sysVendor = none → h.modalias = none → dmiMessages d h = [.biosVendor (d.file b!"/sys/class/dmi/id/sys_vendor"),
        .modalias (d.file b!"/sys/class/dmi/id/modalias"), .sysVendor (d.file b!"/sys/class/dmi/id/sys_vendor")]) := by
  unfold dmiMessages
  refine ⟨?_, ?_, ?_, ?_⟩ <;> intro h1 h2 <;> simp [h1, h2]

variable {l : Linux} {d : LinuxDebug}

/-- **C87**: with the report on the execution environment, `identify_pc` of a debug build does on Linux exactly what it does in a release build, in
    the first call and in later ones, if the path of the log file fits in its array. -/
theorem C87_linux_report_same (hn : 37 ∉ d.now) (hl : d.now.length ≤ 63)
    (hfit : ¬ (l.log.logFile = none ∧ ∃ t, l.getenv (b!"TMPDIR") = some t ∧ 238 ≤ t.length)) (cache : Option Env) (strategy : Int)
    (buf : Option Bytes) (size : Nat) (info : Bool) :
    identifyReportLinux l d cache strategy buf size info = identifyPcEnv l.os.machine l.host cache strategy buf size info := by
  have ho : l.logOverruns = false := by
    rw [← Bool.not_eq_true]
    exact fun h => hfit ((Logger.overruns_iff _ _).mp h)
  unfold identifyReportLinux identifyPcEnv
  rw [linux_same hn hl ho, Says.run_well (g := debugLog l d) (env_said d l.host) hn hl ho]
  rfl

/-- **C87**: otherwise it does the same or is undefined. -/
theorem C87_linux_report (l : Linux) (d : LinuxDebug) (cache : Option Env) (strategy : Int) (buf : Option Bytes) (size : Nat) (info : Bool) :
    identifyReportLinux l d cache strategy buf size info = .ub
    ∨ identifyReportLinux l d cache strategy buf size info = identifyPcEnv l.os.machine l.host cache strategy buf size info :=
  report_below l d cache strategy buf size info

/-- **C87** (negation of "asking for the size has no effect beyond it"): with a long TMPDIR the first call crashes on a computer that does not show
    its DMI data, even one that is only to tell the size. -/
theorem C87_linux_report_tmpdir (hlog : l.log.logFile = none) {t : Bytes} (ht : l.getenv (b!"TMPDIR") = some t) (h : 238 ≤ t.length)
    (hd : l.host.sysVendor = none ∨ l.host.modalias = none) (strategy : Int) (buf : Option Bytes) (size : Nat) (info : Bool)
    (res : IdentifyResult × Option EnvInfo × Option Env) : identifyReportLinux l d none strategy buf size info ≠ .ok res := by
  have ho : (debugLog l d).overruns = true := (Logger.overruns_iff _ _).mpr ⟨hlog, t, ht, h⟩
  intro hr
  obtain ⟨r, _, hr⟩ := Outcome.bind_eq_ok.mp hr
  obtain ⟨e, he, _⟩ := Outcome.bind_eq_ok.mp hr
  unfold Says.run at he
  rw [tellAll_overruns ho (dmiMessages_some d hd)] at he
  cases he

/-- The first call that is only to tell the size, on a computer that does not show its DMI data, with a TMPDIR of 300 bytes: a crash in a debug
    build, the size in a release build. -/
def hiddenLinux : Linux := { longLinux with host := { sampleLinux.host with sysVendor := none, modalias := none } }

example : (identifyReportLinux hiddenLinux sampleDebugLinux none (-1) none 0 true matches .ub) = true
    ∧ (match identifyPcEnv hiddenLinux.os.machine hiddenLinux.host none (-1) none 0 true with
      | .ok (r, i, _) => decide (r.bufSize = 20) && i.isSome
      | _ => false) = true := by
  decide +kernel

example (cache : Option Env) (n : Int) : identifyReportLinux sampleLinux sampleDebugLinux cache n (some (List.replicate 20 0)) 20 true
    = identifyPcEnv sampleLinux.os.machine sampleLinux.host cache n (some (List.replicate 20 0)) 20 true :=
  C87_linux_report_same (by decide) (by decide) (fun ⟨_, t, h, _⟩ => by cases h) _ _ _ _ _

end Licensecc.LogDebug

namespace Licensecc.Win
open Licensecc.Spec LogDebug Spec
variable {l : Windows} {d : DebugSystem}

/-- **C87**: on Windows likewise, if the path of the log file fits and the first forty drives are fixed. -/
theorem C87_windows_report_same (hfit : LogFits l) (hn : 37 ∉ d.now) (hl : d.now.length ≤ 63) (hu : ¬ UnfixedDrive l) (cache : Option Env)
    (strategy : Int) (buf : Option Bytes) (size : Nat) (info : Bool) :
    l.identifyReportDebug d cache strategy buf size info = Inspector.identifyPcWin l.os.machine l.host cache strategy buf size info := by
  unfold Windows.identifyReportDebug
  rw [machine_same hn hl hfit hu]
  rfl

/-- **C87**: the report of a debug build is undefined wherever the identifier is: with a CD-ROM drive, a memory stick or a network drive. -/
theorem C87_windows_report_drive {strategy n : Int} {used : Bool} {mem : Bytes} {size : Nat}
    (hlog : Spec.Logs l d) (hn : 37 ∉ d.now) (hl : d.now.length ≤ 63) (hu : UnfixedDrive l)
    (hs : StrategyUsed (l.getenv (b!"IDENTIFICATION_STRATEGY")) strategy n used)
    (hk : n = 2 ∨ n = -1 ∧ ∃ e, l.host.execSummary = .ok e ∧ e.virtualization = .none) (hsize : 20 ≤ size) (cache : Option Env) (info : Bool) :
    l.identifyReportDebug d cache strategy (some mem) size info = .ub := by
  have h : identifyPc (l.debugMachine d) strategy (some mem) size = .ub := C87_windows_drive hlog hn hl hu hs hk hsize
  unfold Windows.identifyReportDebug Inspector.identifyPcWin
  rw [h]
  rfl

end Licensecc.Win
