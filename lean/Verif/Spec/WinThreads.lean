import Verif.Model.WinThreads
import Verif.Spec.Threads
/-!
# Specification: calls in several threads on Windows

Steps, data races and results are those of Spec/Threads.
-/
namespace Licensecc.Win.Threads
open Licensecc.Spec
open Licensecc.Threads (Prog Shared Cell Result)

/-- The call made alone. -/
def Call.alone : Call → Outcome Result
  | .acquire cfg v caller hint out => do return .acquired (← Licensecc.acquire cfg v.sys.world caller hint out)
  | .identify v strategy buf size => do return .identified (← identifyPc v.sys.os.machine strategy buf size)

/-- The computer a call is made on. -/
def Call.view : Call → View
  | .acquire _ v _ _ _ => v
  | .identify v _ _ _ => v

/-- The path of the log file fits (C59). -/
def Call.LogFits (c : Call) : Prop := ∃ d, c.view.sys.tempPath = some d ∧ d.length < 244

/-- The licence texts whose signature is verified: complete ones for the feature asked for. -/
def Verified (cfg : Config) (v : View) (caller : Option Caller) (hint : Option LicenseLocation) (f text : Bytes) : Prop :=
  FeatureIs cfg caller f ∧ (∃ src, Offers cfg v.sys.world hint src text) ∧ Complete f text

/-- No licence looked at begins or expires while the call lasts, whenever the clock is read; otherwise the clock may go as it likes. -/
def Call.Steady : Call → Prop
  | .acquire cfg v caller hint out => ∀ res, Licensecc.acquire cfg v.sys.world caller hint out = .ok res →
      ∀ f text, Verified cfg v caller hint f text → ∀ k < res.ticks,
      (NotExpired v.sys.world f text (v.sys.clock k) ∧ Started v.sys.world f text (v.sys.clock k)
        ↔ NotExpired v.sys.world f text (v.sys.clock 0) ∧ Started v.sys.world f text (v.sys.clock 0))
  | .identify .. => True

/-- The call works if it is made alone. -/
structure Call.Works (c : Call) : Prop where
  returns : ∃ r, c.alone = .ok r
  fits : c.LogFits
  clock : c.Steady

/-- The hardware identifiers that are checked: those of signed licences in force. -/
def HardwareChecked (cfg : Config) (v : View) (caller : Option Caller) (hint : Option LicenseLocation) (id : Bytes) : Prop :=
  ∃ f text, Verified cfg v caller hint f text ∧ Signed v.sys.world f text ∧ magicOf caller = cfg.magic
    ∧ NotExpired v.sys.world f text (v.sys.clock 0) ∧ Started v.sys.world f text (v.sys.clock 0)
    ∧ IsLimit (entriesFor f text) (b!"client-signature") id

/-- A text that is no hardware identifier, or one with a strategy that does not exist. -/
def NoIdentifier (id : Bytes) : Prop :=
  (∃ e, HwId.ofString id = .throw e) ∨ ∃ h, HwId.ofString id = .ok h ∧ 3 ≤ h.strategy

/-- The call writes to the log: acquire_license if the executable's path cannot be found out or a malformed hardware identifier is
    checked; identify_pc if it fails though the buffer is large enough, or does not know the strategy in the environment variable. -/
def Call.Logs : Call → Prop
  | .acquire cfg v caller hint _ => (cfg.nearModule = true ∧ v.sys.exe = none)
      ∨ ∃ id, HardwareChecked cfg v caller hint id ∧ NoIdentifier id
  | .identify v strategy buf size => (∃ mem, buf = some mem) ∧ 19 < size
      ∧ (VariableUnknown (v.sys.getenv (b!"IDENTIFICATION_STRATEGY")) strategy
        ∨ ∃ n mem, identifyPc v.sys.os.machine strategy buf size = .ok ⟨false, n, mem⟩)

/-- Calls of two different threads write to the log. -/
def TwoLog (ts : Nat → List Call) : Prop := ∃ i j, i ≠ j ∧ (∃ c ∈ ts i, c.Logs) ∧ (∃ c ∈ ts j, c.Logs)

end Licensecc.Win.Threads
