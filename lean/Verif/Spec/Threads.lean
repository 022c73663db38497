import Verif.Model.Threads
import Verif.Spec.Linux
/-!
# Specification: calls in several threads

Executions are interleavings of the threads' accesses to shared memory.
-/
namespace Licensecc.Threads
open Licensecc.Spec

/-- One step: some thread reads or writes a cell. -/
inductive Step {α : Type} : Shared → (Nat → Prog α) → Shared → (Nat → Prog α) → Prop
  | read {s : Shared} {ts : Nat → Prog α} {c : Cell} {k : Option Bytes → Prog α} (i : Nat) : ts i = .read c k →
      Step s ts s (fun j => if j = i then k (s c) else ts j)
  | write {s : Shared} {ts : Nat → Prog α} {c : Cell} {v : Option Bytes} {p : Prog α} (i : Nat) : ts i = .write c v p →
      Step s ts (s.set c v) (fun j => if j = i then p else ts j)

/-- Any number of steps, in any order of the threads. -/
inductive Steps {α : Type} : Shared → (Nat → Prog α) → Shared → (Nat → Prog α) → Prop
  | refl {s : Shared} {ts : Nat → Prog α} : Steps s ts s ts
  | step {s s1 s2 : Shared} {ts ts1 ts2 : Nat → Prog α} : Steps s ts s1 ts1 → Step s1 ts1 s2 ts2 → Steps s ts s2 ts2

/-- An access to shared memory. -/
structure Access where
  cell : Cell
  write : Bool
  deriving DecidableEq, Repr

/-- Two accesses conflict: the same cell, and one of them writes. -/
def Access.Conflicts (a b : Access) : Prop := a.cell = b.cell ∧ (a.write = true ∨ b.write = true)

/-- The access a thread makes next. -/
def Prog.next {α : Type} : Prog α → Option Access
  | .ret _ => none
  | .read c _ => some ⟨c, false⟩
  | .write c _ _ => some ⟨c, true⟩

/-- A data race: conflicting accesses of two threads are both next. -/
def DataRace {α : Type} (ts : Nat → Prog α) : Prop :=
  ∃ i j a b, i ≠ j ∧ (ts i).next = some a ∧ (ts j).next = some b ∧ a.Conflicts b

/-- A data race can happen: in C++, undefined behaviour. -/
def CanRace {α : Type} (s : Shared) (ts : Nat → Prog α) : Prop := ∃ s' ts', Steps s ts s' ts' ∧ DataRace ts'

/-- The call made alone. -/
def Call.alone : Call → Outcome Result
  | .acquire cfg v caller hint out => do return .acquired (← Licensecc.acquire cfg v.sys.world caller hint out)
  | .identify v strategy buf size => do return .identified (← identifyPc v.sys.os.machine strategy buf size)

/-- The computer a call is made on. -/
def Call.view : Call → View
  | .acquire _ v _ _ _ => v
  | .identify v _ _ _ => v

/-- The licence texts whose signature is verified: complete ones for the feature asked for. -/
def Verified (cfg : Config) (v : View) (caller : Option Caller) (hint : Option LicenseLocation) (f text : Bytes) : Prop :=
  FeatureIs cfg caller f ∧ (∃ src, Offers cfg v.sys.world hint src text) ∧ Complete f text

/-- No licence looked at begins or expires while the call lasts, whenever the clock is read; otherwise the clock may go as it likes. -/
def Call.Steady : Call → Prop
  | .acquire cfg v caller hint out => ∀ res, Licensecc.acquire cfg v.sys.world caller hint out = .ok res →
      ∀ f text, Verified cfg v caller hint f text → ∀ k < res.ticks,
      (NotExpired v.sys.world f text (v.sys.clock k) ∧ Started v.sys.world f text (v.sys.clock k)
        ↔ NotExpired v.sys.world f text (v.sys.clock 0) ∧ Started v.sys.world f text (v.sys.clock 0))
  | .identify .. => True

/-- The call works if it is made alone: it returns, the path of the log file fits (C59), and no licence begins or expires meanwhile. -/
structure Call.Works (c : Call) : Prop where
  returns : ∃ r, c.alone = .ok r
  tmpdir : ∀ d, c.view.sys.getenv (b!"TMPDIR") = some d → d.length < 238
  clock : c.Steady

/-- The hardware identifiers that are checked: those of signed licences in force. -/
def HardwareChecked (cfg : Config) (v : View) (caller : Option Caller) (hint : Option LicenseLocation) (id : Bytes) : Prop :=
  ∃ f text, Verified cfg v caller hint f text ∧ Signed v.sys.world f text ∧ magicOf caller = cfg.magic
    ∧ NotExpired v.sys.world f text (v.sys.clock 0) ∧ Started v.sys.world f text (v.sys.clock 0)
    ∧ IsLimit (entriesFor f text) (b!"client-signature") id

/-- Checking a hardware identifier meets an error: it is no identifier, its strategy does not exist, the network interfaces cannot be
    listed or the disks cannot. -/
def HardwareTrouble (l : Linux) (id : Bytes) : Prop :=
  (∃ e, HwId.ofString id = .throw e)
  ∨ ∃ h, HwId.ofString id = .ok h ∧ (3 ≤ h.strategy ∨ ((h.strategy = 0 ∨ h.strategy = 1) ∧ l.net.ifaddrs = none)
      ∨ (h.strategy = 2 ∧ ∃ e, getDiskInfos l.disks = .throw e))

/-- /etc/fstab is read when the disks are listed. -/
def ListsDisks (l : Linux) : Prop := l.disks.fstab ≠ none ∧ ∃ ds, getDiskInfos l.disks = .ok (.ok, ds)

/-- The call verifies a signature. -/
def Call.Verifies : Call → Prop
  | .acquire cfg v caller hint _ => ∃ f text, Verified cfg v caller hint f text
  | .identify .. => False

/-- The call writes to the log: acquire_license if the executable's path cannot be read, if a signature is wrong, or if a hardware
    identifier meets an error; identify_pc if it fails though the buffer is large enough, or does not know the strategy in the
    environment variable. -/
def Call.Logs : Call → Prop
  | .acquire cfg v caller hint _ => (cfg.nearModule = true ∧ v.sys.exe = none)
      ∨ (∃ f text, Verified cfg v caller hint f text ∧ ¬ Signed v.sys.world f text)
      ∨ ∃ id, HardwareChecked cfg v caller hint id ∧ HardwareTrouble v.sys id
  | .identify v strategy buf size => (∃ mem, buf = some mem) ∧ 19 < size
      ∧ (VariableUnknown (v.sys.getenv (b!"IDENTIFICATION_STRATEGY")) strategy
        ∨ ∃ n mem, identifyPc v.sys.os.machine strategy buf size = .ok ⟨false, n, mem⟩)

/-- The call reads /etc/fstab: acquire_license for a disk identifier, identify_pc with the disk strategy or with the default strategy on
    bare metal. -/
def Call.ReadsFstab : Call → Prop
  | .acquire cfg v caller hint _ => ListsDisks v.sys
      ∧ ∃ id h, HardwareChecked cfg v caller hint id ∧ HwId.ofString id = .ok h ∧ h.strategy = 2
  | .identify v strategy buf size => (∃ mem, buf = some mem) ∧ 19 < size ∧ ListsDisks v.sys
      ∧ ∃ n used, StrategyUsed (v.sys.getenv (b!"IDENTIFICATION_STRATEGY")) strategy n used
        ∧ (n = 2 ∨ n = -1 ∧ ∃ e, execSummary v.sys.host = .ok e ∧ e.virtualization = .none)

/-- The call on a computer where the log file is open already, or not. -/
def Call.withLog (p : Option Bytes) : Call → Call
  | .acquire cfg v caller hint out => .acquire cfg { v with sys := { v.sys with log := ⟨p, v.sys.log.files⟩ } } caller hint out
  | .identify v strategy buf size => .identify { v with sys := { v.sys with log := ⟨p, v.sys.log.files⟩ } } strategy buf size

/-- Some call of each of two different threads has the property. -/
def InTwoThreads (ts : Nat → List Call) (p : Call → Prop) : Prop :=
  ∃ i j, i ≠ j ∧ (∃ c ∈ ts i, p c) ∧ (∃ c ∈ ts j, p c)

end Licensecc.Threads
