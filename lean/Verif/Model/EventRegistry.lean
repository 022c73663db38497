import Verif.Model.SortedMap
import Verif.Model.HwIdentifier
/-!
# Model of src/library/base/EventRegistry.cpp
-/
namespace Licensecc

/-- LCC_SEVERITY, include/licensecc/datatypes.h:53. -/
inductive Severity where
  | info | warn | error
  deriving DecidableEq, Repr

/-- The two systems the library is built for. -/
inductive Platform where
  | linux | windows
  deriving DecidableEq, Repr

/-- MAX_PATH, the size of the array `license_reference`: include/licensecc/datatypes.h:18-26 defines it for Linux, windows.h for
    Windows. -/
def Platform.maxPath : Platform → Nat
  | .linux => 1024
  | .windows => 260

/-- AuditEvent, include/licensecc/datatypes.h:55-63.  `ref` and `info` are the characters stored in the two arrays
    before the terminator (`ref` has no terminator when it is MAX_PATH bytes long). -/
structure Event where
  severity : Severity
  type : EventType
  ref : Bytes
  info : Bytes
  deriving DecidableEq, Repr

/-- PROGRESS_BY_EVENT_TYPE, src/library/base/EventRegistry.cpp:21-22. -/
def progress : EventType → Option Int
  | .specified => some 0
  | .found => some 1
  | .productFound => some 2
  | .signatureVerified => some 3
  | .licenseOk => some 4
  | _ => none

/-- Class `EventRegistry`, src/library/base/EventRegistry.h:24-38, compiled for `platform`. -/
structure Registry where
  logs : List Event
  adv : SMap Nat
  step : Int
  platform : Platform := .linux
  deriving DecidableEq, Repr

namespace Registry

/-- Constructor, src/library/base/EventRegistry.cpp:24. -/
def empty (p : Platform := .linux) : Registry := ⟨[], [], -1, p⟩

/-- The bytes up to the first NUL: what a `const char*` obtained by `c_str()` denotes. -/
def cstr (s : Bytes) : Bytes := s.takeWhile (· ≠ 0)

/-- Conversion of `audit.license_reference` to `std::string` (map key): undefined when the array holds no terminator. -/
def keyOf (p : Platform) (e : Event) : Outcome Bytes := if e.ref.length < p.maxPath then .ok e.ref else .ub

/-- The event built by `addEvent`, src/library/base/EventRegistry.cpp:88-103 (`strncpy` with bounds MAX_PATH and 255;
    a null pointer reference becomes "UNDEF", a null info the empty string). -/
def mkEvent (p : Platform) (t : EventType) (ref : Option Bytes) (info : Option Bytes) : Event where
  severity := if (progress t).isSome then .info else .warn
  type := t
  ref := match ref with
    | none => b!"UNDEF"
    | some r => (cstr r).take p.maxPath
  info := match info with
    | none => []
    | some i => (cstr i).take 255

/-- `addEvent`, src/library/base/EventRegistry.cpp:83-118. -/
def addEvent (r : Registry) (t : EventType) (ref : Option Bytes) (info : Option Bytes := none) : Outcome Registry :=
  let e := mkEvent r.platform t ref info
  let logs := r.logs ++ [e]
  match progress t with
  | some s =>
      let adv := if s > r.step then [] else r.adv
      let step := if s > r.step then s else r.step
      if s = step then do
        let k ← keyOf r.platform e
        return ⟨logs, SMap.insert k (logs.length - 1) adv, step, r.platform⟩
      else .ok ⟨logs, adv, step, r.platform⟩
  | none => do
      let k ← keyOf r.platform e
      match SMap.find? k r.adv with
      | some _ => return ⟨logs, SMap.insert k (logs.length - 1) r.adv, r.step, r.platform⟩
      | none => return ⟨logs, r.adv, r.step, r.platform⟩

/-- `append`, src/library/base/EventRegistry.cpp:51-53. -/
def append (r other : Registry) : Registry := { r with logs := r.logs ++ other.logs }

/-- `operator<<(EventRegistry&, AuditEvent&)`, src/library/base/EventRegistry.cpp:26-29. -/
def push (r : Registry) (e : Event) : Registry := { r with logs := r.logs ++ [e] }

/-- First loop of `getLastFailure`, src/library/base/EventRegistry.cpp:62-68: the first entry of the map, in key
    order, whose event has error severity.  `logs[i]` out of range is undefined. -/
def findAdvError (logs : List Event) : SMap Nat → Outcome (Option Event)
  | [] => .ok none
  | (_, i) :: m => match logs[i]? with
      | none => .ub
      | some e => if e.severity = .error then .ok (some e) else findAdvError logs m

/-- `getLastFailure`, src/library/base/EventRegistry.cpp:55-81. -/
def getLastFailure (r : Registry) : Outcome (Option Event) :=
  if r.logs.length = 0 then .ok none
  else do
    match ← findAdvError r.logs r.adv with
    | some e => return some e
    | none => return r.logs.reverse.find? (fun e => e.severity = .error)

/-- First loop of `turnWarningsIntoErrors`, src/library/base/EventRegistry.cpp:122-130: new log and `eventFound`. -/
def warnAdv : List Event → SMap Nat → Bool → Outcome (List Event × Bool)
  | logs, [], found => .ok (logs, found)
  | logs, (_, i) :: m, found => match logs[i]? with
      | none => .ub
      | some e =>
        if e.severity = .warn ∨ e.severity = .error
        then warnAdv (logs.set i { e with severity := .error }) m true
        else warnAdv logs m found

/-- `turnWarningsIntoErrors`, src/library/base/EventRegistry.cpp:120-140. -/
def turnWarningsIntoErrors (r : Registry) : Outcome (Registry × Bool) := do
  let (logs, found) ← warnAdv r.logs r.adv false
  if found then return ({ r with logs := logs }, true)
  else return ({ r with logs := logs.map fun e => if e.severity = .warn then { e with severity := .error } else e },
    logs.any fun e => e.severity = .warn)

/-- `turnErrorsIntoWarnings`, src/library/base/EventRegistry.cpp:142-151. -/
def turnErrorsIntoWarnings (r : Registry) : Registry × Bool :=
  ({ r with logs := r.logs.map fun e => if e.severity = .error then { e with severity := .warn } else e },
    r.logs.any fun e => e.severity = .error)

/-- `exportLastEvents`, src/library/base/EventRegistry.cpp:153-156: the destination array after the copy (undefined if
    the array is too small; a negative count is undefined too and not modelled). -/
def exportLastEvents (r : Registry) (dst : List Event) (nlogs : Nat) : Outcome (List Event) :=
  let n := min nlogs r.logs.length
  if n ≤ dst.length then .ok (r.logs.drop (r.logs.length - n) ++ dst.drop n) else .ub

/-- `isGood`, src/library/base/EventRegistry.cpp:158. -/
def isGood (r : Registry) : Outcome Bool := do return (← r.getLastFailure).isNone

end Registry
end Licensecc
