import Verif.Model.Resources
/-!
# Specification: everything taken is given back
-/
namespace Licensecc.Spec
open Resources

/-- What was taken and given back is in order: everything is given back after it was taken, in the way that belongs to its kind, and not
    twice; only the log file is kept, and it is opened at most once. -/
structure Orderly (es : List Ev) : Prop where
  takenOnce : ∀ {i j : Nat} {h : Nat} {k k' : Kind}, es[i]? = some (.took h k) → es[j]? = some (.took h k') → i = j
  givenOnce : ∀ {i j : Nat} {h : Nat} {k k' : Kind}, es[i]? = some (.gave h k) → es[j]? = some (.gave h k') → i = j
  takenBefore : ∀ {i : Nat} {h : Nat} {k : Kind}, es[i]? = some (.gave h k) → ∃ j, j < i ∧ es[j]? = some (.took h k)
  givenBack : ∀ {i : Nat} {h : Nat} {k : Kind}, es[i]? = some (.took h k) → k ≠ .logFile → ∃ j, i < j ∧ es[j]? = some (.gave h k)
  oneLog : ∀ {i j : Nat} {h h' : Nat}, es[i]? = some (.took h .logFile) → es[j]? = some (.took h' .logFile) → i = j

/-- How many things other than the log file are held after these events. -/
def load : List Ev → Int
  | [] => 0
  | .took _ k :: es => (if k = .logFile then 0 else 1) + load es
  | .gave _ k :: es => (if k = .logFile then 0 else -1) + load es

/-- A call of the library on Linux that does not run into undefined behaviour; it may end with an exception.  `s` and `s'` are the static
    variables before and after. -/
inductive LinuxCall : Store → List Ev → Store → Prop
  | acquire {l : Linux} {opens : Nat → Bool} {cfg : Config} {caller : Option Caller} {hint : Option LicenseLocation} {out : Option LicInfo}
      {s : Store} (log : l.log.logFile = none ↔ s.log = none)
      (defined : (Resources.acquire cfg (linuxHooks l opens) caller hint out s).result ≠ .ub) :
      LinuxCall s (Resources.acquire cfg (linuxHooks l opens) caller hint out s).trace (Resources.acquire cfg (linuxHooks l opens) caller hint out s).store
  | identify {l : Linux} {opens : Nat → Bool} {cache : Option Env} {strategy : Int} {buf : Option Bytes} {size : Nat} {info : Bool}
      {s : Store} (log : l.log.logFile = none ↔ s.log = none)
      (defined : (Resources.identify (linuxHooks l opens) cache strategy buf size info s).result ≠ .ub) :
      LinuxCall s (Resources.identify (linuxHooks l opens) cache strategy buf size info s).trace
        (Resources.identify (linuxHooks l opens) cache strategy buf size info s).store

/-- The same on Windows; a call of acquire_license that ends with a `length_error` is left out: see C72_windows_leak. -/
inductive WindowsCall : Store → List Ev → Store → Prop
  | acquire {l : Win.Windows} {first second : Bool} {opens : Nat → Bool} {cfg : Config} {caller : Option Caller}
      {hint : Option LicenseLocation} {out : Option LicInfo} {s : Store} (alloc : l.crypt.allocated = (first && second))
      (log : l.log.logFile = none ↔ s.log = none)
      (defined : (Resources.acquire cfg (windowsHooks l first second opens) caller hint out s).result ≠ .ub)
      (quiet : (Resources.acquire cfg (windowsHooks l first second opens) caller hint out s).result ≠ .throw .lengthError) :
      WindowsCall s (Resources.acquire cfg (windowsHooks l first second opens) caller hint out s).trace
        (Resources.acquire cfg (windowsHooks l first second opens) caller hint out s).store
  | identify {l : Win.Windows} {first second : Bool} {opens : Nat → Bool} {cache : Option Env} {strategy : Int} {buf : Option Bytes}
      {size : Nat} {info : Bool} {s : Store} (alloc : l.crypt.allocated = (first && second)) (log : l.log.logFile = none ↔ s.log = none)
      (defined : (Resources.identify (windowsHooks l first second opens) cache strategy buf size info s).result ≠ .ub) :
      WindowsCall s (Resources.identify (windowsHooks l first second opens) cache strategy buf size info s).trace
        (Resources.identify (windowsHooks l first second opens) cache strategy buf size info s).store

/-- Calls one after the other. -/
inductive Sequence (call : Store → List Ev → Store → Prop) : Store → List Ev → Store → Prop
  | start {s : Store} : Sequence call s [] s
  | after {s s' s'' : Store} {es es' : List Ev} : Sequence call s es s' → call s' es' s'' → Sequence call s (es ++ es') s''

/-- Before the first call. -/
def untouched : Store := ⟨0, none, 0⟩

end Licensecc.Spec
