import Verif.Model.EventRegistry
/-!
# Specification of the event registry

Stages of the validation of a licence, the operations a registry can go through, and which event of a licence counts
as its most advanced one, all written on the plain log of events.
-/
namespace Licensecc.Spec

/-- How far a licence has come when the event is recorded; failures are no progress. -/
def stage (t : EventType) : Option Int :=
  if t = .specified then some 0
  else if t = .found then some 1
  else if t = .productFound then some 2
  else if t = .signatureVerified then some 3
  else if t = .licenseOk then some 4
  else none

/-- A failure is any event that is no progress. -/
def IsFailure (t : EventType) : Prop := stage t = none

/-- Room for a reference and its terminator in an audit event: 1024 bytes on Linux, 260 on Windows. -/
def pathRoom : Platform → Nat
  | .linux => 1024
  | .windows => 260

/-- Histories of a registry: `History added r` says that `r` results from some sequence of operations, and that the
    types of the events added with `addEvent` were, in order, `added`. -/
inductive History : List EventType → Registry → Prop
  | empty (p : Platform) : History [] (Registry.empty p)
  | add {l r r' t ref info} : History l r → r.addEvent t ref info = .ok r' → History (l ++ [t]) r'
  | append {l r l' o} : History l r → History l' o → History l (r.append o)
  | push {l r} (e : Event) : History l r → History l (r.push e)
  | toErrors {l r r' b} : History l r → r.turnWarningsIntoErrors = .ok (r', b) → History l r'
  | toWarnings {l r} : History l r → History l r.turnErrorsIntoWarnings.1

/-- Histories that only add events. -/
inductive AddHistory : Registry → Prop
  | empty (p : Platform) : AddHistory (Registry.empty p)
  | add {r r' t ref info} : AddHistory r → r.addEvent t ref info = .ok r' → AddHistory r'

/-- `s` is the furthest stage recorded in the log. -/
def Furthest (logs : List Event) (s : Int) : Prop :=
  (∃ e ∈ logs, stage e.type = some s) ∧ ∀ e ∈ logs, ∀ s', stage e.type = some s' → s' ≤ s

/-- Event number `j` brings licence `k` to stage `s`. -/
def ReachesAt (logs : List Event) (s : Int) (k : Bytes) (j : Nat) : Prop :=
  ∃ e, logs[j]? = some e ∧ e.ref = k ∧ stage e.type = some s

/-- Event number `i` is one of licence `k` at stage `s`: it brings it there, or it is a failure recorded later. -/
def CountsAt (logs : List Event) (s : Int) (k : Bytes) (i : Nat) : Prop :=
  ReachesAt logs s k i ∨
    ∃ e, logs[i]? = some e ∧ e.ref = k ∧ stage e.type = none ∧ ∃ j, j < i ∧ ReachesAt logs s k j

/-- Event number `i` is the last one of licence `k` at stage `s`. -/
def LastAt (logs : List Event) (s : Int) (k : Bytes) (i : Nat) : Prop :=
  CountsAt logs s k i ∧ ∀ i', CountsAt logs s k i' → i' ≤ i

/-- Licence `k` reached the furthest stage of all, and the last thing recorded for it there is a failure. -/
def FailedFurthest (logs : List Event) (k : Bytes) (e : Event) : Prop :=
  ∃ s i, Furthest logs s ∧ LastAt logs s k i ∧ logs[i]? = some e ∧ IsFailure e.type

end Licensecc.Spec
