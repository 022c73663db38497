import Verif.Spec.IniStore
/-!
# Specification for C88: changes that are refused memory
-/
namespace Licensecc.Spec.IniScarce
open Licensecc.Spec.IniStore

/-- What may be left of a change when memory runs out: nothing; of setting a key also its section, without the key; of replacing all values of
    a key by one, where several are allowed, also that the old values are gone. -/
inductive Remains (multi : Bool) : Change → List Change → Prop
  | nothing (c : Change) : Remains multi c []
  | onlySection (s k v : Bytes) (c : Option Bytes) (force : Bool) : Remains multi (.set s k v c force) [.addSection s none]
  | onlyDeletion (s k v : Bytes) (c : Option Bytes) : multi = true → Remains multi (.set s k v c true) [.delete s (some k) false]

/-- The changes really made, the newest first, when some of a history ended with an exception (`false`). -/
inductive Made (multi : Bool) : List (Change × Bool) → List Change → Prop
  | start : Made multi [] []
  | done {h m} (c : Change) : Made multi h m → Made multi ((c, true) :: h) (c :: m)
  | refused {h m r} (c : Change) : Made multi h m → Remains multi c r → Made multi ((c, false) :: h) (r ++ m)

end Licensecc.Spec.IniScarce
