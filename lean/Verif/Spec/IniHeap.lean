import Verif.Spec.IniStore
/-!
# Specification of the memory of INI objects: calls, and which of them end the life of a string
-/
namespace Licensecc.Spec.IniHeap
open Spec.IniStore (Change)

/-- The calls that change an object. -/
inductive Action where
  /-- `SetValue`, `Delete` -/
  | change (c : Change)
  /-- `LoadData` -/
  | load (text : Bytes)
  /-- `Reset` -/
  | reset
  deriving DecidableEq

/-- After these calls, the newest first: does the object keep a text in which the strings of a first loading lie? The strings of further texts are
    copied. -/
def keepsText : List Action → Bool
  | [] => false
  | .change _ :: h => keepsText h
  | .load t :: h => decide (t ≠ []) || keepsText h
  | .reset :: _ => false

/-- May the call release the string that `GetValue` gave for this section and key? Deleting the key, or the section, or everything does; so does
    replacing the value if several values are allowed. Otherwise not even a new value does. -/
def Releases (multi : Bool) (s k : Bytes) : Action → Prop
  | .change (.set s' k' _ _ force) => multi = true ∧ force = true ∧ SameCI s' s ∧ SameCI k' k
  | .change (.addSection _ _) => False
  | .change (.delete s' none _) => SameCI s' s
  | .change (.delete s' (some k') _) => SameCI s' s ∧ SameCI k' k
  | .load _ => False
  | .reset => True

/-- The call brings no comment: no argument, and no text in which a comment could begin. -/
def NoComment : Action → Prop
  | .change (.set _ _ _ c _) => c = none
  | .change (.addSection _ c) => c = none
  | .change (.delete _ _ _) => True
  | .load t => ∀ b ∈ t, b ≠ 35 ∧ b ≠ 59
  | .reset => True

end Licensecc.Spec.IniHeap
