import Verif.Spec.IniStore
/-!
# Specification for C78: documents cut short

What a document becomes when the file that holds it ends early.
-/
namespace Licensecc.Spec.IniFile
open Licensecc.Spec.IniStore (Doc DocSection DocKey)

/-- The first values, the last of them perhaps only in part. -/
def CutValues (part whole : List (Bytes × Option Bytes)) : Prop :=
  part <+: whole ∨ ∃ before v v' c rest, whole = before ++ (v, c) :: rest ∧ part = before ++ [(v', c)] ∧ v' <+: v

/-- The first keys, the last of them perhaps with values cut short. -/
def CutKeys (part whole : List DocKey) : Prop :=
  part <+: whole ∨ ∃ before k vs rest, whole = before ++ k :: rest ∧ part = before ++ [⟨k.name, vs⟩] ∧ vs ≠ [] ∧ CutValues vs k.values

/-- The first sections, the last of them perhaps with keys cut short. -/
def CutDoc (part whole : Doc) : Prop :=
  part <+: whole ∨ ∃ before s ks rest, whole = before ++ s :: rest ∧ part = before ++ [⟨s.name, s.comment, ks⟩] ∧ CutKeys ks s.keys

end Licensecc.Spec.IniFile
