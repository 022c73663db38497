import Verif.Model.Inspector
import Verif.Spec.Acquire
/-!
# Specification: what lccinspector should print
-/
namespace Licensecc.Spec

/-- The text of a good line. -/
def okText : Bytes := b!"license OK"

/-- The feature that the line about a section named `n` is about: names of 15 bytes and more are cut, and a byte follows that nobody
    has set. -/
def asked (cfg : Config) (n : Bytes) (lastByte : UInt8) : Bytes :=
  if n = [] then cfg.projectName
  else if n.length < 15 then n
  else if lastByte = 0 then n.take 15 else n.take 15 ++ [lastByte]

/-- An entry stands before the first section. -/
def EarlyEntry (t : Text) : Prop :=
  ∃ a b e ind key s1 s2 value s3, t = a ++ (.entry ind key s1 s2 value s3, e) :: b ∧ ∀ n, Ini.Item.header n ∉ Text.items a

/-- The file ends less than 14 bytes after the beginning of a section name. -/
def ShortEnd (t : Text) : Prop :=
  ∃ a b e ind pre name post junk, t = a ++ (.header ind pre name post junk, e) :: b
    ∧ (∀ n, Ini.Item.header n ∈ Text.items a → ¬ SameCI n name)
    ∧ (name ++ post ++ 93 :: junk ++ e ++ Text.render b).length < 14

/-- All headers are closed. -/
def Closed (t : Text) : Prop := Ini.Item.badHeader ∉ Text.items t

end Licensecc.Spec
