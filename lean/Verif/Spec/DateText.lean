import Verif.Spec.Identify
/-!
# Which texts are read as dates
-/
namespace Licensecc.Spec

/-- A number field of width `w` at the start of `s`: white space (not counted), an optional sign, at least one digit; as many
    digits as there are, up to the width; `rest` follows. -/
def NumberField (w : Nat) (s : Bytes) (v : Int) (rest : Bytes) : Prop :=
  ∃ sp sign ds, s = sp ++ sign ++ ds ++ rest
    ∧ (∀ c ∈ sp, c ∈ [32, 9, 10, 11, 12, 13]) ∧ (∀ d ∈ ds, 48 ≤ d ∧ d ≤ 57) ∧ ds ≠ []
    ∧ sign.length + ds.length ≤ w
    ∧ (sign.length + ds.length = w ∨ ∀ c, rest.head? = some c → ¬ (48 ≤ c ∧ c ≤ 57))
    ∧ ((sign = [45] ∧ v = -(numeral ds : Int)) ∨ (sign = [43] ∧ v = numeral ds) ∨ (sign = [] ∧ v = numeral ds))

/-- Year, month and day directly one after the other; anything may follow. -/
def CompactDate (s : Bytes) (y m d : Int) : Prop :=
  ∃ r1 r2 r3, NumberField 4 s y r1 ∧ NumberField 2 r1 m r2 ∧ NumberField 2 r2 d r3

/-- Year, month and day with a separator directly after year and month; anything may follow. -/
def SeparatedDate (sep : UInt8) (s : Bytes) (y m d : Int) : Prop :=
  ∃ r1 r2 r3, NumberField 4 s y (sep :: r1) ∧ NumberField 2 r1 m (sep :: r2) ∧ NumberField 2 r2 d r3

/-- The texts that are read as dates: eight bytes in the compact form, ten in one of the separated forms (up to a NUL). -/
def DateText (s : Bytes) (y m d : Int) : Prop :=
  (s.length = 8 ∧ CompactDate (s.takeWhile (· ≠ 0)) y m d)
  ∨ (s.length = 10 ∧ (SeparatedDate 45 (s.takeWhile (· ≠ 0)) y m d ∨ SeparatedDate 47 (s.takeWhile (· ≠ 0)) y m d))

end Licensecc.Spec
