import Verif.Basic
/-!
# The values of `lic_ver` that count as 200
-/
namespace Licensecc.Spec

/-- White space of the C library. -/
def blank (s : Bytes) : Prop := ∀ c ∈ s, c ∈ ([32, 9, 10, 11, 12, 13] : Bytes)

/-- A way to write the number 200, in at most 63 bytes: decimal, with an optional plus sign and leading zeros; or hexadecimal
    after `0x`, where blanks, a plus sign, another `0x` and leading zeros may still follow. -/
def Means200 (v : Bytes) : Prop :=
  v.length ≤ 63 ∧
  ((∃ sp sign k, v = sp ++ sign ++ List.replicate k 48 ++ b!"200" ∧ blank sp ∧ (sign = [] ∨ sign = b!"+"))
   ∨ (∃ x sp sign pre k c, v = 48 :: x :: (sp ++ sign ++ pre ++ List.replicate k 48 ++ [c, 56]) ∧ (x = 120 ∨ x = 88) ∧ blank sp
        ∧ (sign = [] ∨ sign = b!"+") ∧ (pre = [] ∨ pre = b!"0x" ∨ pre = b!"0X") ∧ (c = 99 ∨ c = 67)))

end Licensecc.Spec
