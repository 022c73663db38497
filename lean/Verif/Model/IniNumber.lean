import Verif.Model.IniStore
/-!
# Model of `SetDoubleValue`, src/library/ini/SimpleIni.h

`double` is IEEE 754 binary64; `sprintf` rounds correctly, to even on a tie (as glibc does). `GetDoubleValue` is in Model/IniDouble.
-/
namespace Licensecc.IniStore

/-- A `double`. A finite one is `mant * 2 ^ exp`, with the sign. -/
inductive Double where
  | finite (neg : Bool) (mant : Nat) (exp : Int)
  | infinite (neg : Bool)
  | nan (neg : Bool)
  deriving DecidableEq, Repr

/-- The numbers that exist: 53 bits, the exponent from -1074 to 971. -/
def Double.Ok : Double → Prop
  | .finite _ m e => m < 2 ^ 53 ∧ -1074 ≤ e ∧ e ≤ 971
  | _ => True

/-- A quotient rounded to the nearest integer, to even on a tie. -/
def roundDiv (n d : Nat) : Nat :=
  if d < 2 * (n % d) ∨ d = 2 * (n % d) ∧ n / d % 2 = 1 then n / d + 1 else n / d

/-- Millionths, as `%f` rounds them. -/
def millionths (m : Nat) (e : Int) : Nat :=
  if 0 ≤ e then m * 2 ^ e.toNat * 10 ^ 6 else roundDiv (m * 10 ^ 6) (2 ^ (-e).toNat)

/-- The six digits behind the point. -/
def sixDigits (f : Nat) : Bytes :=
  [f / 100000 % 10, f / 10000 % 10, f / 1000 % 10, f / 100 % 10, f / 10 % 10, f % 10].map fun d => UInt8.ofNat (48 + d)

/-- `sprintf(szInput, "%f", a_nValue)`, src/library/ini/SimpleIni.h:2110. -/
def doubleText : Double → Bytes
  | .finite neg m e =>
    (if neg then b!"-" else []) ++ (revDigits 10 320 (millionths m e / 10 ^ 6)).reverse ++ b!"." ++ sixDigits (millionths m e % 10 ^ 6)
  | .infinite neg => if neg then b!"-inf" else b!"inf"
  | .nan neg => if neg then b!"-nan" else b!"nan"

/-- `SetDoubleValue`, src/library/ini/SimpleIni.h:2092-2121: `char szInput[64]`. Where `sprintf_s` exists (Windows) the program is ended instead
    of the overrun. -/
def setDoubleValue (o : Options) (s k : Bytes) (x : Double) (c : Option Bytes) (force : Bool) (st : Store) : Outcome (Bool × Store) :=
  if (doubleText x).length < 64 then .ok (addEntry o s (some (k, doubleText x)) c force st) else .ub

end Licensecc.IniStore
