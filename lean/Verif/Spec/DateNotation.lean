import Verif.Basic
/-!
# The documented notations of a date: YYYYMMDD, YYYY-MM-DD, YYYY/MM/DD
-/
namespace Licensecc.Spec

/-- A decimal digit character. -/
def digit (n : Fin 10) : UInt8 := UInt8.ofNat (48 + n.val)

/-- Year, month and day written with four, two and two digits. -/
structure DateDigits where
  (y1 y2 y3 y4 m1 m2 d1 d2 : Fin 10)

def DateDigits.year (d : DateDigits) : Int := 1000 * d.y1.val + 100 * d.y2.val + 10 * d.y3.val + d.y4.val
def DateDigits.month (d : DateDigits) : Int := 10 * d.m1.val + d.m2.val
def DateDigits.day (d : DateDigits) : Int := 10 * d.d1.val + d.d2.val

/-- YYYYMMDD -/
def DateDigits.compact (d : DateDigits) : Bytes :=
  [digit d.y1, digit d.y2, digit d.y3, digit d.y4, digit d.m1, digit d.m2, digit d.d1, digit d.d2]
/-- YYYY?MM?DD with a separator -/
def DateDigits.separated (sep : UInt8) (d : DateDigits) : Bytes :=
  [digit d.y1, digit d.y2, digit d.y3, digit d.y4, sep, digit d.m1, digit d.m2, sep, digit d.d1, digit d.d2]

/-- A documented notation of a date. -/
def IsNotation (s : Bytes) (d : DateDigits) : Prop := s = d.compact ∨ s = d.separated 45 ∨ s = d.separated 47

end Licensecc.Spec
