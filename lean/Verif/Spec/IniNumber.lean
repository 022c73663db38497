import Verif.Basic
/-!
# Numbers and truth values in INI files: what the texts mean
-/
namespace Licensecc.Spec.IniNumber

/-- `c` is the digit `d` in base `base`: `0`…`9`, and letters of either case for ten and more. -/
def IsDigit (base d : Nat) (c : UInt8) : Prop :=
  d < base ∧ (d < 10 ∧ c.toNat = 48 + d ∨ 10 ≤ d ∧ (c.toNat = 87 + d ∨ c.toNat = 55 + d))

/-- A sequence of at least one digit, and its value. -/
inductive Numeral (base : Nat) : Bytes → Nat → Prop
  | one {d : Nat} {c : UInt8} : IsDigit base d c → Numeral base [c] d
  | more {d n : Nat} {c : UInt8} {s : Bytes} : Numeral base s n → IsDigit base d c → Numeral base (s ++ [c]) (base * n + d)

/-- The nearest number of 64 bits. -/
def nearest (z : Int) : Int := if z < -9223372036854775808 then -9223372036854775808 else if 9223372036854775807 < z then 9223372036854775807 else z

/-- White space, a sign or none, digits: the value is the nearest number of 64 bits. In hexadecimal `0x` may come behind the sign. -/
def Signed (base : Nat) (s : Bytes) (z : Int) : Prop :=
  ∃ space sign mark body n, s = space ++ sign ++ mark ++ body ∧ (∀ c ∈ space, c ∈ ([9, 10, 11, 12, 13, 32] : Bytes))
    ∧ (mark = [] ∨ base = 16 ∧ (mark = b!"0x" ∨ mark = b!"0X")) ∧ Numeral base body n
    ∧ ((sign = [] ∨ sign = b!"+") ∧ z = nearest n ∨ sign = b!"-" ∧ z = nearest (-n))

/-- A text that begins like a hexadecimal number. -/
def HexMark (v r : Bytes) : Prop := v = b!"0x" ++ r ∨ v = b!"0X" ++ r

/-- A text that is read as the number `z`: not longer than 63 characters; hexadecimal if it begins with `0x`, decimal otherwise. -/
def Number (v : Bytes) (z : Int) : Prop :=
  v.length ≤ 63 ∧ ((∃ r, HexMark v r ∧ Signed 16 r z) ∨ (¬ ∃ r, HexMark v r) ∧ Signed 10 v z)

/-- A text that is read as true, or as false: only its beginning counts. -/
def Truth (v : Bytes) : Bool → Prop
  | true => ∃ p ∈ [b!"t", b!"T", b!"y", b!"Y", b!"1", b!"on", b!"oN", b!"On", b!"ON"], p <+: v
  | false => ∃ p ∈ [b!"f", b!"F", b!"n", b!"N", b!"0", b!"of", b!"oF", b!"Of", b!"OF"], p <+: v

/-- A number in decimal notation, with a minus if it is negative. -/
def decimalText (n : Int) : Bytes := (if n < 0 then b!"-" else []) ++ (Nat.toDigits 10 n.natAbs).map fun c => UInt8.ofNat c.toNat

/-- The 64 bits of a number in hexadecimal notation, behind 0x. -/
def hexText (n : Int) : Bytes := b!"0x" ++ (Nat.toDigits 16 (n % 2 ^ 64).toNat).map fun c => UInt8.ofNat c.toNat

end Licensecc.Spec.IniNumber
