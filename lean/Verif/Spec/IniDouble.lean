import Verif.Spec.IniNumber
import Verif.Model.IniDouble
/-!
# Specification: the numbers with a fraction that texts say
-/
namespace Licensecc.Spec.IniNumber
open IniStore (Double FloatValue)

/-- Digits with a point before, among or behind them, or without one: the number they make and how many are behind the point. -/
def Fraction (base : Nat) (t : Bytes) (n k : Nat) : Prop :=
  ∃ w f, Numeral base (w ++ f) n ∧ f.length = k ∧ (t = w ++ b!"." ++ f ∨ f = [] ∧ t = w)

/-- Nothing, or a letter (of either case) with a whole number in decimal notation behind it. -/
def Exponent (small large : UInt8) (t : Bytes) (e : Int) : Prop :=
  t = [] ∧ e = 0 ∨ ∃ c sign ds k, (c = small ∨ c = large) ∧ t = c :: (sign ++ ds) ∧ Numeral 10 ds k
    ∧ ((sign = [] ∨ sign = b!"+") ∧ e = k ∨ sign = b!"-" ∧ e = -(k : Int))

/-- `n / d = v * b ^ z`. -/
def Power (b v : Nat) (z : Int) (n d : Nat) : Prop :=
  0 ≤ z ∧ n = v * b ^ z.toNat ∧ d = 1 ∨ z < 0 ∧ n = v ∧ d = b ^ (-z).toNat

/-- The text, in letters of either case, is `word` (in capital letters). -/
def IsWord (word t : Bytes) : Prop := t.map (fun c => if 97 ≤ c ∧ c ≤ 122 then c - 32 else c) = word

/-- A text without blanks and sign, and what it says. -/
inductive Float (neg : Bool) : Bytes → FloatValue → Prop
  | decimal {m x : Bytes} {v k n d : Nat} {e : Int} : Fraction 10 m v k → Exponent 101 69 x e → Power 10 v (e - k) n d →
      Float neg (m ++ x) (.quotient neg n d)
  | hexadecimal {t m x : Bytes} {v k n d : Nat} {e : Int} : HexMark t (m ++ x) → Fraction 16 m v k → Exponent 112 80 x e →
      Power 2 v (e - 4 * k) n d → Float neg t (.quotient neg n d)
  | infinite {t : Bytes} : IsWord (b!"INF") t ∨ IsWord (b!"INFINITY") t → Float neg t (.infinite neg)
  | nan {t : Bytes} : IsWord (b!"NAN") t → Float neg t (.nan neg)
  | nanWith {t a : Bytes} : IsWord (b!"NAN") t → (∀ c ∈ a, 48 ≤ c ∧ c ≤ 57 ∨ 65 ≤ c ∧ c ≤ 90 ∨ 97 ≤ c ∧ c ≤ 122 ∨ c = 95) →
      Float neg (t ++ b!"(" ++ a ++ b!")") (.nan neg)

/-- A text that is read as a number with a fraction: not longer than 63 characters; blanks, a sign or none, the number. -/
def FloatText (s : Bytes) (v : FloatValue) : Prop :=
  s.length ≤ 63 ∧ ∃ space sign body neg, s = space ++ sign ++ body ∧ (∀ c ∈ space, c ∈ ([9, 10, 11, 12, 13, 32] : Bytes))
    ∧ ((sign = [] ∨ sign = b!"+") ∧ neg = false ∨ sign = b!"-" ∧ neg = true) ∧ Float neg body v

/-- How many units `2 ^ -1074` the `double` `m * 2 ^ e` has: a whole number of them. -/
def size (m : Nat) (e : Int) : Nat := m * 2 ^ (e + 1074).toNat

/-- How far the `double` is from `n / d`, in the part `1 / d` of the unit. -/
def away (n d m : Nat) (e : Int) : Nat := ((size m e * d : Nat) - (n * 2 ^ 1074 : Nat) : Int).natAbs

/-- No `double` is nearer to `n / d` than `m * 2 ^ e`; if another one is as near, the last of the 53 bits is 0. -/
def Nearest (n d m : Nat) (e : Int) : Prop :=
  (Double.finite false m e).Ok ∧ (2 ^ 52 ≤ m ∨ e = -1074)
  ∧ ∀ m' e', (Double.finite false m' e').Ok → away n d m e ≤ away n d m' e' ∧ (away n d m e = away n d m' e' → size m' e' ≠ size m e → m % 2 = 0)

/-- The `double` that a text's value becomes: the nearest one; infinite if it is too large, i.e. lies half a step behind the largest or further. -/
inductive Rounded : FloatValue → Double → Prop
  | finite {neg : Bool} {n d m : Nat} {e : Int} : n < d * (2 ^ 1024 - 2 ^ 970) → Nearest n d m e → Rounded (.quotient neg n d) (.finite neg m e)
  | large {neg : Bool} {n d : Nat} : d * (2 ^ 1024 - 2 ^ 970) ≤ n → Rounded (.quotient neg n d) (.infinite neg)
  | infinite {neg : Bool} : Rounded (.infinite neg) (.infinite neg)
  | nan {neg : Bool} : Rounded (.nan neg) (.nan neg)

end Licensecc.Spec.IniNumber
