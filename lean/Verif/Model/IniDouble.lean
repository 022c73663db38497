import Verif.Model.IniNumber
/-!
# Model of `GetDoubleValue`, src/library/ini/SimpleIni.h, with the `strtod` of the C library

`strtod` as glibc has it, in the "C" locale (the point is `.`): decimal and hexadecimal notation, infinity and NaN; the result is the nearest
`double`, to even on a tie.
-/
namespace Licensecc.IniStore
open Ini (digit digits)

/-- What a text says, before it is rounded: a quotient with a sign, infinity or no number. -/
inductive FloatValue where
  | quotient (neg : Bool) (n d : Nat)
  | infinite (neg : Bool)
  | nan (neg : Bool)
  deriving DecidableEq, Repr

def isDig (base : Nat) (c : UInt8) : Bool := (digit base c).isSome

/-- Digits with at most one point among them, called at src/library/ini/SimpleIni.h:2080 (`strtod`): the number the digits make, how many of them are behind
    the point, and what follows. -/
def mantissa (base : Nat) (s : Bytes) : Option (Nat × Nat × Bytes) :=
  let w := s.takeWhile (isDig base)
  match s.dropWhile (isDig base) with
  | 46 :: r =>
    let f := r.takeWhile (isDig base)
    if w ++ f = [] then none else some (digits base (w ++ f) 0, f.length, r.dropWhile (isDig base))
  | r => if w = [] then none else some (digits base w 0, 0, r)

/-- A sign or none (`strtod`). -/
def signOf (s : Bytes) : Bool × Bytes :=
  match s with
  | 45 :: r => (true, r)
  | 43 :: r => (false, r)
  | r => (false, r)

/-- The exponent behind `e` or `p`, if there is one (`strtod`). -/
def exponent (letter : UInt8) (s : Bytes) : Int × Bytes :=
  match s with
  | [] => (0, [])
  | c :: r =>
    if c = letter ∨ c = letter - 32 then
      let t := (signOf r).2
      if t.takeWhile (isDig 10) = [] then (0, s)
      else ((if (signOf r).1 then -(digits 10 t 0 : Int) else digits 10 t 0), t.dropWhile (isDig 10))
    else (0, s)

/-- `v * b ^ z` as a quotient. -/
def power (neg : Bool) (b v : Nat) (z : Int) : FloatValue :=
  if 0 ≤ z then .quotient neg (v * b ^ z.toNat) 1 else .quotient neg v (b ^ (-z).toNat)

/-- A number in hexadecimal notation (`strtod`). -/
def hexFloat (neg : Bool) (s : Bytes) : Option (FloatValue × Bytes) :=
  match s with
  | 48 :: x :: t =>
    if x = 120 ∨ x = 88 then (mantissa 16 t).map fun (v, k, r) =>
      (power neg 2 v ((exponent 112 r).1 - 4 * k), (exponent 112 r).2)
    else none
  | _ => none

/-- A number in decimal notation (`strtod`). -/
def decimalFloat (neg : Bool) (s : Bytes) : Option (FloatValue × Bytes) :=
  (mantissa 10 s).map fun (v, k, r) => (power neg 10 v ((exponent 101 r).1 - k), (exponent 101 r).2)

/-- Does the text begin with the word, in letters of either case? (`strtod`) -/
def beginsWith (word s : Bytes) : Bool := (s.take word.length).map toUpperByte = word

/-- What may stand in the parentheses behind `nan` (`strtod` of glibc). -/
def isNanChar (c : UInt8) : Bool := (48 ≤ c && c ≤ 57) || (65 ≤ c && c ≤ 90) || (97 ≤ c && c ≤ 122) || c == 95

/-- What follows `nan` (`strtod`). -/
def nanRest (r : Bytes) : Bytes :=
  match r with
  | 40 :: t =>
    match t.dropWhile isNanChar with
    | 41 :: u => u
    | _ => r
  | _ => r

/-- Behind the sign (`strtod`). -/
def floatBody (neg : Bool) (s : Bytes) : Option (FloatValue × Bytes) :=
  if beginsWith (b!"INFINITY") s then some (.infinite neg, s.drop 8)
  else if beginsWith (b!"INF") s then some (.infinite neg, s.drop 3)
  else if beginsWith (b!"NAN") s then some (.nan neg, nanRest (s.drop 3))
  else match hexFloat neg s with
    | some x => some x
    | none => decimalFloat neg s

/-- `strtod` before it rounds, src/library/ini/SimpleIni.h:2080: the value and what is left of the text; all of it if it does not begin like a number. -/
def readFloat (s : Bytes) : FloatValue × Bytes :=
  match floatBody (signOf (s.dropWhile isSpace)).1 (signOf (s.dropWhile isSpace)).2 with
  | some x => x
  | none => (.quotient false 0 1, s)

/-- The unit `2 ^ -1074` of all `double`s goes so often into 1. -/
def units : Nat := 2 ^ 1074

/-- The least exponent (from the least one there is) for which 53 bits are enough. -/
def leastExponent (n d : Nat) : Nat → Nat → Nat
  | 0, j => j
  | fuel + 1, j => if n < d * 2 ^ (53 + j) then j else leastExponent n d fuel (j + 1)

/-- The `double` of at most 53 bits, which are one more after rounding up to `2 ^ 53`; infinity behind the largest. -/
def pack (neg : Bool) (m j : Nat) : Double :=
  if m < 2 ^ 53 then (if j ≤ 2045 then .finite neg m ((j : Int) - 1074) else .infinite neg)
  else if j + 1 ≤ 2045 then .finite neg (2 ^ 52) (((j + 1 : Nat) : Int) - 1074) else .infinite neg

/-- The nearest `double`, to even on a tie (`strtod`): 53 bits at the least exponent. -/
def roundFloat (neg : Bool) (n d : Nat) : Double :=
  pack neg (roundDiv (n * units) (d * 2 ^ leastExponent (n * units) d 2046 0)) (leastExponent (n * units) d 2046 0)

/-- What `strtod` returns for a value. -/
def FloatValue.rounded : FloatValue → Double
  | .quotient neg n d => roundFloat neg n d
  | .infinite neg => .infinite neg
  | .nan neg => .nan neg

/-- `GetDoubleValue`, src/library/ini/SimpleIni.h:2070-2088, on the value found. -/
def toDouble (v : Option Bytes) (dflt : Double) : Double :=
  match v with
  | none => dflt
  | some [] => dflt
  | some s =>
    if s.length + 1 > 64 then dflt
    else if (readFloat s).2 = [] then (readFloat s).1.rounded else dflt

/-- `GetDoubleValue`, src/library/ini/SimpleIni.h:2059-2088. -/
def getDoubleValue (o : Options) (st : Store) (s k : Bytes) (dflt : Double) : Double := toDouble (getValue o st s k).1 dflt

end Licensecc.IniStore
