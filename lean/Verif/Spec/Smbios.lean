import Verif.Model.Smbios
/-!
# SMBIOS tables (DSP0134): structures and their encoding
-/
namespace Licensecc.Win.Spec

/-- A structure: its type, the bytes after type and length (handle and fields), its strings. -/
structure Structure where
  type : UInt8
  body : Bytes
  strings : List Bytes

/-- The length in the header: type, length byte and body. -/
def Structure.size (s : Structure) : Nat := s.body.length + 2

/-- The strings have at least one byte and no NUL; the length fits in a byte and covers type, length and handle. -/
def Structure.WellFormed (s : Structure) : Prop :=
  2 ≤ s.body.length ∧ s.size ≤ 255 ∧ ∀ t ∈ s.strings, t ≠ [] ∧ 0 ∉ t

/-- The area of the strings: each ended by a NUL, then one more; two NULs if there are no strings. -/
def stringArea (l : List Bytes) : Bytes := if l = [] then [0, 0] else l.flatMap (· ++ [0]) ++ [0]

/-- The encoding of a structure. -/
def Structure.encode (s : Structure) : Bytes := s.type :: UInt8.ofNat s.size :: s.body ++ stringArea s.strings

/-- The encoding of a table. -/
def table (ss : List Structure) : Bytes := ss.flatMap Structure.encode

/-- What the firmware interface delivers: four bytes of version, the length, the table. -/
def Firmware (raw : Bytes) (ss : List Structure) : Prop :=
  ∃ v a b c d : UInt8, ∃ w : Bytes, w.length = 3 ∧ raw = v :: w ++ [a, b, c, d] ++ table ss
    ∧ (table ss).length = a.toNat + 256 * b.toNat + 65536 * c.toNat + 16777216 * d.toNat

/-- The byte at an offset (counted from the beginning of the structure). -/
def Structure.byte (s : Structure) (off : Nat) : Option UInt8 := s.body[off - 2]?

/-- The number at the offset, if it can be the number of a string: not 0, and smaller than the size of the structure. -/
def Structure.number (s : Structure) (off : Nat) : Option Nat :=
  match s.byte off with
  | some n => if 0 < n.toNat ∧ n.toNat < s.size then some n.toNat else none
  | none => none

/-- The string that the number at the offset refers to. -/
def Structure.string (s : Structure) (off : Nat) : Option Bytes :=
  match s.number off with
  | some n => s.strings[n - 1]?
  | none => none

/-- Every number refers to a string that exists. -/
def Structure.Refers (s : Structure) (off : Nat) : Prop := ∀ n, s.number off = some n → n ≤ s.strings.length

/-- A structure as the standard wants it, as far as it is looked at: the fields are there and refer to strings. -/
def Structure.Proper (s : Structure) : Prop :=
  s.WellFormed
  ∧ (s.type = 0 → (s.byte 4).isSome ∧ s.Refers 4)
  ∧ (s.type = 1 → (s.byte 4).isSome ∧ (s.byte 5).isSome ∧ s.Refers 4 ∧ s.Refers 5)
  ∧ (s.type = 2 → (s.byte 4).isSome ∧ s.Refers 4)
  ∧ (s.type = 4 → (s.byte 7).isSome ∧ (s.byte 35).isSome ∧ s.Refers 7)

/-- The last structure of the type that has the string decides. -/
def lastString (ss : List Structure) (type : UInt8) (f : Structure → Option Bytes) : Bytes :=
  (ss.filterMap fun s => if s.type = type then f s else none).getLast?.getD []

/-- Manufacturer and product name of a system structure, one behind the other. -/
def Structure.product (s : Structure) : Option Bytes :=
  match s.string 4, s.string 5 with
  | some a, some b => some (a ++ b)
  | _, _ => none

end Licensecc.Win.Spec
