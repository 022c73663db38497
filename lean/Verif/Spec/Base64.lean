import Verif.Basic
/-!
# Specification of base64 (RFC 4648), independent of the code

A byte string is a string of bits, most significant first; it is cut in groups of six, the last one
completed with zero bits; each group selects a character of the alphabet; the text is completed with `=`
to a multiple of four characters.
-/
namespace Licensecc.Spec

/-- The 8 bits of a byte, most significant first. -/
def byteBits (b : UInt8) : List Nat :=
  let n := b.toNat
  [n / 128 % 2, n / 64 % 2, n / 32 % 2, n / 16 % 2, n / 8 % 2, n / 4 % 2, n / 2 % 2, n % 2]

/-- Cut in groups of six and read each group as a binary number; the last group is completed with zeros. -/
def sixBitGroups : List Nat → List Nat
  | a :: b :: c :: d :: e :: f :: rest => (32 * a + 16 * b + 8 * c + 4 * d + 2 * e + f) :: sixBitGroups rest
  | [] => []
  | [a] => [32 * a]
  | [a, b] => [32 * a + 16 * b]
  | [a, b, c] => [32 * a + 16 * b + 8 * c]
  | [a, b, c, d] => [32 * a + 16 * b + 8 * c + 4 * d]
  | [a, b, c, d, e] => [32 * a + 16 * b + 8 * c + 4 * d + 2 * e]

/-- The RFC 4648 alphabet. -/
def alphabet : Bytes := b!"ABCDEFGHIJKLMNOPQRSTUVWXYZabcdefghijklmnopqrstuvwxyz0123456789+/"

/-- RFC 4648 encoding. -/
def rfc4648 (bs : Bytes) : Bytes :=
  let chars := (sixBitGroups (bs.flatMap byteBits)).map fun i => alphabet.getD i 0
  chars ++ List.replicate ((4 - chars.length % 4) % 4) 61

/-! ## Reading a base64 text

Every character stands for six bits: those of its position in the alphabet, and six zeros for a character that is
not in the alphabet (so it counts as an `A`). The bits are cut in groups of eight. -/

/-- The value of a character: its position in the alphabet, 0 for any other character. -/
def charValue (c : UInt8) : Nat := if c ∈ alphabet then alphabet.idxOf c else 0

/-- The six bits of a number below 64, most significant first. -/
def sixBits (n : Nat) : List Nat := [n / 32 % 2, n / 16 % 2, n / 8 % 2, n / 4 % 2, n / 2 % 2, n % 2]

/-- Cut in groups of eight and read each group as a byte; the last group is completed with zeros. -/
def eightBitGroups : List Nat → Bytes
  | [] => []
  | a :: rest =>
    let bit i := (a :: rest).getD i 0
    UInt8.ofNat (128 * bit 0 + 64 * bit 1 + 32 * bit 2 + 16 * bit 3 + 8 * bit 4 + 4 * bit 5 + 2 * bit 6 + bit 7)
      :: eightBitGroups (rest.drop 7)
termination_by l => l.length
decreasing_by simp; omega

/-- All the bytes written in a text. -/
def bytesWritten (t : Bytes) : Bytes := eightBitGroups (t.flatMap fun c => sixBits (charValue c))

end Licensecc.Spec
