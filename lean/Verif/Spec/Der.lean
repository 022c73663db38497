import Verif.Basic
/-!
# The DER encoding of an RSA public key (X.690, RFC 8017 A.1.1), for lengths below 65536
-/
namespace Licensecc.Spec.Der

/-- Length octets: one byte below 128, otherwise the number of bytes with the top bit set and the length, most significant byte
    first. -/
def lengthOctets (n : Nat) : Bytes :=
  if n < 128 then [UInt8.ofNat n]
  else if n < 256 then [0x81, UInt8.ofNat n]
  else [0x82, UInt8.ofNat (n / 256), UInt8.ofNat n]

/-- Content of a non-negative INTEGER given by its bytes, most significant first: a zero byte is put in front if the number would
    look negative. -/
def intContent (n : Bytes) : Bytes := if 128 ≤ (n.headD 0).toNat then 0 :: n else n

/-- INTEGER. -/
def integer (n : Bytes) : Bytes := 0x02 :: lengthOctets (intContent n).length ++ intContent n

/-- SEQUENCE of modulus and exponent. -/
def publicKey (modulus exponent : Bytes) : Bytes :=
  let c := integer modulus ++ integer exponent
  0x30 :: lengthOctets c.length ++ c

/-- The bytes of a positive number, most significant first, without leading zeros. -/
def Minimal (n : Bytes) : Prop := 0 < (n.headD 0).toNat

/-- An RSA key of `8 * n` bits: the modulus has `n` bytes and its top bit is set. -/
def Bytewide (modulus : Bytes) (n : Nat) : Prop := modulus.length = n ∧ 128 ≤ (modulus.headD 0).toNat

/-- An RSA key of more than 1024 bits: the modulus has more than 128 bytes and its top bit is set.  Lengths of 511, 767, 1023 ...
    bytes (4088, 6136, 8184 ... bits), which no one uses, are left out. -/
def Longer (modulus : Bytes) : Prop :=
  128 < modulus.length ∧ 128 ≤ (modulus.headD 0).toNat ∧ (modulus.length % 256 = 255 → modulus.length = 255)

/-- Keys of 2048, 3072, 4096 ... bits are such. -/
theorem Longer.of_multiple {modulus : Bytes} {k : Nat} (hk : 2 ≤ k) (h : Bytewide modulus (128 * k)) : Longer modulus := by
  obtain ⟨h1, h2⟩ := h
  exact ⟨by omega, h2, by omega⟩

end Licensecc.Spec.Der
