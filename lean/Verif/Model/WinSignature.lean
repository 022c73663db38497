import Verif.Model.Base64
import Verif.Model.World
/-!
# Model of the signature check on Windows

src/library/os/windows/signature_verifier.cpp.  The BCrypt functions are parameters; what is modelled is how the compiled-in key
is read and how the results are used.  A pointer into the key is the rest of the key from there on.
-/
namespace Licensecc.Win

/-- `*ptr++`; reading behind the end of the array is undefined behaviour. -/
def next : Bytes → Outcome (UInt8 × Bytes)
  | [] => .ub
  | b :: r => .ok (b, r)

/-- `*(ptr++) << (i * 8)` added to a `size_t`, src/library/os/windows/signature_verifier.cpp:71: the byte is promoted to `int`,
    so shifting by 32 or more is undefined, and a negative result is sign extended. -/
def shifted (b : UInt8) (i : Nat) : Outcome Nat :=
  if 4 ≤ i then .ub
  else .ok (if i = 3 ∧ 128 ≤ b.toNat then 2 ^ 64 - (256 - b.toNat) * 2 ^ 24 else b.toNat * 2 ^ (8 * i))

/-- The loop of `read_length`, src/library/os/windows/signature_verifier.cpp:70-72; `n` iterations are left. -/
def lengthLoop : Nat → Nat → Nat → Bytes → Outcome (Nat × Bytes)
  | 0, _, acc, p => .ok (acc, p)
  | n + 1, i, acc, p => do
    let (b, p) ← next p
    let v ← shifted b i
    lengthLoop n (i + 1) ((acc + v) % 2 ^ 64) p

/-- `read_length`, src/library/os/windows/signature_verifier.cpp:64-77. -/
def readLength (p : Bytes) : Outcome (Nat × Bytes) := do
  let (len, p) ← next p
  if len &&& 0x80 > 0 then lengthLoop (len &&& 0x7F).toNat 0 0 p else .ok (len.toNat, p)

/-- `read_sequence`, src/library/os/windows/signature_verifier.cpp:79-86; its result is not used (line 120). -/
def readSequence (p : Bytes) : Outcome Bytes := do
  let (tag, p) ← next p
  if tag ≠ 0x30 then .ok p
  else
    let (_, p) ← readLength p
    .ok p

/-- The loop of `read_integer`, src/library/os/windows/signature_verifier.cpp:102-104: the bytes copied and the pointer. -/
def copyBytes : Nat → Bytes → Outcome (Bytes × Bytes)
  | 0, p => .ok ([], p)
  | n + 1, p => do
    let (b, p) ← next p
    let (bs, p) ← copyBytes n p
    .ok (b :: bs, p)

/-- `length--` on a `size_t`, src/library/os/windows/signature_verifier.cpp:96. -/
def decrement (n : Nat) : Nat := if n = 0 then 2 ^ 64 - 1 else n - 1

/-- `read_integer`, src/library/os/windows/signature_verifier.cpp:88-106: the array afterwards and the pointer; the result is
    not used (lines 121-122).  `location` holds what was in the array before. -/
def readInteger (p location : Bytes) : Outcome (Bytes × Bytes) := do
  let (tag, p) ← next p
  if tag ≠ 0x02 then .ok (location, p)
  else
    let (length, p) ← readLength p
    let (b, q) ← next p
    let (length, p) := if b = 0 then (decrement length, q) else (length, p)
    if location.length < length then .ok (location, p)
    else
      let (bs, p) ← copyBytes length p
      .ok (bs ++ location.drop length, p)

/-- The modulus and the exponent that `readPublicKey`, src/library/os/windows/signature_verifier.cpp:108-132, hands to
    `BCryptImportKeyPair`.  `modulus` (128 bytes) and `exponent` (3 bytes) are the contents of the uninitialised structure. -/
def readKey (key modulus exponent : Bytes) : Outcome (Bytes × Bytes) := do
  let p ← readSequence key
  let (m, p) ← readInteger p modulus
  let (e, _) ← readInteger p exponent
  .ok (m, e)

/-- What Windows answers during one check, and the memory it meets. -/
structure Bcrypt where
  /-- PUBLIC_KEY (118) -/
  publicKey : Bytes
  /-- content of `pubk.modulus` and `pubk.pkExp` before the key is read (111) -/
  oldModulus : Bytes
  oldExponent : Bytes
  /-- `BCryptOpenAlgorithmProvider` for SHA256 succeeds (50) -/
  hashProvider : Bool
  /-- the two `BCryptGetProperty` succeed (197-200) -/
  properties : Bool
  /-- the two `HeapAlloc` succeed (202-203) -/
  allocated : Bool
  /-- `BCryptCreateHash` succeeds (205) -/
  hashCreated : Bool
  /-- `hashData` (56-62): the hash, `none` if it fails -/
  hash : Bytes → Option Bytes
  /-- `BCryptOpenAlgorithmProvider` for RSA succeeds (145) -/
  rsaProvider : Bool
  /-- `BCryptImportKeyPair` succeeds for this modulus and exponent (123) -/
  imports : Bytes → Bytes → Bool
  /-- `BCryptVerifySignature` succeeds for modulus, exponent, hash, signature (150) -/
  verifies : Bytes → Bytes → Bytes → Bytes → Bool

/-- The structure `PUBKEY_BLOB`, src/library/os/windows/signature_verifier.cpp:39-44: 128 bytes of modulus, 3 of exponent. -/
def Bcrypt.Sized (b : Bcrypt) : Prop := b.oldModulus.length = 128 ∧ b.oldExponent.length = 3

/-- `verifyHash`, src/library/os/windows/signature_verifier.cpp:134-180: `&signatureBlob[0]` of an empty vector is undefined. -/
def Bcrypt.verifyHash (b : Bcrypt) (hash signature : Bytes) : Outcome Bool := do
  let blob ← unbase64 signature
  if blob.length = 0 then .ub
  else if b.rsaProvider = false then .ok false
  else
    let (m, e) ← readKey b.publicKey b.oldModulus b.oldExponent
    if b.imports m e = false then .ok false
    else .ok (b.verifies m e hash blob)

/-- `verify_signature(...) == FUNC_RET_OK`, src/library/os/windows/signature_verifier.cpp:182-244. -/
def Bcrypt.verify (b : Bcrypt) (data signature : Bytes) : Outcome Bool :=
  if b.hashProvider = false then .throw .logicError
  else if b.properties = false then .ok false
  else if b.allocated = false then .ok false
  else if b.hashCreated = false then .ok false
  else match b.hash data with
    | none => .ok false
    | some h => b.verifyHash h signature

end Licensecc.Win
