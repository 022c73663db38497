import Verif.Model.World
/-!
# Model of the signature check on Linux

src/library/os/openssl/signature_verifier.cpp.  The OpenSSL functions are parameters; what is modelled is how their results
are used, and the buffer of 512 bytes.
-/
namespace Licensecc

/-- What OpenSSL answers during one check. -/
structure OpenSsl where
  /-- `d2i_RSAPublicKey_bio` accepts the compiled-in key (51-56) -/
  keyParses : Bool
  /-- result of `BIO_read` with a limit of `signatureB64.size()` bytes on the base64 filter over the signature (69-73): the
      bytes written, or `none` for a negative result -/
  bioRead : Bytes → Option Bytes
  /-- `EVP_MD_CTX_create` succeeds (80) -/
  contextCreated : Bool
  /-- `EVP_DigestVerifyInit` returns 1 (85) -/
  digestInit : Bool
  /-- result of `EVP_DigestVerifyUpdate` with the data (91) -/
  digestUpdate : Bytes → Int
  /-- result of `EVP_DigestVerifyFinal` (98) for the data and the decoded signature -/
  digestFinal : Bytes → Bytes → Int
  /-- does `LOG_ERROR` overrun its array for the path (`Logger.overruns`, base/logger.cpp:29-37)? -/
  logOverruns : Bool

/-- Size of `buffer`, signature_verifier.cpp:68. -/
def signatureBuffer : Nat := 512

/-- `LOG_ERROR(...)` followed by `return FUNC_RET_ERROR`, signature_verifier.cpp:54-55, 82-83, 86-88, 93-95, 100-105. -/
def OpenSsl.fail (o : OpenSsl) : Outcome Bool := if o.logOverruns then .ub else .ok false

/-- `verify_signature(...) == FUNC_RET_OK`, src/library/os/openssl/signature_verifier.cpp:44-106.  `len` is unsigned, so a
    negative result of `BIO_read` becomes 2^32-1 (or 2^32-2) and line 75 writes there; line 75 also writes just behind the
    decoded bytes.  Simplifications: freeing is left out, of logging only whether it overruns its array is kept; `BIO_new` and
    `EVP_PKEY_new` are assumed to succeed. -/
def OpenSsl.verify (o : OpenSsl) (data signature : Bytes) : Outcome Bool :=
  if o.keyParses = false then o.fail
  else match o.bioRead signature with
    | none => .ub
    | some d =>
      if signatureBuffer ≤ d.length then .ub
      else if o.contextCreated = false then o.fail
      else if o.digestInit = false then o.fail
      else if o.digestUpdate data ≠ 1 then o.fail
      else if o.digestFinal data d = 1 then .ok true
      else o.fail

end Licensecc
