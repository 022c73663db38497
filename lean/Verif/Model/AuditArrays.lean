import Verif.Model.EventRegistry
/-!
# The arrays of an AuditEvent, src/library/base/EventRegistry.cpp:88-103, include/licensecc/datatypes.h:55-63

Model/EventRegistry keeps of each array the characters in front of its terminator. Here are the arrays themselves, with what was in the memory before (`AuditEvent audit;` is not
initialised).
-/
namespace Licensecc.Audit

/-- `strncpy(dst, src, n)` (C11 7.24.2.4): the characters of `src` in front of its NUL, at most `n`; if there are fewer, NULs up to `n` bytes. -/
def strncpy (dst src : Bytes) (n : Nat) : Bytes :=
  let s := (src.takeWhile (· ≠ 0)).take n
  s ++ List.replicate (n - s.length) 0 ++ dst.drop n

/-- `strcpy(dst, src)`: the characters and the NUL. -/
def strcpy (dst src : Bytes) : Bytes :=
  let s := src.takeWhile (· ≠ 0)
  s ++ 0 :: dst.drop (s.length + 1)

/-- The array `license_reference`, src/library/base/EventRegistry.cpp:94-98; `old` is what was in the memory. -/
def reference (p : Platform) (old : Bytes) : Option Bytes → Bytes
  | none => strcpy old b!"UNDEF"
  | some r => strncpy old r p.maxPath

/-- The array `param2`, src/library/base/EventRegistry.cpp:99-103: 256 bytes of which 255 are copied. -/
def param2 (old : Bytes) : Option Bytes → Bytes
  | none => 0 :: old.drop 1
  | some i => strncpy old i 255

end Licensecc.Audit
