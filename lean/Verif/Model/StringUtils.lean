import Verif.Basic
/-!
# Model of src/library/base/string_utils.cpp
-/
namespace Licensecc

/-- C `isspace` in the "C" locale: space, \t \n \v \f \r.
    Simplification: bytes ≥ 0x80 are passed by the code as negative `char`s, which glibc classifies as
    non-space; we do the same. -/
def isSpace (b : UInt8) : Bool := b == 32 || (9 ≤ b && b ≤ 13)

/-- C `toupper` in the "C" locale. -/
def toUpperByte (b : UInt8) : UInt8 := if 97 ≤ b && b ≤ 122 then b - 32 else b

/-- C `isdigit`. -/
def isDigit (b : UInt8) : Bool := 48 ≤ b && b ≤ 57

/-- `trim_copy`, src/library/base/string_utils.cpp:25-35: leading white space, then trailing white
    space and NULs. -/
def trimCopy (s : Bytes) : Bytes :=
  ((s.dropWhile isSpace).reverse.dropWhile (fun b => isSpace b || b == 0)).reverse

/-- `toupper_copy`, src/library/base/string_utils.cpp:37-41. -/
def toUpperCopy (s : Bytes) : Bytes := s.map toUpperByte

/-- The `std::getline` loop of `split_string`, src/library/base/string_utils.cpp:74-83.
    `acc` holds, reversed, the characters extracted by the current `getline`. A `getline` that extracts
    no character before the end of the stream fails and ends the loop. -/
def splitAux (c : UInt8) (acc : Bytes) : Bytes → List Bytes
  | [] => if acc = [] then [] else [acc.reverse]
  | x :: xs => if x = c then acc.reverse :: splitAux c [] xs else splitAux c (x :: acc) xs

/-- `split_string`, src/library/base/string_utils.cpp:74-83. -/
def splitString (s : Bytes) (c : UInt8) : List Bytes := splitAux c [] s

/-- Digits part of a `%<w>d` conversion (glibc `sscanf`): at most `w` digits; returns the value of the
    digits read so far extended, the number of digits and the rest. -/
def scanDigits : Nat → Bytes → Nat → Nat → Nat × Nat × Bytes
  | 0, s, v, k => (v, k, s)
  | _ + 1, [], v, k => (v, k, [])
  | w + 1, b :: s, v, k =>
      if isDigit b then scanDigits w s (v * 10 + (b.toNat - 48)) (k + 1) else (v, k, b :: s)

/-- One `%<w>d` conversion of `sscanf`: white space is skipped and does not count against the width, an
    optional sign does count, and at least one digit is needed. `none` is a matching or input failure. -/
def scanInt (w : Nat) (s : Bytes) : Option (Int × Bytes) :=
  match s.dropWhile isSpace with
  | [] => none
  | b :: r =>
      if b == 45 then        -- '-'
        let (v, k, t) := scanDigits (w - 1) r 0 0
        if k = 0 then none else some (-(v : Int), t)
      else if b == 43 then   -- '+'
        let (v, k, t) := scanDigits (w - 1) r 0 0
        if k = 0 then none else some ((v : Int), t)
      else
        let (v, k, t) := scanDigits w (b :: r) 0 0
        if k = 0 then none else some ((v : Int), t)

/-- A literal non-space character in a `sscanf` format. -/
def scanLit (c : UInt8) (s : Bytes) : Option Bytes :=
  match s with
  | [] => none
  | b :: r => if b == c then some r else none

/-- `sscanf(s, "%4d%2d%2d", ..) == 3`, src/library/base/string_utils.cpp:47. The text is passed through
    `c_str()`, so it ends at the first NUL. -/
def scanCompact (s : Bytes) : Option (Int × Int × Int) := do
  let s := s.takeWhile (· ≠ 0)
  let (y, s) ← scanInt 4 s
  let (m, s) ← scanInt 2 s
  let (d, _) ← scanInt 2 s
  return (y, m, d)

/-- `sscanf(s, "%4d-%2d-%2d", ..) == 3` (`sep = '-'`) and `"%4d/%2d/%2d"` (`sep = '/'`),
    src/library/base/string_utils.cpp:52 and 54. -/
def scanSeparated (sep : UInt8) (s : Bytes) : Option (Int × Int × Int) := do
  let s := s.takeWhile (· ≠ 0)
  let (y, s) ← scanInt 4 s
  let s ← scanLit sep s
  let (m, s) ← scanInt 2 s
  let s ← scanLit sep s
  let (d, _) ← scanInt 2 s
  return (y, m, d)

/-- The parsing half of `seconds_from_epoch`, src/library/base/string_utils.cpp:43-61: year, month and
    day fields, or `std::invalid_argument`. -/
def parseDate (s : Bytes) : Outcome (Int × Int × Int) :=
  if s.length = 8 then
    match scanCompact s with
    | some r => .ok r
    | none => .throw .invalidArgument
  else if s.length = 10 then
    match scanSeparated 45 s with
    | some r => .ok r
    | none =>
      match scanSeparated 47 s with
      | some r => .ok r
      | none => .throw .invalidArgument
  else .throw .invalidArgument

/-- `seconds_from_epoch`, src/library/base/string_utils.cpp:43-72.  `mktime y m d` stands for
    `mktime` applied to a `struct tm` for local midnight of year `y`, month `m` (1 = January), day `d`
    with `tm_isdst = -1` (lines 62-71). -/
def secondsFromEpoch (mktime : Int → Int → Int → Int) (s : Bytes) : Outcome Int :=
  match parseDate s with
  | .ok (y, m, d) => .ok (mktime y m d)
  | .throw e => .throw e
  | .ub => .ub

/-- `FILE_FORMAT`, src/library/base/string_utils.h. -/
inductive FileFormat where
  | ini | base64 | unknown
  deriving DecidableEq, Repr

/-- Character class `[A-Za-z0-9+/]`. -/
def isB64Char (b : UInt8) : Bool :=
  (65 ≤ b && b ≤ 90) || (97 ≤ b && b ≤ 122) || (48 ≤ b && b ≤ 57) || b == 43 || b == 47

/-- `regex_match(license, b64)`, src/library/base/string_utils.cpp:86-90: complete quadruples, the last
    of which may be padded. -/
def matchB64 : Bytes → Bool
  | [] => true
  | a :: b :: c :: d :: rest =>
      (isB64Char a && isB64Char b && isB64Char c && isB64Char d && matchB64 rest)
      || (rest == [] && isB64Char a && isB64Char b && isB64Char c && d == 61)
      || (rest == [] && isB64Char a && isB64Char b && c == 61 && d == 61)
  | _ => false

/-- `regex_search(license, iniSection)` with pattern `\[.*?\]`,
    src/library/base/string_utils.cpp:85, 91: a '[' and a later ']' with no line terminator between. -/
def searchIniSection : Bytes → Bool
  | [] => false
  | b :: rest =>
      (b == 91 && (rest.takeWhile (fun x => x ≠ 10 && x ≠ 13)).contains 93) || searchIniSection rest

/-- `identify_format`, src/library/base/string_utils.cpp:88-96. -/
def identifyFormat (s : Bytes) : FileFormat :=
  if matchB64 s then .base64 else if searchIniSection s then .ini else .unknown

/-- Loop of `mstrnlen_s`, src/library/base/string_utils.cpp:103-106. `mem` is the memory readable from
    the pointer on; running off its end is undefined behaviour. `*szptr++` is evaluated before
    `maxsize--`. -/
def mstrnlenLoop : Bytes → Nat → Outcome Nat
  | [], _ => .ub
  | b :: mem, maxsize =>
      if b = 0 then .ok 0
      else match maxsize with
        | 0 => .ok 0
        | m + 1 => match mstrnlenLoop mem m with
            | .ok n => .ok (n + 1)
            | .throw e => .throw e
            | .ub => .ub

/-- `mstrnlen_s`, src/library/base/string_utils.cpp:99-108 (`none` is the null pointer). -/
def mstrnlen (p : Option Bytes) (maxsize : Nat) : Outcome Nat :=
  match p with
  | none => .ok 0
  | some mem => mstrnlenLoop mem maxsize

/-- Copy loop of `mstrlcpy` after the initial `--n`, src/library/base/string_utils.cpp:116-118: returns
    the new contents of the destination and the number of bytes copied. `src` is the memory readable at
    the source, `dst` the memory writable at the destination. -/
def mstrlcpyLoop : Nat → Bytes → Bytes → Outcome (Bytes × Nat)
  | _, [], _ => .ub
  | 0, _ :: ds, _ => .ok (0 :: ds, 0)
  | _ + 1, _ :: _, [] => .ub
  | n + 1, _ :: ds, s :: ss =>
      if s = 0 then .ok (0 :: ds, 0)
      else match mstrlcpyLoop n ds ss with
        | .ok (r, k) => .ok (s :: r, k + 1)
        | .throw e => .throw e
        | .ub => .ub

/-- `mstrlcpy`, src/library/base/string_utils.cpp:110-122: new destination contents and return value
    `n_orig - n`. -/
def mstrlcpy (dst src : Bytes) (n : Nat) : Outcome (Bytes × Nat) :=
  match n with
  | 0 => .ok (dst, 0)
  | m + 1 => match mstrlcpyLoop m dst src with
      | .ok (r, k) => .ok (r, k + 1)
      | .throw e => .throw e
      | .ub => .ub

end Licensecc
