import Verif.Basic
/-!
# Model of the log file (Linux)

src/library/base/logger.cpp.  `LOG_INFO`, `LOG_WARN` and `LOG_ERROR` call `_log` in every build (base/logger.h:19-21),
`LOG_DEBUG` in debug builds.
-/
namespace Licensecc.Logger

/-- `MAX_PATH`, src/library/base/logger.cpp:12: size of `logpath` in `_log` (line 50). -/
def maxPath : Nat := 255

/-- "/open-license.log", logger.cpp:36. -/
def logName : Bytes := b!"/open-license.log"

/-- `strncpy(dst, src, n)` into an array of `n` bytes: the text that is then in the array, `none` if it is not terminated. -/
def strncpy (src : Bytes) (n : Nat) : Option Bytes := if src.length < n then some src else none

/-- `strncat(dst, src, n)` on an array of `size` bytes holding the text `dst`: up to `n` bytes of `src` and a NUL. -/
def strncat (dst src : Bytes) (n size : Nat) : Outcome Bytes :=
  let r := dst ++ src.take n
  if r.length + 1 ≤ size then .ok r else .ub

/-- `getLogFname`, src/library/base/logger.cpp:29-37.  `tmpdir` is `getenv("TMPDIR")`.  `strlen` of an array without NUL is
    undefined behaviour. -/
def getLogFname (tmpdir : Option Bytes) : Outcome Bytes :=
  match strncpy (tmpdir.getD (b!"/tmp")) maxPath with
  | none => .ub
  | some p => strncat p logName (maxPath - p.length) maxPath

/-- `MAX_PATH` of windows.h. -/
def maxPathWin : Nat := 260

/-- "open-license.log", logger.cpp:42. -/
def logNameWin : Bytes := b!"open-license.log"

/-- `getLogFname` on Windows, src/library/base/logger.cpp:38-43.  `tempPath` is the path `GetTempPath` finds (it ends with a
    backslash), `none` if it fails.  A path that does not fit in MAX_PATH bytes is not stored either: in both cases `strlen` goes
    through an array nobody has written to. -/
def getLogFnameWin (tempPath : Option Bytes) : Outcome Bytes :=
  match tempPath with
  | none => .ub
  | some d => if d.length < maxPathWin then strncat d logNameWin (maxPathWin - d.length) maxPathWin else .ub

/-- What a call of `_log` meets. -/
structure Env where
  tmpdir : Option Bytes
  /-- can the file be opened for appending? -/
  canOpen : Bytes → Bool
  /-- `timenow`, logger.cpp:19-27: `strftime` with "%Y-%m-%d %H:%M:%S" -/
  now : Bytes
  /-- what `vfprintf` prints for a format with the arguments of this call -/
  printf : Bytes → Bytes

/-- The static `logFile` and the bytes appended so far to each file. -/
structure State where
  logFile : Option Bytes
  files : Bytes → Bytes

/-- Appending to a file. -/
def State.append (s : State) (p text : Bytes) : State := { s with files := fun q => if q = p then s.files q ++ text else s.files q }

/-- Lines 55-63 of `_log`: `malloc(strlen(format) + 64)`, `strftime` of at most 64 bytes, `strcat`, `vfprintf`. -/
def write (e : Env) (format : Bytes) (s : State) (p : Bytes) : Outcome State :=
  if e.now.length + format.length + 1 ≤ format.length + 64 then .ok (s.append p (e.printf (e.now ++ format))) else .ub

/-- `_log`, src/library/base/logger.cpp:46-64.  Simplifications: `malloc` succeeds; what is printed counts as appended at once
    (buffering is left out). -/
def log (e : Env) (format : Bytes) (s : State) : Outcome State :=
  match s.logFile with
  | some p => write e format s p
  | none => do
    let p ← getLogFname e.tmpdir
    if e.canOpen p then write e format { s with logFile := some p } p else .ok s

/-- `_shutdown_log`, src/library/base/logger.cpp:66-71. -/
def shutdown (s : State) : State := { s with logFile := none }

/-- One use of the logger. -/
inductive Op where
  | log (e : Env) (format : Bytes)
  | shutdown

/-- A history of uses. -/
def run : State → List Op → Outcome State
  | s, [] => .ok s
  | s, .log e f :: ops => do run (← log e f s) ops
  | s, .shutdown :: ops => run (Logger.shutdown s) ops

/-- Does `LOG_ERROR` overrun the array for the path of the log file? -/
def overruns (tmpdir : Option Bytes) (s : State) : Bool :=
  s.logFile = none && (getLogFname tmpdir matches .ub)

/-- The same on Windows. -/
def overrunsWin (tempPath : Option Bytes) (s : State) : Bool :=
  s.logFile = none && (getLogFnameWin tempPath matches .ub)

end Licensecc.Logger
