import Verif.Model.LogText
import Verif.Model.Windows
/-!
# What the library writes in its log on Windows

The files of src/library/os/windows use neither `LOG_WARN` nor `LOG_ERROR`.
-/
namespace Licensecc.LogText
open Licensecc

/-- The library on Windows: `verify_signature`, src/library/os/windows/signature_verifier.cpp:182-244, and `getAdapterInfos`,
    src/library/os/windows/network.cpp:83-163, log nothing. -/
def windowsHooks (l : Win.Windows) (lib : Exn → Bytes) : Hooks where
  world := l.world
  verify d s := quiet (l.crypt.verify d s) lib
  adapters := quiet l.net.getAdapterInfos lib
  lib := lib

/-- A file that `fopen(logpath, "a")` (src/library/base/logger.cpp:52) opened in text mode: line ends are written as two bytes. -/
def textMode : Bytes → Bytes
  | [] => []
  | c :: t => if c = 10 then 13 :: 10 :: textMode t else c :: textMode t

/-- Lines 57-63 of `_log` on Windows, src/library/base/logger.cpp:57-63 (see `Logger.write`). -/
def writeWin (e : Logger.Env) (format : Bytes) (s : Logger.State) (p : Bytes) : Outcome Logger.State :=
  if e.now.length + format.length + 1 ≤ format.length + 64 then .ok (s.append p (textMode (e.printf (e.now ++ format)))) else .ub

/-- `_log` on Windows, src/library/base/logger.cpp:46-64 with lines 38-43; simplifications as in `Logger.log`. -/
def logWin (tempPath : Option Bytes) (e : Logger.Env) (format : Bytes) (s : Logger.State) : Outcome Logger.State :=
  match s.logFile with
  | some p => writeWin e format s p
  | none => do
    let p ← Logger.getLogFnameWin tempPath
    if e.canOpen p then writeWin e format { s with logFile := some p } p else .ok s

/-- Entries one after the other; `dir` is how the compiler was called for src/library. -/
def runWin (dir : Bytes) (tempPath : Option Bytes) : Logger.State → List (Stamp × Entry) → Outcome Logger.State
  | s, [] => .ok s
  | s, (x, e) :: es => do runWin dir tempPath (← logWin tempPath (e.env dir none x) e.format s) es

end Licensecc.LogText
