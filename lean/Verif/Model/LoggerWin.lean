import Verif.Model.LogTextWin
/-!
# Histories of the log on Windows
-/
namespace Licensecc.LogText
open Logger (State Op)

/-- A history of uses on Windows (src/library/base/logger.cpp:46-71); `tmpdir` of an environment is the path that `GetTempPath` finds. -/
def historyWin : State → List Op → Outcome State
  | s, [] => .ok s
  | s, .log e f :: ops => do historyWin (← logWin e.tmpdir e f s) ops
  | s, .shutdown :: ops => historyWin (Logger.shutdown s) ops

end Licensecc.LogText
