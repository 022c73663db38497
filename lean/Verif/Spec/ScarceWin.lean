import Verif.Spec.Scarce
import Verif.Model.Windows
/-!
# Specification: what the library may believe on Windows when memory runs out
-/
namespace Licensecc.Win.Spec
open Licensecc.Spec

/-- Of the data that the signature of the text covers, Windows confirms a beginning. -/
def BeginningSigned (l : Windows) (feature text : Bytes) : Prop :=
  ∃ s data d, lastValue (b!"sig") (entriesFor feature text) = some s ∧ SigningData feature (entriesFor feature text) data
    ∧ d <+: data ∧ l.world.verify d s = .ok true

/-- The environment is that of the host, or that of a host whose firmware table cannot be read. -/
def EnvLess (h : WinHost) (e : Env) : Prop := h.mkEnv = .ok e ∨ { h with raw := none }.mkEnv = .ok e

end Licensecc.Win.Spec
