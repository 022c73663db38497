import Verif.Model.LogTextWin
import Verif.Spec.LogText
/-!
# Specification: what the library writes in its log on Windows
-/
namespace Licensecc.Win.Spec
open Licensecc.Spec LogText

/-- What is logged about a hardware identifier that is looked at: an error with its text and the reason if it does not stand for 8 bytes
    or names a strategy that does not exist; nothing about any other, whatever adapters and drives there are. -/
inductive IdentifierLogged (lib : Exn → Bytes) (s : Bytes) : List LogText.Entry → Prop
  | equals : identifierText s = b!"==" → IdentifierLogged lib s [.validating s (lib .lengthError)]
  | size : identifierText s ≠ b!"==" → decodedSize (identifierText s) ≠ 8 →
      IdentifierLogged lib s [.validating s (b!"wrong identifier size " ++ s)]
  | unsupported {id : HwId} : HwId.ofString s = .ok id → 3 ≤ id.d1.toNat / 32 →
      IdentifierLogged lib s [.validating s (b!"strategy not supported")]
  | known {id : HwId} : HwId.ofString s = .ok id → id.d1.toNat / 32 ≤ 2 → IdentifierLogged lib s []

/-- What is logged because of one text: nothing unless its identifier is looked at. -/
inductive TextLogged (cfg : Config) (l : Windows) (lib : Exn → Bytes) (magic : Nat) (feature text : Bytes) (now : Int) :
    List LogText.Entry → Prop
  | unlooked : (¬ ∃ s, LooksAt cfg l.world magic feature text now s) → TextLogged cfg l lib magic feature text now []
  | looked {s : Bytes} {es : List LogText.Entry} : LooksAt cfg l.world magic feature text now s → IdentifierLogged lib s es →
      TextLogged cfg l lib magic feature text now es

/-- What is logged because of texts one after the other; the times are among the first `K` readings of the clock and the one after. -/
inductive TextsLogged (cfg : Config) (l : Windows) (lib : Exn → Bytes) (magic : Nat) (feature : Bytes) (K : Nat) :
    List (Bytes × Bytes) → List LogText.Entry → Prop
  | nil : TextsLogged cfg l lib magic feature K [] []
  | cons {src text : Bytes} {ps : List (Bytes × Bytes)} {k : Nat} {es es' : List LogText.Entry} : k ≤ K →
      TextLogged cfg l lib magic feature text (l.clock k) es → TextsLogged cfg l lib magic feature K ps es' →
      TextsLogged cfg l lib magic feature K ((src, text) :: ps) (es ++ es')

/-- A text as it is in a file written in text mode: a carriage return before each line end. -/
inductive TextMode : Bytes → Bytes → Prop
  | nil : TextMode [] []
  | lineEnd {t u : Bytes} : TextMode t u → TextMode (10 :: t) (13 :: 10 :: u)
  | other {c : UInt8} {t u : Bytes} : c ≠ 10 → TextMode t u → TextMode (c :: t) (c :: u)

/-- What is logged while an identifier is looked for by strategy `n`: why there is none. -/
inductive Sought (l : Windows) : Int → Option Bytes → Prop
  | found {n : Int} {b : Bytes} : n = 0 ∨ n = 1 ∨ n = 2 → Identifies l.world.machine n b → Sought l n none
  | none {n : Int} {t : Bytes} : n = 0 ∨ n = 1 ∨ n = 2 → (∀ b, ¬ Identifies l.world.machine n b) → IntText n t →
      Sought l n (some (b!"strategy " ++ t ++ b!" failed"))
  /-- default on a machine without virtualisation: the drives -/
  | bareMetal {e : ExecSummary} {b : Bytes} : l.host.execSummary = .ok e → e.virtualization = .none →
      Identifies l.world.machine 2 b → Sought l (-1) none
  | bareMetalNone {e : ExecSummary} : l.host.execSummary = .ok e → e.virtualization = .none →
      (∀ b, ¬ Identifies l.world.machine 2 b) → Sought l (-1) (some (b!"strategy not supported"))
  /-- default in a virtual machine that is not in a cloud: the adapters -/
  | virtual {e : ExecSummary} {b : Bytes} : l.host.execSummary = .ok e → e.virtualization = .vm → e.isCloud = false →
      Identifies l.world.machine 0 b → Sought l (-1) none
  | virtualNone {e : ExecSummary} : l.host.execSummary = .ok e → e.virtualization = .vm → e.isCloud = false →
      (∀ b, ¬ Identifies l.world.machine 0 b) → Sought l (-1) (some (b!"strategy not supported"))
  /-- default in a cloud: no strategy at all -/
  | cloud {e : ExecSummary} : l.host.execSummary = .ok e → e.virtualization = .vm → e.isCloud = true →
      Sought l (-1) (some (b!"strategy not supported"))
  /-- any other number -/
  | other {n : Int} : n < -1 ∨ 2 < n → Sought l n (some (b!"strategy not supported"))

/-- What is logged by a call of `identify_pc` with enough memory for an identifier, and whether there is one: a value of the environment
    variable that names no strategy; and why there is no identifier. -/
inductive IdentifyLogged (l : Windows) (strategy : Int) : List LogText.Entry → Bool → Prop
  | found {n : Int} {used : Bool} {es : List LogText.Entry} : StrategyUsed (l.getenv (b!"IDENTIFICATION_STRATEGY")) strategy n used →
      VariableLogged (l.getenv (b!"IDENTIFICATION_STRATEGY")) strategy es → Sought l n none → IdentifyLogged l strategy es true
  | failed {n : Int} {used : Bool} {es : List LogText.Entry} {why : Bytes} :
      StrategyUsed (l.getenv (b!"IDENTIFICATION_STRATEGY")) strategy n used →
      VariableLogged (l.getenv (b!"IDENTIFICATION_STRATEGY")) strategy es → Sought l n (some why) →
      IdentifyLogged l strategy (es ++ [.identifying why]) false

end Licensecc.Win.Spec
