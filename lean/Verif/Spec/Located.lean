import Verif.Spec.Acquire
/-!
# Specification: the texts the library reads, in order, and what is reported about a licence
-/
namespace Licensecc.Spec

/-- The text of a file, if it exists. -/
def fileText (w : World) (p : Bytes) : Option (Bytes × Bytes) :=
  if w.probe p then (w.read p).map fun c => (p, c.take 4096) else none

/-- The text decoded from base64, up to its first NUL. -/
def decodedText (v : Bytes) : Option Bytes := match unbase64 v with
  | .ok b => if 0 ∈ b then some (b.takeWhile (· ≠ 0)) else none
  | _ => none

/-- The text read because of LICENSE_DATA. -/
def dataText (w : World) : Option (Bytes × Bytes) := do
  let dat ← w.getenv (b!"LICENSE_DATA")
  let v ← w.getenv (b!"LICENSE_LOCATION")
  if dat = [] then none
  else match identifyFormat dat with
    | .ini => some (b!"LICENSE_LOCATION", v)
    | .base64 => (decodedText v).map fun t => (b!"LICENSE_LOCATION", t)
    | .unknown => none

/-- The texts named by the caller. -/
def hintTexts (w : World) (l : LicenseLocation) : List (Bytes × Bytes) :=
  let d := (l.data.take 4096).takeWhile (· ≠ 0)
  if d = [] then []
  else if l.kind = 0 then (splitString d 59).filterMap fun p =>
    if p = b!"ExternalDefinition" then (if w.probe p then some (p, d) else none) else fileText w p
  else if l.kind = 1 then [(b!"ExternalDefinition", d)]
  else ((decodedText d).map fun t => (b!"ExternalDefinition", t)).toList

/-- All texts the library reads, in this order: near the executable, the files listed in LICENSE_LOCATION, LICENSE_DATA,
    the caller's location. -/
def located (cfg : Config) (w : World) (hint : Option LicenseLocation) : List (Bytes × Bytes) :=
  (if cfg.nearModule then (w.moduleName.toList.map (fun m => removeExtension m ++ b!".lic")).filterMap (fileText w) else [])
  ++ (if cfg.withEnvVar then (splitString ((w.getenv (b!"LICENSE_LOCATION")).getD []) 59).filterMap (fileText w) else [])
  ++ (if cfg.withEnvVar then (dataText w).toList else [])
  ++ (match hint with
      | some l => hintTexts w l
      | none => [])

/-- `n` is the number of days nearest to `secs` seconds; halves are rounded away from zero. -/
def NearestDays (secs n : Int) : Prop :=
  2 * (n * 86400 - secs).natAbs ≤ 86400 ∧ (2 * (n * 86400 - secs).natAbs = 86400 → secs.natAbs < (n * 86400).natAbs)

/-- What is reported about the licence in `text` at time `now`. -/
structure Describes (w : World) (feature text : Bytes) (now : Int) (i : LicInfo) : Prop where
  expires : ∀ d, IsLimit (entriesFor feature text) (b!"valid-to") d → i.hasExpiry = true
    ∧ i.expiryDate = (d.takeWhile (· ≠ 0)).take 10
    ∧ ∃ t n, secondsFromEpoch w.mktime d = .ok t ∧ NearestDays (t - now) n ∧ -2147483648 ≤ n ∧ n ≤ 2147483647 ∧ i.daysLeft = max n 0
  unlimited : (¬ ∃ d, IsLimit (entriesFor feature text) (b!"valid-to") d) →
    i.hasExpiry = false ∧ i.expiryDate = [] ∧ i.daysLeft = 9999
  linked : i.linkedToPc = true ↔ ∃ s, IsLimit (entriesFor feature text) (b!"client-signature") s
  extra : ∀ v, IsLimit (entriesFor feature text) (b!"extra-data") v → i.proprietary = some ((v.takeWhile (· ≠ 0)).take 16)
  noExtra : (¬ ∃ v, IsLimit (entriesFor feature text) (b!"extra-data") v) → i.proprietary = none

/-- `a` is strictly better than `b`: `b` expires and `a` does not, or has more days left. -/
def Better (a b : LicInfo) : Prop := b.hasExpiry = true ∧ (a.hasExpiry = false ∨ b.daysLeft < a.daysLeft)

end Licensecc.Spec
