import Verif.Spec.Order
import Verif.Spec.Version
import Verif.Model.Acquire
import Verif.Spec.Ini
import Verif.Spec.Hardware
/-!
# Specification of acquire_license

Which licence texts are offered to the library, and when such a text grants a feature.  Written on the world and on the
entries of the texts, without the control flow of the code.
-/
namespace Licensecc.Spec

/-- `d` is the text held by a character array of which `n` bytes are looked at: it ends at its NUL or, if there is more
    memory, at `n` bytes. -/
def TextIn (mem : Bytes) (n : Nat) (d : Bytes) : Prop :=
  0 ∉ d ∧ ((∃ rest, mem = d ++ 0 :: rest ∧ d.length ≤ n) ∨ (∃ c rest, mem = d ++ c :: rest ∧ d.length = n))

/-- The feature asked for: the caller's feature name, the project name if there is none. -/
inductive FeatureIs (cfg : Config) : Option Caller → Bytes → Prop
  | noCaller : FeatureIs cfg none cfg.projectName
  | noName {c : Caller} : TextIn c.featureName 16 [] → FeatureIs cfg (some c) cfg.projectName
  | named {c : Caller} {f : Bytes} : TextIn c.featureName 16 f → f ≠ [] → FeatureIs cfg (some c) f

/-- The magic number of the caller: 0 without caller informations. -/
def magicOf : Option Caller → Nat
  | none => 0
  | some c => c.magic

/-- Licence texts found through the configured locators: `Offers src text`.  Of a file the first 4096 bytes count. -/
inductive Offers (cfg : Config) (w : World) (hint : Option LicenseLocation) : Bytes → Bytes → Prop
  /-- the file named like the executable with extension `.lic` -/
  | nearModule {m c : Bytes} : cfg.nearModule = true → w.moduleName = some m →
      w.probe (removeExtension m ++ b!".lic") = true → w.read (removeExtension m ++ b!".lic") = some c →
      Offers cfg w hint (removeExtension m ++ b!".lic") (c.take 4096)
  /-- the files listed in the environment variable LICENSE_LOCATION -/
  | envLocation {v p c : Bytes} : cfg.withEnvVar = true → w.getenv (b!"LICENSE_LOCATION") = some v →
      p ∈ splitString v 59 → w.probe p = true → w.read p = some c → Offers cfg w hint p (c.take 4096)
  /-- LICENSE_DATA is set and looks like a licence: the text of LICENSE_LOCATION (sic) -/
  | envData {dat v : Bytes} : cfg.withEnvVar = true → w.getenv (b!"LICENSE_DATA") = some dat → dat ≠ [] →
      identifyFormat dat = .ini → w.getenv (b!"LICENSE_LOCATION") = some v → Offers cfg w hint (b!"LICENSE_LOCATION") v
  /-- the same, decoded; only if the decoded bytes contain a NUL, up to that -/
  | envDataEncoded {dat v d rest : Bytes} : cfg.withEnvVar = true → w.getenv (b!"LICENSE_DATA") = some dat → dat ≠ [] →
      identifyFormat dat = .base64 → w.getenv (b!"LICENSE_LOCATION") = some v → unbase64 v = .ok (d ++ 0 :: rest) →
      0 ∉ d → Offers cfg w hint (b!"LICENSE_LOCATION") d
  /-- the files listed by the caller -/
  | hintPath {l : LicenseLocation} {d p c : Bytes} : hint = some l → l.kind = 0 → TextIn l.data 4096 d → p ∈ splitString d 59 →
      w.probe p = true → p ≠ b!"ExternalDefinition" → w.read p = some c → Offers cfg w hint p (c.take 4096)
  /-- a listed file that is called `ExternalDefinition`: the list itself is taken for the licence (sic) -/
  | hintPathOddName {l : LicenseLocation} {d : Bytes} : hint = some l → l.kind = 0 → TextIn l.data 4096 d →
      b!"ExternalDefinition" ∈ splitString d 59 → w.probe (b!"ExternalDefinition") = true →
      Offers cfg w hint (b!"ExternalDefinition") d
  /-- the text passed by the caller -/
  | hintPlain {l : LicenseLocation} {d : Bytes} : hint = some l → l.kind = 1 → TextIn l.data 4096 d → d ≠ [] →
      Offers cfg w hint (b!"ExternalDefinition") d
  /-- the same, decoded; only if the decoded bytes contain a NUL, up to that -/
  | hintEncoded {l : LicenseLocation} {d t rest : Bytes} : hint = some l → l.kind = 2 → TextIn l.data 4096 d → d ≠ [] →
      unbase64 d = .ok (t ++ 0 :: rest) → 0 ∉ t → Offers cfg w hint (b!"ExternalDefinition") t

/-- The entries of the sections named like the feature. -/
noncomputable def entriesFor (feature text : Bytes) : List (Bytes × Bytes) := entriesOf (toUpperCopy feature) (Ini.items text)

/-- `v` is the value of limit `k`, spelled exactly like that where it first occurs. -/
def IsLimit (es : List (Bytes × Bytes)) (k v : Bytes) : Prop := firstSpelling k es = some k ∧ lastValue k es = some v

/-- The data covered by the signature: the upper-cased feature, then keys and values in byte order of the keys, all
    trimmed, except the entry spelled `sig`. -/
def SigningData (feature : Bytes) (es : List (Bytes × Bytes)) (data : Bytes) : Prop :=
  ∃ kvs : List (Bytes × Bytes), kvs.Pairwise (fun a b => Before a.1 b.1)
    ∧ (∀ k v, (k, v) ∈ kvs ↔ IsLimit es k v ∧ k ≠ b!"sig")
    ∧ data = toUpperCopy (trimCopy feature) ++ kvs.flatMap fun p => trimCopy p.1 ++ trimCopy p.2

/-- The text has a section for the feature with version 200 and a signature. -/
def Complete (feature text : Bytes) : Prop :=
  (∃ s, lastValue (b!"sig") (entriesFor feature text) = some s)
  ∧ ∃ v, lastValue (b!"lic_ver") (entriesFor feature text) = some v ∧ Means200 v

/-- The signature of the section for the feature is accepted. -/
def Signed (w : World) (feature text : Bytes) : Prop :=
  ∃ s data, lastValue (b!"sig") (entriesFor feature text) = some s ∧ SigningData feature (entriesFor feature text) data
    ∧ w.verify data s = .ok true

/-- Not expired at time `now`. -/
def NotExpired (w : World) (feature text : Bytes) (now : Int) : Prop :=
  ∀ d, IsLimit (entriesFor feature text) (b!"valid-to") d → ∃ t, secondsFromEpoch w.mktime d = .ok t ∧ now ≤ t

/-- Already valid at time `now`. -/
def Started (w : World) (feature text : Bytes) (now : Int) : Prop :=
  ∀ d, IsLimit (entriesFor feature text) (b!"valid-from") d → ∃ t, secondsFromEpoch w.mktime d = .ok t ∧ t ≤ now

/-- The hardware identifier, if any, is one of this machine. -/
def OnThisMachine (w : World) (feature text : Bytes) : Prop :=
  ∀ s, IsLimit (entriesFor feature text) (b!"client-signature") s →
    ∃ h, HwId.ofString s = .ok h ∧ HwMatches w.machine h

/-- The text grants the feature at time `now` to a caller with this magic number. -/
structure Grants (cfg : Config) (w : World) (magic : Nat) (feature text : Bytes) (now : Int) : Prop where
  complete : Complete feature text
  signed : Signed w feature text
  magic : magic = cfg.magic
  notExpired : NotExpired w feature text now
  started : Started w feature text now
  machine : OnThisMachine w feature text

end Licensecc.Spec
