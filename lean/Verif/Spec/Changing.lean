import Verif.Spec.Acquire
import Verif.Model.Changing
/-!
# Specification of acquire_license while its surroundings change
-/
namespace Licensecc.Spec
open Licensecc.Changing (Worlds)

/-- `text` is what a program gets that measures the file at moment `i` and reads it at moment `j`: as many bytes as there were at `i`,
    at most 4096, as they are at `j`; NULs where there are none any more. -/
def ReadAs (ws : Worlds) (path : Bytes) (i j : Nat) (text : Bytes) : Prop :=
  ∃ old, (ws i).read path = some old ∧ text.length = min old.length 4096
    ∧ ∀ n, n < text.length → text[n]? = some ((((ws j).read path).getD [])[n]?.getD 0)

/-- Licence texts found through the configured locators while the surroundings change, all looks being before moment `t`. -/
inductive Found (cfg : Config) (ws : Worlds) (hint : Option LicenseLocation) : Bytes → Bytes → Nat → Prop
  | nearModule {m text : Bytes} {i j k l t : Nat} : i < j → j < k → k < l → l < t → cfg.nearModule = true → (ws i).moduleName = some m →
      (ws j).probe (removeExtension m ++ b!".lic") = true → ReadAs ws (removeExtension m ++ b!".lic") k l text →
      Found cfg ws hint (removeExtension m ++ b!".lic") text t
  | envLocation {v p text : Bytes} {i j k l t : Nat} : i < j → j < k → k < l → l < t → cfg.withEnvVar = true →
      (ws i).getenv (b!"LICENSE_LOCATION") = some v → p ∈ splitString v 59 → (ws j).probe p = true → ReadAs ws p k l text →
      Found cfg ws hint p text t
  | envData {dat v : Bytes} {i j t : Nat} : i < j → j < t → cfg.withEnvVar = true → (ws i).getenv (b!"LICENSE_DATA") = some dat → dat ≠ [] →
      identifyFormat dat = .ini → (ws j).getenv (b!"LICENSE_LOCATION") = some v → Found cfg ws hint (b!"LICENSE_LOCATION") v t
  | envDataEncoded {dat v d rest : Bytes} {i j t : Nat} : i < j → j < t → cfg.withEnvVar = true →
      (ws i).getenv (b!"LICENSE_DATA") = some dat → dat ≠ [] → identifyFormat dat = .base64 →
      (ws j).getenv (b!"LICENSE_LOCATION") = some v → unbase64 v = .ok (d ++ 0 :: rest) → 0 ∉ d →
      Found cfg ws hint (b!"LICENSE_LOCATION") d t
  | hintPath {loc : LicenseLocation} {d p text : Bytes} {j k l t : Nat} : j < k → k < l → l < t → hint = some loc → loc.kind = 0 →
      TextIn loc.data 4096 d → p ∈ splitString d 59 → (ws j).probe p = true → p ≠ b!"ExternalDefinition" → ReadAs ws p k l text →
      Found cfg ws hint p text t
  | hintPathOddName {l : LicenseLocation} {d : Bytes} {j t : Nat} : j < t → hint = some l → l.kind = 0 → TextIn l.data 4096 d →
      b!"ExternalDefinition" ∈ splitString d 59 → (ws j).probe (b!"ExternalDefinition") = true →
      Found cfg ws hint (b!"ExternalDefinition") d t
  | hintPlain {l : LicenseLocation} {d : Bytes} {t : Nat} : hint = some l → l.kind = 1 → TextIn l.data 4096 d → d ≠ [] →
      Found cfg ws hint (b!"ExternalDefinition") d t
  | hintEncoded {l : LicenseLocation} {d u rest : Bytes} {t : Nat} : hint = some l → l.kind = 2 → TextIn l.data 4096 d → d ≠ [] →
      unbase64 d = .ok (u ++ 0 :: rest) → 0 ∉ u → Found cfg ws hint (b!"ExternalDefinition") u t

/-- The text granted the feature between the moments `a` and `b`: one after the other its signature was accepted, the clock was read,
    and against this reading the text was not expired, had started, and was on its machine. -/
def GrantedBetween (cfg : Config) (ws : Worlds) (magic : Nat) (feature text : Bytes) (a b : Nat) : Prop :=
  Complete feature text ∧ magic = cfg.magic ∧ ∃ s t e f h k, a ≤ s ∧ s < t ∧ t < e ∧ e < f ∧ f < h ∧ h < b
    ∧ Signed (ws s) feature text ∧ NotExpired (ws e) feature text ((ws t).clock k) ∧ Started (ws f) feature text ((ws t).clock k)
    ∧ OnThisMachine (ws h) feature text

/-- What matters for finding `src` holds still: whatever else changes, at every moment it is as in `w`. -/
def HoldsStill (ws : Worlds) (w : World) (src : Bytes) : Prop :=
  ∀ n, (ws n).moduleName = w.moduleName ∧ (ws n).getenv = w.getenv ∧ (ws n).probe src = w.probe src ∧ (ws n).read src = w.read src

/-- The two worlds differ at most in files, environment variables and the name of the executable. -/
structure SameBesidesFiles (w w' : World) : Prop where
  clock : w'.clock = w.clock
  mktime : w'.mktime = w.mktime
  verify : w'.verify = w.verify
  machine : w'.machine = w.machine
  junk : w'.junk = w.junk

end Licensecc.Spec
