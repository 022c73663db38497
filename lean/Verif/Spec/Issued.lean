import Verif.Spec.Trouble
import Verif.Spec.DateNotation
/-!
# Specification: a licence as the issuer writes it
-/
namespace Licensecc.Spec

/-- One line of text that neither begins nor ends with white space. -/
structure PlainText (s : Bytes) : Prop where
  oneLine : ∀ c ∈ s, c ≠ 10 ∧ c ≠ 13 ∧ c ≠ 0
  head : ∀ c, s.head? = some c → c ∉ ([32, 9, 10, 11, 12, 13] : Bytes)
  last : ∀ c, s.getLast? = some c → c ∉ ([32, 9, 10, 11, 12, 13] : Bytes)

/-- The name of a limit: not empty, without `=`, not beginning like a comment or a section. -/
structure PlainKey (k : Bytes) : Prop extends PlainText k where
  noEquals : 61 ∉ k
  starts : ∃ c r, k = c :: r ∧ c ≠ 59 ∧ c ≠ 35 ∧ c ≠ 91

/-- The file: the section of the feature, the version, the limits, the signature, one per line. -/
def issuedText (feature : Bytes) (limits : List (Bytes × Bytes)) (sig : Bytes) : Bytes :=
  b!"[" ++ toUpperCopy feature ++ b!"]\nlic_ver = 200\n"
    ++ (limits.flatMap fun e => e.1 ++ b!" = " ++ e.2 ++ b!"\n") ++ b!"sig = " ++ sig ++ b!"\n"

/-- The bytes the issuer signs: the upper-case name of the feature, then name and value of every limit (the version is one),
    sorted by name. -/
def IssuedData (feature : Bytes) (limits : List (Bytes × Bytes)) (data : Bytes) : Prop :=
  ∃ sorted : List (Bytes × Bytes), sorted.Perm ((b!"lic_ver", b!"200") :: limits)
    ∧ sorted.Pairwise (fun a b => Before a.1 b.1)
    ∧ data = toUpperCopy feature ++ sorted.flatMap fun e => e.1 ++ e.2

/-- `text` was issued for `feature` with these limits, and its signature is good. -/
structure Issued (w : World) (feature : Bytes) (limits : List (Bytes × Bytes)) (text : Bytes) : Prop where
  plainFeature : PlainText feature ∧ 93 ∉ feature
  plainLimits : ∀ e ∈ limits, PlainKey e.1 ∧ PlainText e.2
  /-- the names are distinct, ignoring case, and are not `lic_ver` or `sig` -/
  distinct : (b!"lic_ver" :: b!"sig" :: limits.map (·.1)).Pairwise (fun a b => ¬ SameCI a b)
  signed : ∃ sig data, PlainText sig ∧ text = issuedText feature limits sig ∧ IssuedData feature limits data
    ∧ w.verify data sig = .ok true

/-- The limits are met from now on during the whole call on this machine. -/
structure Met (w : World) (limits : List (Bytes × Bytes)) : Prop where
  begins : ∀ v, (b!"valid-from", v) ∈ limits → ∃ d, IsNotation v d ∧ ∀ k, w.mktime d.year d.month d.day ≤ w.clock k
  ends : ∀ v, (b!"valid-to", v) ∈ limits → ∃ d, IsNotation v d ∧ ∀ k, w.clock k ≤ w.mktime d.year d.month d.day
  /-- the identifier is one that `identify_pc` produced on a machine of which this one has all the hardware -/
  here : ∀ v, (b!"client-signature", v) ∈ limits →
    ∃ m n, generateUserPcSignature m n = .ok v ∧ Extends m w.machine

end Licensecc.Spec
