import Verif.Spec.Issued
/-!
# Specification: names that begin alike, and what one may change in a licence file
-/
namespace Licensecc.Spec

/-- `x` begins with `k`, in whatever case. -/
def BeginsLike (k x : Bytes) : Prop := ∃ p r, x = p ++ r ∧ SameCI p k

/-- The name of a feature as it is signed. -/
def signedName (feature : Bytes) : Bytes := toUpperCopy (trimCopy feature)

/-- The limits the library enforces. -/
def enforced : List Bytes := [b!"valid-from", b!"valid-to", b!"client-signature"]

end Licensecc.Spec
