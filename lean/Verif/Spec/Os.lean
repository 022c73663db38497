import Verif.Model.Os
import Verif.Spec.Network
import Verif.Spec.Disks
/-!
# Specification: hardware that is kept
-/
namespace Licensecc.Spec

/-- Every interface of the first enumeration is still there with the same addresses. -/
def KeepsInterfaces (es es' : List IfEntry) : Prop :=
  ∀ name, IsInterface es name → IsInterface es' name ∧ adapterOf es' name = adapterOf es name

/-- The disks that are looked at: name in the by-uuid directory and inode. -/
def listedDisks (es : List UuidEntry) : List (Bytes × Int) := (firstPerInode (usable es)).take 40

/-- Every disk that is looked at on `h` is also looked at on `h'`, with the same label if it has one; inode numbers may change. -/
def KeepsDisks (h h' : DiskHost) (es es' : List UuidEntry) : Prop :=
  ∀ n ino, (n, ino) ∈ listedDisks es → ∃ ino', (n, ino') ∈ listedDisks es'
    ∧ ∀ l, lastLabel (labelDir h) ino = some l → lastLabel (labelDir h') ino' = some l

end Licensecc.Spec
