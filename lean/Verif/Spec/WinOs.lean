import Verif.Model.WinOs
import Verif.Spec.WinNetwork
/-!
# Specification: volumes on Windows
-/
namespace Licensecc.Win.Spec

/-- A readable volume on a fixed drive among the first 40: serial number and file system (such as NTFS). -/
def Volume (drives : List Drive) (serial : UInt32) (fs : Bytes) : Prop :=
  ∃ d ∈ drives.take 40, d.fixed = true ∧ ∃ name, d.volume = some (name, serial, fs)

/-- The bytes of a 32 bit number, least significant first. -/
def serialByte (n : UInt32) (i : Nat) : UInt8 := UInt8.ofNat (n.toNat / 256 ^ i)

/-- Every volume is still there. -/
def KeepsVolumes (l l' : List Drive) : Prop := ∀ serial fs, Volume l serial fs → Volume l' serial fs

/-- Every adapter still has its addresses (its description may change). -/
def KeepsAdapters (l l' : List IpAdapter) : Prop := ∀ d x, Shows l d x → ∃ d', Shows l' d' x

end Licensecc.Win.Spec
