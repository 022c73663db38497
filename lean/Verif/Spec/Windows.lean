import Verif.Model.Windows
import Verif.Spec.WinOs
import Verif.Spec.Linux
import Verif.Spec.Der
/-!
# Specification: a licence on a Windows computer

Licence files are the same as on Linux (`LicenceFile`).
-/
namespace Licensecc.Win.Spec
open Licensecc.Spec Licensecc.Spec.Der

/-- What Windows guarantees: `std::sort` sorts, addresses come in dotted notation. -/
structure Regular (n : Net) : Prop where
  sorts : n.Sorts
  proper : ∀ l, Delivers n l → Proper l

/-- Every adapter still has its addresses. -/
def NetworkKept (l l' : Windows) : Prop :=
  ∃ as as', Delivers l.net as ∧ Delivers l'.net as' ∧ KeepsAdapters as as'

/-- The hardware that an identifier made on `l` with this strategy belongs to is still there on `l'`. -/
inductive HardwareKept (l l' : Windows) : Int → Prop
  | network {n : Int} : n = 0 ∨ n = 1 → NetworkKept l l' → HardwareKept l l' n
  | disk : KeepsVolumes l.drives l'.drives → HardwareKept l l' 2
  /-- the default strategy on bare metal -/
  | bareMetal {e : ExecSummary} : l.host.execSummary = .ok e → e.virtualization = .none → KeepsVolumes l.drives l'.drives →
      HardwareKept l l' (-1)
  /-- the default strategy on a virtual machine or in a container -/
  | virtual {e : ExecSummary} : l.host.execSummary = .ok e → e.virtualization ≠ .none → NetworkKept l l' → HardwareKept l l' (-1)

/-- identify_pc, called on `l` with a large enough buffer, returned true and stored `id`; and the hardware behind it is there on
    `l'`. -/
def IdentifiedOn (l l' : Windows) (id : Bytes) : Prop :=
  ∃ strategy mem size rest n used, identifyPc l.os.machine strategy (some mem) size = .ok ⟨true, size, some (id ++ 0 :: rest)⟩
    ∧ size ≤ mem.length
    ∧ StrategyUsed (l.getenv (b!"IDENTIFICATION_STRATEGY")) strategy n used ∧ HardwareKept l l' n

/-- The dates of a licence are met throughout the call, and the last day is less than 2^31 days ahead. -/
structure InTime (l : Windows) (limits : List (Bytes × Bytes)) : Prop where
  begins : ∀ v, (b!"valid-from", v) ∈ limits → ∃ d, IsNotation v d ∧ ∀ k, l.mktime d.year d.month d.day ≤ l.clock k
  ends : ∀ v, (b!"valid-to", v) ∈ limits → ∃ d, IsNotation v d ∧ ∀ k, l.clock k ≤ l.mktime d.year d.month d.day
    ∧ l.mktime d.year d.month d.day - l.clock k < 86400 * 2147483647

/-- The file lies next to the executable: same name, extension `.lic`, a path of fewer than 260 bytes. -/
structure NextToExecutable (l : Windows) (text : Bytes) (exe : Bytes) : Prop where
  path : l.exe = some exe
  short : exe.length < 260 ∧ (removeExtension exe ++ b!".lic").length < 260
  opens : l.probe (removeExtension exe ++ b!".lic") = true
  content : l.read (removeExtension exe ++ b!".lic") = some text

/-- The library was built with this key: a modulus of 1024 bits and an exponent of three bytes. -/
structure BuiltWith (b : Bcrypt) (m e : Bytes) : Prop where
  sized : b.Sized
  modulus : Bytewide m 128
  exponent : Minimal e ∧ e.length = 3
  key : b.publicKey = publicKey m e

/-- BCrypt confirms the signature text for the data with this key. -/
structure Confirms (b : Bcrypt) (m e data sig : Bytes) : Prop where
  available : b.hashProvider = true ∧ b.properties = true ∧ b.allocated = true ∧ b.hashCreated = true ∧ b.rsaProvider = true
  imports : b.imports m e = true
  verifies : ∃ h d, b.hash data = some h ∧ unbase64 sig = .ok d ∧ d ≠ [] ∧ b.verifies m e h d = true

/-- The computer has the hardware that the bytes of an identifier describe. -/
inductive Carries (l : Windows) (h : HwId) : Prop
  /-- the hardware address of an adapter -/
  | mac {as : List IpAdapter} {d : Bytes} {x : Adapter} : h.d1 = 0 → Delivers l.net as → Shows as d x →
      x.mac = ⟨h.d2, h.d3, h.d4, h.d5, h.d6, h.d7⟩ → Carries l h
  /-- the first IPv4 address of an adapter -/
  | ip {as : List IpAdapter} {d : Bytes} {x : Adapter} : h.d1 = 32 → Delivers l.net as → Shows as d x →
      x.ip = ⟨h.d2, h.d3, h.d4, h.d5⟩ → x.ip ≠ ⟨0, 0, 0, 0⟩ → h.d6 = 42 → h.d7 = 42 → Carries l h
  /-- the serial number of a volume or the name of its file system -/
  | volume {serial : UInt32} {fs : Bytes} : h.d1.toNat / 32 = 2 → Volume l.drives serial fs →
      (SerialIs ⟨serialByte serial 0, serialByte serial 1, serialByte serial 2, serialByte serial 3, 0, 0, 0, 0⟩ h ∨ LabelIs fs h) →
      Carries l h

end Licensecc.Win.Spec
