import Verif.Model.Linux
import Verif.Spec.Os
import Verif.Spec.Identify
import Verif.Spec.Issued
/-!
# Specification: a licence on a Linux computer
-/
namespace Licensecc.Spec

/-- Every network interface is still there with the same addresses. -/
def NetworkKept (l l' : Linux) : Prop :=
  ∃ es es', l.net.ifaddrs = some es ∧ l'.net.ifaddrs = some es' ∧ KeepsInterfaces es es'

/-- The blkid cache that is used. -/
def cacheOf (h : DiskHost) : Option Bytes := h.blkidRun <|> h.blkidEtc

/-- The disks are still there: those of /dev/disk/by-uuid, which can be enumerated safely (C53, C44); or, where that directory has
    none, those of an unchanged blkid cache. -/
inductive DisksKept (l l' : Linux) : Prop
  | byUuid {es es' : List UuidEntry} : l.disks.byUuid = some es → usable es ≠ [] → l'.disks.byUuid = some es' →
      KeepsDisks l.disks l'.disks es es' → ¬ Overruns es' →
      (∀ tab t, l'.disks.fstab = some tab → (b!"LABEL=" ++ t) ∈ tab →
        ∀ n ino, (n, ino) ∈ listedDisks es' → (lastLabel (labelDir l'.disks) ino).isSome = true) →
      DisksKept l l'
  | cache : (∀ es, l.disks.byUuid = some es → usable es = []) → (∀ es, l'.disks.byUuid = some es → usable es = []) →
      cacheOf l.disks = cacheOf l'.disks → DisksKept l l'

/-- The hardware that an identifier made on `l` with this strategy belongs to is still there on `l'`. -/
inductive HardwareKept (l l' : Linux) : Int → Prop
  | network {n : Int} : n = 0 ∨ n = 1 → NetworkKept l l' → HardwareKept l l' n
  | disk : DisksKept l l' → HardwareKept l l' 2
  /-- the default strategy on bare metal -/
  | bareMetal {e : ExecSummary} : execSummary l.host = .ok e → e.virtualization = .none → DisksKept l l' → HardwareKept l l' (-1)
  /-- the default strategy on a virtual machine or in a container -/
  | virtual {e : ExecSummary} : execSummary l.host = .ok e → e.virtualization ≠ .none → NetworkKept l l' → HardwareKept l l' (-1)

/-- identify_pc, called on `l` with a large enough buffer, returned true and stored `id`; and the hardware behind it is there on
    `l'`. -/
def IdentifiedOn (l l' : Linux) (id : Bytes) : Prop :=
  ∃ strategy mem size rest n used, identifyPc l.os.machine strategy (some mem) size = .ok ⟨true, size, some (id ++ 0 :: rest)⟩
    ∧ size ≤ mem.length
    ∧ StrategyUsed (l.getenv (b!"IDENTIFICATION_STRATEGY")) strategy n used ∧ HardwareKept l l' n

/-- A licence file as the issuer writes it for a feature, with these limits and this signature for `data`. -/
structure LicenceFile (feature : Bytes) (limits : List (Bytes × Bytes)) (data sig text : Bytes) : Prop where
  plainFeature : PlainText feature ∧ 93 ∉ feature
  plainLimits : ∀ e ∈ limits, PlainKey e.1 ∧ PlainText e.2
  distinct : (b!"lic_ver" :: b!"sig" :: limits.map (·.1)).Pairwise (fun a b => ¬ SameCI a b)
  plainSignature : PlainText sig
  written : text = issuedText feature limits sig
  signedData : IssuedData feature limits data
  size : text.length ≤ 4096

/-- The dates of a licence are met throughout the call, and the last day is less than 2^31 days ahead. -/
structure InTime (l : Linux) (limits : List (Bytes × Bytes)) : Prop where
  begins : ∀ v, (b!"valid-from", v) ∈ limits → ∃ d, IsNotation v d ∧ ∀ k, l.mktime d.year d.month d.day ≤ l.clock k
  ends : ∀ v, (b!"valid-to", v) ∈ limits → ∃ d, IsNotation v d ∧ ∀ k, l.clock k ≤ l.mktime d.year d.month d.day
    ∧ l.mktime d.year d.month d.day - l.clock k < 86400 * 2147483647

/-- The file lies next to the executable: same name, extension `.lic`, a path of fewer than 1024 bytes. -/
structure NextToExecutable (l : Linux) (text : Bytes) (exe : Bytes) : Prop where
  path : l.exe = some exe
  noNul : 0 ∉ exe
  short : exe.length < 1024 ∧ (removeExtension exe ++ b!".lic").length < 1024
  opens : l.probe (removeExtension exe ++ b!".lic") = true
  content : l.read (removeExtension exe ++ b!".lic") = some text

/-- Seven bytes that identify a serial number; of the first byte only five bits count. -/
def SerialIs (sn : DiskSn) (h : HwId) : Prop :=
  sn.s0.toNat % 32 = h.d1.toNat % 32 ∧ sn.s1 = h.d2 ∧ sn.s2 = h.d3 ∧ sn.s3 = h.d4 ∧ sn.s4 = h.d5 ∧ sn.s5 = h.d6 ∧ sn.s6 = h.d7

/-- Six bytes that identify a label, padded with NULs; of the first byte only five bits count. -/
def LabelIs (label : Bytes) (h : HwId) : Prop :=
  ∃ c0 tail, label.takeWhile (· ≠ 0) ++ [0, 0, 0, 0, 0, 0] = c0 :: h.d2 :: h.d3 :: h.d4 :: h.d5 :: h.d6 :: tail
    ∧ c0.toNat % 32 = h.d1.toNat % 32 ∧ h.d7 = 0

/-- The computer has the hardware that the bytes of an identifier describe. -/
inductive Carries (l : Linux) (h : HwId) : Prop
  /-- the last hardware address of a network interface -/
  | mac {es : List IfEntry} {name : Bytes} {m : Mac} : h.d1 = 0 → l.net.ifaddrs = some es → (macsOf es name).getLast? = some m →
      m = ⟨h.d2, h.d3, h.d4, h.d5, h.d6, h.d7⟩ → m ≠ ⟨0, 0, 0, 0, 0, 0⟩ → Carries l h
  /-- the last IPv4 address of a network interface -/
  | ip {es : List IfEntry} {name : Bytes} {a : Ipv4} : h.d1 = 32 → l.net.ifaddrs = some es → (addressesOf es name).getLast? = some a →
      a = ⟨h.d2, h.d3, h.d4, h.d5⟩ → a ≠ ⟨0, 0, 0, 0⟩ → h.d6 = 42 → h.d7 = 42 → Carries l h
  /-- the UUID or the label of a disk in /dev/disk/by-uuid -/
  | disk {es : List UuidEntry} {n : Bytes} {ino : Int} : h.d1.toNat / 32 = 2 → l.disks.byUuid = some es →
      (n, ino) ∈ listedDisks es →
      (SerialIs (serialOf n) h ∨ ∃ t, lastLabel (labelDir l.disks) ino = some t ∧ LabelIs t h) → Carries l h
  /-- where that directory has no disk: a disk of the blkid cache (as it is read, C54) -/
  | cached {c : Bytes} {ds : List Disk} {m : UuidMap} {d : Disk} : h.d1.toNat / 32 = 2 →
      (∀ es, l.disks.byUuid = some es → usable es = []) → cacheOf l.disks = some c → parseBlkid c [] [] = .ok (.ok, ds, m) →
      d ∈ ds → (SerialIs d.sn h ∨ LabelIs d.label h) → Carries l h

end Licensecc.Spec
