import Verif.Model.ExecEnv
/-!
# Specification of the environment classification

Written on the texts of the files the library looks at.
-/
namespace Licensecc.Spec

/-- `word` occurs in `text`. -/
def Mentions (text word : Bytes) : Prop := ∃ a b, text = a ++ word ++ b

/-- `l` is the first of the lines with the property. -/
def FirstLine (p : Bytes → Prop) (lines : List Bytes) (l : Bytes) : Prop :=
  ∃ before after, lines = before ++ l :: after ∧ (∀ x ∈ before, ¬ p x) ∧ p l

/-- The line speaks about a container. -/
def AboutContainer (l : Bytes) : Prop := Mentions l (b!"docker") ∨ Mentions l (b!"lxc")

/-- The lines of /proc/self/cgroup as C strings; none if it cannot be opened. -/
def cgroupLines (h : Host) : List Bytes :=
  match h.cgroup with
  | none => []
  | some s => (splitString s 10).map fun l => l.takeWhile (· ≠ 0)

/-- The kind of container the process runs in. -/
inductive ContainerIs (h : Host) : Container → Prop
  /-- the first cgroup line about a container decides; if it mentions both, it is LXC -/
  | cgroupLxc {l : Bytes} : FirstLine AboutContainer (cgroupLines h) l → Mentions l (b!"lxc") → ContainerIs h .lxc
  | cgroupDocker {l : Bytes} : FirstLine AboutContainer (cgroupLines h) l → ¬ Mentions l (b!"lxc") → ContainerIs h .docker
  /-- otherwise the first line about a container of the systemd file; if it mentions both, it is Docker -/
  | systemdDocker {s l : Bytes} : (∀ x ∈ cgroupLines h, ¬ AboutContainer x) → h.systemdContainer = some s →
      FirstLine AboutContainer (splitString s 10) l → Mentions l (b!"docker") → ContainerIs h .docker
  | systemdLxc {s l : Bytes} : (∀ x ∈ cgroupLines h, ¬ AboutContainer x) → h.systemdContainer = some s →
      FirstLine AboutContainer (splitString s 10) l → ¬ Mentions l (b!"docker") → ContainerIs h .lxc
  /-- the mere existence of the systemd file means Docker -/
  | systemdOther {s : Bytes} : (∀ x ∈ cgroupLines h, ¬ AboutContainer x) → h.systemdContainer = some s →
      (∀ x ∈ splitString s 10, ¬ AboutContainer x) → ContainerIs h .docker
  | no : (∀ x ∈ cgroupLines h, ¬ AboutContainer x) → h.systemdContainer = none → ContainerIs h .none

/-- The three texts about the hardware: description (modalias, trimmed and upper case), vendor (sys_vendor, trimmed and upper
    case) and vendor (sys_vendor as it is, without the last byte if the one before it ends a line). -/
structure Texts (h : Host) (desc bios sys : Bytes) : Prop where
  desc : (h.modalias = none ∧ desc = []) ∨ ∃ c, h.modalias = some c ∧ desc = toUpperCopy (trimCopy (c.take 256)) ∧ desc ≠ []
  bios : (h.sysVendor = none ∧ bios = []) ∨ ∃ c, h.sysVendor = some c ∧ bios = toUpperCopy (trimCopy (c.take 256))
  sys : (h.sysVendor = none ∧ sys = []) ∨ ∃ c, h.sysVendor = some c ∧
    ((∃ a x y, c.take 256 = a ++ [x, y] ∧ (x = 13 ∨ x = 10) ∧ sys = a ++ [x])
     ∨ (∃ a x y, c.take 256 = a ++ [x, y] ∧ x ≠ 13 ∧ x ≠ 10 ∧ sys = a ++ [x, y]))

/-- Names that mean a virtual machine when they occur in a DMI text. -/
def vmWords : List (Bytes × VirtDetail) :=
  [(b!"VMWARE", .vmware), (b!"MICROSOFT", .hv), (b!"PARALLELS", .parallels), (b!"VITRUAL MACHINE", .other),
   (b!"INNOTEK GMBH", .virtualbox), (b!"POWERVM", .other), (b!"BOCHS", .other), (b!"KVM", .kvm)]

/-- Names that mean a virtual machine when they occur in the CPU's vendor or brand. -/
def cpuWords : List (Bytes × VirtDetail) :=
  [(b!"bhyve bhyve ", .other), (b!"KVM", .kvm), (b!"MICROSOFT", .hv), (b!" lrpepyh vr", .hv), (b!"prl hyperv  ", .parallels),
   (b!"VMWARE", .vmware), (b!"XenVMMXenVMM", .xen), (b!"ACRNACRNACRN", .other), (b!"VBOX", .virtualbox)]

/-- Some text names a virtualisation product. -/
def NamesVm (h : Host) (desc bios sys : Bytes) : Prop :=
  (∃ p ∈ vmWords, Mentions desc p.1 ∨ Mentions bios p.1 ∨ Mentions sys p.1)
  ∨ (∃ p ∈ cpuWords, Mentions h.cpuVendor p.1 ∨ Mentions h.cpuBrand p.1)

def NamesAli (desc bios sys : Bytes) : Prop :=
  Mentions bios (b!"SEABIOS") ∨ Mentions desc (b!"ALIBABA") ∨ Mentions sys (b!"ALIBABA")
def NamesGoogle (desc sys : Bytes) : Prop := Mentions sys (b!"GOOGLE") ∨ Mentions desc (b!"GOOGLECOMPUTEENGINE")
def NamesAws (desc bios sys : Bytes) : Prop := Mentions bios (b!"AWS") ∨ Mentions desc (b!"AMAZON") ∨ Mentions sys (b!"AWS")
def NamesPc (desc : Bytes) : Prop := Mentions desc (b!"HP-COMPAQ") ∨ Mentions desc (b!"ASUS") ∨ Mentions desc (b!"DELL")

/-- Which provider is reported. -/
inductive ProviderIs (desc bios sys : Bytes) : CloudProvider → Prop
  | ali : NamesAli desc bios sys → ProviderIs desc bios sys .ali
  | google : ¬ NamesAli desc bios sys → NamesGoogle desc sys → ProviderIs desc bios sys .google
  | aws : ¬ NamesAli desc bios sys → ¬ NamesGoogle desc sys → NamesAws desc bios sys → ProviderIs desc bios sys .aws
  | onPremise : ¬ NamesAli desc bios sys → ¬ NamesGoogle desc sys → ¬ NamesAws desc bios sys → NamesPc desc →
      ProviderIs desc bios sys .onPremise
  | unknown : ¬ NamesAli desc bios sys → ¬ NamesGoogle desc sys → ¬ NamesAws desc bios sys → ¬ NamesPc desc →
      ProviderIs desc bios sys .unknown

/-- The texts name a cloud. -/
def NamesCloud (desc bios sys : Bytes) : Prop := NamesAli desc bios sys ∨ NamesGoogle desc sys ∨ NamesAws desc bios sys

end Licensecc.Spec
