import Verif.Spec.Acquire
import Verif.Model.Linux
/-!
# Specification: what the library may believe when memory runs out
-/
namespace Licensecc.Spec

/-- `file'` is what may come out of reading `file`: nothing, or the beginning of the text. -/
def TextLess (file file' : Option Bytes) : Prop := file' = none ∨ ∃ c t, file = some c ∧ t <+: c ∧ file' = some t

/-- Each directory and the file system table may be missed as a whole, the tables of `blkid` from some position on. -/
structure DisksLess (h h' : DiskHost) : Prop where
  byUuid : h'.byUuid = h.byUuid ∨ h'.byUuid = none
  byLabel : h'.byLabel = h.byLabel ∨ h'.byLabel = none
  byPartLabel : h'.byPartLabel = h.byPartLabel ∨ h'.byPartLabel = none
  blkidRun : TextLess h.blkidRun h'.blkidRun
  blkidEtc : TextLess h.blkidEtc h'.blkidEtc
  fstab : h'.fstab = h.fstab ∨ h'.fstab = none

/-- OpenSSL confirms that `b` is the signature of `d` under the compiled-in key. -/
def ConfirmsBytes (o : OpenSsl) (d b : Bytes) : Prop :=
  o.keyParses = true ∧ o.contextCreated = true ∧ o.digestInit = true ∧ o.digestUpdate d = 1 ∧ o.digestFinal d b = 1

/-- Of the data that the signature of the text covers, OpenSSL confirms a beginning; the signature may have been taken without decoding it, or as
    empty. -/
def BeginningSigned (o : OpenSsl) (feature text : Bytes) : Prop :=
  ∃ s data d b, lastValue (b!"sig") (entriesFor feature text) = some s ∧ SigningData feature (entriesFor feature text) data
    ∧ d <+: data ∧ (o.bioRead s = some b ∨ b = s ∨ b = []) ∧ b.length < 512 ∧ ConfirmsBytes o d b

/-- The lines read of a file: none if it is missing or was missed; else those up to some position. -/
def LinesLess (file : Option Bytes) (lines : Option (List Bytes)) : Prop :=
  lines = none ∨ ∃ s ls, file = some s ∧ ls <+: splitString s 10 ∧ lines = some ls

/-- The container told by the lines of /proc/1/cgroup, else by those of /run/systemd/container. -/
def containerOf (cgroup systemd : Option (List Bytes)) : Container :=
  match cgroup.map procLines with
  | some .docker => .docker
  | some .lxc => .lxc
  | _ => (systemd.map systemdLines).getD .none

/-- The environment `e` is that of the host, but each firmware text may be missed, and of the files that tell the container only the
    beginnings may have been read. -/
structure EnvLess (h : Host) (e : Env) : Prop where
  vendor : e.dmi.biosVendor = dmiBiosVendor h ∨ e.dmi.biosVendor = []
  description : dmiDescription h = .ok e.dmi.biosDescription ∨ e.dmi.biosDescription = []
  sys : dmiSysVendor h = .ok e.dmi.sysVendor ∨ e.dmi.sysVendor = []
  cpuVendor : e.cpuVendor = h.cpuVendor
  cpuBrand : e.cpuBrand = h.cpuBrand
  container : ∃ cgroup systemd, LinesLess h.cgroup cgroup ∧ LinesLess h.systemdContainer systemd ∧ e.container = containerOf cgroup systemd

end Licensecc.Spec
