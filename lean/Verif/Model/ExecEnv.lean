import Verif.Model.HwIdentifier
/-!
# Model of the execution environment (Linux): src/library/os/execution_environment_common.cpp,
# src/library/os/linux/execution_environment.cpp, src/library/os/linux/dmi_info.cpp, and of the environment part of identify_pc
-/
namespace Licensecc

/-- LCC_API_VIRTUALIZATION_DETAIL, include/licensecc/datatypes.h:144. -/
inductive VirtDetail where
  | bareToMetal | vmware | virtualbox | xen | kvm | hv | parallels | other
  deriving DecidableEq, Repr

/-- LCC_API_CLOUD_PROVIDER, include/licensecc/datatypes.h:146-159. -/
inductive CloudProvider where
  | unknown | onPremise | google | azure | aws | ali
  deriving DecidableEq, Repr

/-- CONTAINER_TYPE, src/library/os/execution_environment.hpp:25. -/
inductive Container where
  | none | docker | lxc
  deriving DecidableEq, Repr

/-- What the host shows to the library.  Files are `none` if they cannot be opened; their content is what
    `get_file_contents` or `getline` would deliver (for /sys files whose reported size exceeds their content the content is
    padded with NULs, as `contents.resize` does).  `vmOrder` and `cpuOrder` are the iteration orders of the two
    `unordered_map`s, execution_environment_common.cpp:21-33, which the standard does not fix. -/
structure Host where
  /-- /sys/class/dmi/id/sys_vendor -/
  sysVendor : Option Bytes
  /-- /sys/class/dmi/id/modalias -/
  modalias : Option Bytes
  /-- /proc/self/cgroup -/
  cgroup : Option Bytes
  /-- /var/run/systemd/container -/
  systemdContainer : Option Bytes
  /-- `get_cpu_vendor`, src/library/os/linux/cpu_info.cpp:26-32 -/
  cpuVendor : Bytes
  /-- `get_cpu_brand`, src/library/os/linux/cpu_info.cpp:35-49 -/
  cpuBrand : Bytes
  /-- `is_hypervisor_set`, src/library/os/linux/cpu_info.cpp:58-64 -/
  hypervisor : Bool
  vmOrder : List (Bytes × VirtDetail)
  cpuOrder : List (Bytes × VirtDetail)

/-- `virtual_cpu_names`, src/library/os/execution_environment_common.cpp:21-24. -/
def virtualCpuNames : List (Bytes × VirtDetail) :=
  [(b!"bhyve bhyve ", .other), (b!"KVM", .kvm), (b!"MICROSOFT", .hv), (b!" lrpepyh vr", .hv), (b!"prl hyperv  ", .parallels),
   (b!"VMWARE", .vmware), (b!"XenVMMXenVMM", .xen), (b!"ACRNACRNACRN", .other), (b!"VBOX", .virtualbox)]

/-- `vm_vendors`, src/library/os/execution_environment_common.cpp:26-33. -/
def vmVendors : List (Bytes × VirtDetail) :=
  [(b!"VMWARE", .vmware), (b!"MICROSOFT", .hv), (b!"PARALLELS", .parallels), (b!"VITRUAL MACHINE", .other),
   (b!"INNOTEK GMBH", .virtualbox), (b!"POWERVM", .other), (b!"BOCHS", .other), (b!"KVM", .kvm)]

/-- The iteration orders are orders of the two tables. -/
def Host.Ordered (h : Host) : Prop := h.vmOrder.Perm vmVendors ∧ h.cpuOrder.Perm virtualCpuNames

/-- `data.find(needle) != string::npos`; for C strings `strstr(data, needle) != NULL`. -/
def contains (needle : Bytes) : Bytes → Bool
  | [] => needle.isPrefixOf []
  | c :: s => needle.isPrefixOf (c :: s) || contains needle s

/-- `find_in_map`, src/library/os/execution_environment_common.cpp:35-43. -/
def findInMap (m : List (Bytes × VirtDetail)) (data : Bytes) : VirtDetail :=
  match m.find? (fun p => contains p.1 data) with
  | some p => p.2
  | none => .bareToMetal

/-- The loop of `checkContainerProc`, src/library/os/linux/execution_environment.cpp:44-52, over the lines (`strstr` stops at
    a NUL). -/
def procLines : List Bytes → Container
  | [] => .none
  | l :: ls =>
    let t := l.takeWhile (· ≠ 0)
    let r := if contains b!"docker" t then Container.docker else .none
    let r := if contains b!"lxc" t then Container.lxc else r
    if r = .none then procLines ls else r

/-- `checkContainerProc`, src/library/os/linux/execution_environment.cpp:29-59. -/
def checkContainerProc (h : Host) : Container :=
  match h.cgroup with
  | none => .none
  | some s => procLines (splitString s 10)

/-- The loop of `checkSystemdContainer`, src/library/os/linux/execution_environment.cpp:66-75. -/
def systemdLines : List Bytes → Container
  | [] => .docker
  | l :: ls => if contains b!"docker" l then .docker else if contains b!"lxc" l then .lxc else systemdLines ls

/-- `checkSystemdContainer`, src/library/os/linux/execution_environment.cpp:62-78. -/
def checkSystemdContainer (h : Host) : Container :=
  match h.systemdContainer with
  | none => .none
  | some s => systemdLines (splitString s 10)

/-- `get_container_type`, src/library/os/linux/execution_environment.cpp:80-86. -/
def containerType (h : Host) : Container :=
  let r := checkContainerProc h
  if r = .none then checkSystemdContainer h else r

/-- The members of `DmiInfo`, src/library/os/dmi_info.hpp:20-22. -/
structure Dmi where
  biosVendor : Bytes
  biosDescription : Bytes
  sysVendor : Bytes
  deriving DecidableEq, Repr

/-- `m_bios_description`, src/library/os/linux/dmi_info.cpp:17-26: `s[s.length() - 1]` of an empty string is undefined. -/
def dmiDescription (h : Host) : Outcome Bytes :=
  match h.modalias with
  | none => .ok []
  | some c =>
    let s := toUpperCopy (trimCopy (c.take 256))
    if s.length = 0 then .ub
    else
      let last := s.getD (s.length - 1) 0
      .ok (if last = 13 ∨ last = 10 then s.take (s.length - 1) else s)

/-- `m_sys_vendor`, src/library/os/linux/dmi_info.cpp:27-36: `s[s.length() - 2]` is undefined for fewer than two bytes. -/
def dmiSysVendor (h : Host) : Outcome Bytes :=
  match h.sysVendor with
  | none => .ok []
  | some c =>
    let s := c.take 256
    if s.length < 2 then .ub
    else
      let last := s.getD (s.length - 2) 0
      .ok (if last = 13 ∨ last = 10 then s.take (s.length - 1) else s)

/-- `m_bios_vendor`, src/library/os/linux/dmi_info.cpp:11-16 (read from the sys_vendor file). -/
def dmiBiosVendor (h : Host) : Bytes :=
  match h.sysVendor with
  | none => []
  | some c => toUpperCopy (trimCopy (c.take 256))

/-- `DmiInfo::DmiInfo`, src/library/os/linux/dmi_info.cpp:10-37. -/
def dmiInfo (h : Host) : Outcome Dmi := do
  let d ← dmiDescription h
  let s ← dmiSysVendor h
  return ⟨dmiBiosVendor h, d, s⟩

/-- An `ExecutionEnvironment` object, src/library/os/execution_environment.hpp:27-31; `is_hypervisor_set` and the iteration
    orders are read from the host whenever needed. -/
structure Env where
  dmi : Dmi
  cpuVendor : Bytes
  cpuBrand : Bytes
  container : Container
  deriving DecidableEq, Repr

/-- The constructor: CpuInfo, DmiInfo, container type. -/
def mkEnv (h : Host) : Outcome Env := do
  let d ← dmiInfo h
  return ⟨d, h.cpuVendor, h.cpuBrand, containerType h⟩

/-- `cloud_provider`, src/library/os/execution_environment_common.cpp:86-107. -/
def cloudProvider (e : Env) : CloudProvider :=
  let desc := e.dmi.biosDescription
  let bios := e.dmi.biosVendor
  let sys := e.dmi.sysVendor
  if desc.length > 0 ∨ bios.length > 0 ∨ sys.length > 0 then
    if contains b!"SEABIOS" bios || contains b!"ALIBABA" desc || contains b!"ALIBABA" sys then .ali
    else if contains b!"GOOGLE" sys || contains b!"GOOGLECOMPUTEENGINE" desc then .google
    else if contains b!"AWS" bios || contains b!"AMAZON" desc || contains b!"AWS" sys then .aws
    else if contains b!"HP-COMPAQ" desc || contains b!"ASUS" desc || contains b!"DELL" desc then .onPremise
    else .unknown
  else .unknown

/-- `is_cloud`, src/library/os/execution_environment_common.cpp:80-83. -/
def isCloud (e : Env) : Bool := cloudProvider e != .onPremise && cloudProvider e != .unknown

/-- `virtualization_detail`, src/library/os/execution_environment_common.cpp:58-78. -/
def virtualizationDetail (h : Host) (e : Env) : VirtDetail :=
  let r := findInMap h.vmOrder e.dmi.biosDescription
  let r := if r = .bareToMetal then findInMap h.vmOrder e.dmi.biosVendor else r
  let r := if r = .bareToMetal then findInMap h.vmOrder e.dmi.sysVendor else r
  let r := if r = .bareToMetal then findInMap h.cpuOrder e.cpuVendor else r
  let r := if r = .bareToMetal then findInMap h.cpuOrder e.cpuBrand else r
  if r = .bareToMetal then (if h.hypervisor || isCloud e then .other else r) else r

/-- `virtualization`, src/library/os/execution_environment_common.cpp:45-56 (`is_container`: execution_environment.hpp:39). -/
def virtualization (h : Host) (e : Env) : VirtSummary :=
  if e.container ≠ .none then .container
  else if virtualizationDetail h e ≠ .bareToMetal || isCloud e then .vm
  else .none

/-- What `available_strategies` asks a fresh `ExecutionEnvironment`, src/library/hw_identifier/default_strategy.cpp:17-24. -/
def execSummary (h : Host) : Outcome ExecSummary := do
  let e ← mkEnv h
  return ⟨virtualization h e, e.container = .docker, isCloud e⟩

/-- ExecutionEnvironmentInfo, include/licensecc/datatypes.h:163-167. -/
structure EnvInfo where
  provider : CloudProvider
  virtualization : VirtSummary
  detail : VirtDetail
  deriving DecidableEq, Repr

/-- `identify_pc`, src/library/licensecc.cpp:32-56, with its function-local static `exec_env` (line 49), which is constructed
    by the first call and kept: `cache` is that object before the call.  `info` tells whether the caller passed a structure
    to fill.  Result: the identifier part, the filled structure, the static object after the call. -/
def identifyPcEnv (m : Machine) (h : Host) (cache : Option Env) (strategy : Int) (buf : Option Bytes) (bufSize : Nat)
    (info : Bool) : Outcome (IdentifyResult × Option EnvInfo × Option Env) := do
  let r ← identifyPc m strategy buf bufSize
  let e ← match cache with
    | some e => .ok e
    | none => mkEnv h
  let i := if info then some ⟨cloudProvider e, virtualization h e, virtualizationDetail h e⟩ else none
  return (r, i, some e)

end Licensecc
