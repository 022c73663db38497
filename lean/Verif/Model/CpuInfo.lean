import Verif.Model.ExecEnv
import Verif.Model.Smbios
/-!
# Model of `CpuInfo`: src/library/os/linux/cpu_info.cpp, src/library/os/windows/cpu_info.cpp

A processor is what its `cpuid` instruction answers to each number.  `__get_cpuid_max` and `__get_cpuid` are functions of the
compiler's `<cpuid.h>`; they are modelled from its text.
-/
namespace Licensecc

/-- The registers after a `cpuid` instruction. -/
structure Regs where
  eax : UInt32
  ebx : UInt32
  ecx : UInt32
  edx : UInt32
  deriving DecidableEq, Repr

/-- What the processor answers.  Simplification: the answers used do not depend on ECX and do not change. -/
abbrev Cpu := UInt32 → Regs

/-- The four bytes of a register in memory (x86 is little endian). -/
def Regs.bytes32 (x : UInt32) : Bytes := [x.toUInt8, (x >>> 8).toUInt8, (x >>> 16).toUInt8, (x >>> 24).toUInt8]

/-- The sixteen bytes of four registers, src/library/os/linux/cpu_info.cpp:42-44 and windows/cpu_info.cpp:43. -/
def Regs.bytes (r : Regs) : Bytes := Regs.bytes32 r.eax ++ Regs.bytes32 r.ebx ++ Regs.bytes32 r.ecx ++ Regs.bytes32 r.edx

/-- `__get_cpuid_max(ext, NULL)` of `<cpuid.h>`: EAX after the instruction with `ext`. -/
def Cpu.getCpuidMax (c : Cpu) (ext : UInt32) : UInt32 := (c ext).eax

/-- `__get_cpuid(leaf, ...)` of `<cpuid.h>`, with variables that are 0 before: they stay so if the processor does not know the
    number. -/
def Cpu.getCpuid (c : Cpu) (leaf : UInt32) : Regs :=
  let max := c.getCpuidMax (leaf &&& 0x80000000)
  if max = 0 ∨ max < leaf then ⟨0, 0, 0, 0⟩ else c leaf

namespace Linux

/-- `get_cpu_vendor`, src/library/os/linux/cpu_info.cpp:18-31. -/
def cpuVendor (c : Cpu) : Bytes :=
  let r := c.getCpuid 0
  Regs.bytes32 r.ebx ++ Regs.bytes32 r.edx ++ Regs.bytes32 r.ecx

/-- `get_cpu_brand`, src/library/os/linux/cpu_info.cpp:34-48: the array has 64 bytes, the last 16 stay 0. -/
def cpuBrand (c : Cpu) : Bytes :=
  if c.getCpuidMax 0x80000004 = 0 then b!"NA"
  else
    let brand := (c.getCpuid 0x80000002).bytes ++ (c.getCpuid 0x80000003).bytes ++ (c.getCpuid 0x80000004).bytes
      ++ List.replicate 16 0
    brand.takeWhile (· ≠ 0)

/-- `is_hypervisor_set`, src/library/os/linux/cpu_info.cpp:57-63. -/
def hypervisorSet (c : Cpu) : Bool := (((c.getCpuid 1).ecx >>> 31) &&& 1) == 1

/-- `model`, src/library/os/linux/cpu_info.cpp:65-72. -/
def cpuModel (c : Cpu) : UInt32 :=
  let r := c.getCpuid 1
  (r.eax &&& (0x3FFF : UInt32)) ||| ((r.eax &&& (0x3FF8000 : UInt32)) >>> (2 : UInt32)) ||| ((r.ebx &&& (0xff : UInt32)) <<< (24 : UInt32))

end Linux

namespace Win

/-- `get_cpu_vendor`, src/library/os/windows/cpu_info.cpp:18-29. -/
def cpuVendor (c : Cpu) : Bytes :=
  let r := c 0
  Regs.bytes32 r.ebx ++ Regs.bytes32 r.edx ++ Regs.bytes32 r.ecx

/-- `get_cpu_brand`, src/library/os/windows/cpu_info.cpp:31-51: the array has 65 bytes; the comparison in line 39 is one of unsigned
    numbers. -/
def cpuBrand (c : Cpu) : Bytes :=
  if (c 0x80000000).eax ≥ 0x80000004 then
    let brand := (c 0x80000002).bytes ++ (c (0x80000002 + 1)).bytes ++ (c (0x80000002 + 2)).bytes ++ List.replicate 17 0
    brand.takeWhile (· ≠ 0)
  else b!"NA"

/-- `is_hypervisor_set`, src/library/os/windows/cpu_info.cpp:60-65. -/
def hypervisorSet (c : Cpu) : Bool := ((c 1).ecx >>> 31) &&& 1 != 0

/-- `model`, src/library/os/windows/cpu_info.cpp:67-74. -/
def cpuModel (c : Cpu) : UInt32 :=
  ((c 1).eax &&& (0x3FFF : UInt32)) ||| (((c 1).eax &&& (0x3FF8000 : UInt32)) >>> (2 : UInt32)) ||| (((c 1).ebx &&& (0xff : UInt32)) <<< (24 : UInt32))

end Win

/-- The host's processor is `c`: `CpuInfo::CpuInfo` and `is_hypervisor_set`, src/library/os/linux/cpu_info.cpp:50-63. -/
def Host.WithCpu (h : Host) (c : Cpu) : Host :=
  { h with cpuVendor := Linux.cpuVendor c, cpuBrand := Linux.cpuBrand c, hypervisor := Linux.hypervisorSet c }

/-- The same on Windows, src/library/os/windows/cpu_info.cpp:53-65. -/
def Win.WinHost.WithCpu (h : Win.WinHost) (c : Cpu) : Win.WinHost :=
  { h with cpuVendor := Win.cpuVendor c, cpuBrand := Win.cpuBrand c, hypervisor := Win.hypervisorSet c }

end Licensecc
