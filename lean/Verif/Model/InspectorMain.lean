import Verif.Model.Inspector
import Verif.Model.Linux
import Verif.Model.CpuInfo
/-!
# Model of `main` of lccinspector on Linux, src/inspector/inspector.cpp:85-162

What it prints, line by line, and on which stream.  The return value is always 0 (no `return` in `main`).
-/
namespace Licensecc.Inspector
open Licensecc

/-- `cout` or `cerr`. -/
inductive Stream where
  | out | err
  deriving DecidableEq, Repr

/-- Lines without the line end. -/
abbrev Printed := List (Stream × Bytes)

/-- A digit as `ostream` writes it (lower case). -/
def digit (d : Nat) : UInt8 := UInt8.ofNat (if d < 10 then 48 + d else 87 + d)

/-- Digits of a number, the last first; the fuel is enough. -/
def digitsRev (base : Nat) : Nat → Nat → Bytes
  | 0, _ => []
  | fuel + 1, n => if n < base then [digit n] else digit (n % base) :: digitsRev base fuel (n / base)

/-- `cout << n` with `std::dec` (10) or `std::hex` (16). -/
def number (base n : Nat) : Bytes := (digitsRev base (n + 1) n).reverse

/-- The lines about an adapter, src/inspector/inspector.cpp:105-119: `id` is never set and stays 0 (src/library/os/linux/network.cpp:68-71,
    src/library/os/windows/network.cpp:132).  Simplification: names have fewer than 1025 bytes (Linux allows 15), so that `description`
    holds all of it. -/
def adapterPart (name : Bytes) (a : Adapter) : Printed :=
  [(.out, b!"Network adapter [" ++ number 10 0 ++ b!"]: " ++ name.takeWhile (· ≠ 0)),
   (.out, b!"   ip address [" ++ number 10 a.ip.i3.toNat ++ b!"-" ++ number 10 a.ip.i2.toNat ++ b!"-" ++ number 10 a.ip.i1.toNat ++ b!"-"
      ++ number 10 a.ip.i0.toNat ++ b!"]"),
   (.out, b!"   mac address [" ++ number 16 a.mac.m0.toNat ++ b!":" ++ number 16 a.mac.m1.toNat ++ b!":" ++ number 16 a.mac.m2.toNat ++ b!":"
      ++ number 16 a.mac.m3.toNat ++ b!":" ++ number 16 a.mac.m4.toNat ++ b!":" ++ number 16 a.mac.m5.toNat ++ b!"]")]

/-- `FUNCTION_RETURN` as a number, src/library/base/base.h:42. -/
def codeOf : FuncRet → Nat
  | .ok => 0
  | .notAvail => 1
  | .error => 2
  | .bufferTooSmall => 3

/-- The lines about the network, src/inspector/inspector.cpp:101-123. -/
def networkPart (r : FuncRet × List (Bytes × Adapter)) : Printed :=
  match r with
  | (.ok, l) => l.flatMap fun p => adapterPart p.1 p.2
  | (e, _) => [(.out, b!"problem in getting adapter informations:" ++ number 10 (codeOf e))]

/-- The lines about the processor, src/inspector/inspector.cpp:125-129. -/
def cpuPart (vendor brand : Bytes) (hypervisor : Bool) (model : UInt32) : Printed :=
  [(.out, b!"Cpu Vendor       :" ++ vendor), (.out, b!"Cpu Brand        :" ++ brand),
   (.out, b!"Cpu hypervisor   :" ++ number 10 hypervisor.toNat), (.out, b!"Cpu model        :0x" ++ number 16 model.toNat)]

/-- The lines about the firmware, src/inspector/inspector.cpp:130-135; the last two are only set on Windows. -/
def dmiPart (d : Dmi) (manufacturer : Bytes) (cores : Nat) : Printed :=
  [(.out, b!"Bios vendor      :" ++ d.biosVendor), (.out, b!"Bios description :" ++ d.biosDescription),
   (.out, b!"System vendor    :" ++ d.sysVendor), (.out, b!"Cpu Vendor (dmi) :" ++ manufacturer),
   (.out, b!"Cpu Cores  (dmi) :" ++ number 10 cores)]

/-- The line about the default project, src/inspector/inspector.cpp:59-63. -/
def defaultLine (p d : Bytes) : Stream × Bytes :=
  if d = b!"license OK" then (.out, b!"default project [" ++ p ++ b!"]: " ++ d) else (.err, b!"default project [" ++ p ++ b!"]:" ++ d)

/-- The line about another section, src/inspector/inspector.cpp:75-79. -/
def sectionLine (p d : Bytes) : Stream × Bytes :=
  if d = b!"license OK" then (.out, b!"project [" ++ p ++ b!"]: " ++ d) else (.err, b!"project [" ++ p ++ b!"]" ++ d)

/-- The lines of `verifyLicense`. -/
def verdictLines : List (Bytes × Bytes) → Printed
  | [] => []
  | (p, d) :: rest => defaultLine p d :: rest.map fun x => sectionLine x.1 x.2

/-- One licence file, src/inspector/inspector.cpp:137-142 and 152-157; `file` is what is met if the file can be opened. -/
def filePart (cfg : Config) (file : Option Run) (fname : Bytes) : Outcome Printed :=
  match file with
  | none => .ok [(.err, b!"license file :" ++ fname ++ b!" not found.")]
  | some r => do return verdictLines (← verifyLicense cfg r fname)

/-- The files one after the other; `n` counts them. -/
def fileParts (cfg : Config) (files : Nat → Bytes → Option Run) : Nat → List Bytes → Outcome Printed
  | _, [] => .ok []
  | n, f :: fs => do
    let a ← filePart cfg (files n f) f
    let b ← fileParts cfg files (n + 1) fs
    return a ++ b

/-- The environment variable, src/inspector/inspector.cpp:144-161. -/
def envPart (cfg : Config) (value : Option Bytes) (files : Nat → Bytes → Option Run) (n : Nat) : Outcome Printed :=
  if cfg.withEnvVar then
    match value with
    | some (c :: v) => do
      let l ← fileParts cfg files n (splitString (c :: v) 59)
      return (.out, b!"environment variable [LICENSE_LOCATION] value [" ++ c :: v ++ b!"]") :: l
    | _ => .ok [(.out, b!"environment variable [LICENSE_LOCATION] configured but not defined.")]
  else .ok []

/-- From line 136 on: `arg` is the argument if there is exactly one. -/
def licencePart (cfg : Config) (arg : Option Bytes) (value : Option Bytes) (files : Nat → Bytes → Option Run) : Outcome Printed := do
  let a ← fileParts cfg files 0 arg.toList
  let b ← envPart cfg value files arg.toList.length
  return a ++ b

/-- `getAdapterInfos`, src/inspector/inspector.cpp:102; a failing `getifaddrs` is logged (src/library/os/linux/network.cpp:54-57). -/
def adapters (l : Linux) : Outcome (FuncRet × List (Bytes × Adapter)) :=
  if l.net.ifaddrs = none ∧ l.logOverruns then .ub else .ok (getAdapterInfosNamed l.net)

/-- `main` on Linux.  `mem` is what the uninitialised array of 20 bytes holds. -/
def main (cfg : Config) (l : Linux) (c : Cpu) (mem : Bytes) (arg : Option Bytes) (files : Nat → Bytes → Option Run) :
    Outcome Printed := do
  let h := l.host.WithCpu c
  let ident ← identifyLines { l with host := h }.os.machine h mem
  let net ← adapters l
  let d ← dmiInfo h
  let lic ← licencePart cfg arg (l.getenv (b!"LICENSE_LOCATION")) files
  return ident.map (fun p => (.out, p.1 ++ b!":" ++ p.2)) ++ networkPart net
    ++ cpuPart (Linux.cpuVendor c) (Linux.cpuBrand c) (Linux.hypervisorSet c) (Linux.cpuModel c) ++ dmiPart d [] 0
    ++ [(.out, b!"==================")] ++ lic

end Licensecc.Inspector
