import Verif.Model.ExecEnv
/-!
# Model of the SMBIOS parser and of the execution environment on Windows

src/library/os/windows/smbios.hpp, dmi_info.cpp, execution_environment.cpp.  A pointer into the table is the rest of the table
from there on; reading behind the end, or moving a pointer further than to the end, is undefined behaviour.
-/
namespace Licensecc.Win

/-- The loop `do { len = strlen(ptr); ptr += len + 1; } while (len > 0)`, src/library/os/windows/smbios.hpp:342-346; `inside`:
    some bytes of the present string have been passed. -/
def skipStrings : Bytes → Bool → Outcome Bytes
  | [], _ => .ub
  | c :: r, inside => if c = 0 then (if inside then skipStrings r false else .ok r) else skipStrings r true

/-- `reinterpret_cast<header*>(x)->length`. -/
def headerLength : Bytes → Outcome Nat
  | _ :: len :: _ => .ok len.toNat
  | _ => .ub

/-- `x + length`. -/
def behind (x : Bytes) (n : Nat) : Outcome Bytes := if n ≤ x.length then .ok (x.drop n) else .ub

/-- `parser::skip`, src/library/os/windows/smbios.hpp:336-349. -/
def skip (x : Bytes) : Outcome Bytes := do
  let n ← headerLength x
  let p ← behind x n
  match p with
  | [] => .ub
  | c :: _ => if c = 0 then behind p 2 else skipStrings p false

/-- The loop of `extract_strings`, src/library/os/windows/smbios.hpp:359-370; `cur` holds, reversed, the bytes of the present
    string. -/
def takeStrings : Bytes → Bytes → Outcome (List Bytes)
  | [], _ => .ub
  | c :: r, cur =>
    if c = 0 then
      (if cur = [] then .ok []
       else do
        let l ← takeStrings r []
        .ok (cur.reverse :: l))
    else takeStrings r (c :: cur)

/-- `parser::extract_strings`, src/library/os/windows/smbios.hpp:351-373: the strings after the null pointer at index 0. -/
def extractStrings (x : Bytes) : Outcome (List Bytes) := do
  let n ← headerLength x
  let p ← behind x n
  match p with
  | [] => .ub
  | c :: _ => if c = 0 then .ok [] else takeStrings p []

/-- The loop of `parser::feed`, src/library/os/windows/smbios.hpp:383-388; at most `fuel` structures (a structure has at least
    one byte). -/
def feedLoop : Nat → Bytes → Outcome (List Bytes)
  | 0, _ => .ok []
  | fuel + 1, x =>
    if x = [] then .ok []
    else do
      let y ← skip x
      let l ← feedLoop fuel y
      .ok (x :: l)

/-- `parser::feed`, src/library/os/windows/smbios.hpp:375-389: the headers. -/
def feed (table : Bytes) : Outcome (List Bytes) := feedLoop table.length table

/-- `x->field` at an offset. -/
def fieldAt (x : Bytes) (i : Nat) : Outcome UInt8 :=
  match x[i]? with
  | some b => .ok b
  | none => .ub

/-- `strings[i]` with `i > 0`: the vector has one element more than there are strings. -/
def stringAt (strings : List Bytes) (i : UInt8) : Outcome Bytes :=
  match strings[i.toNat - 1]? with
  | some s => .ok s
  | none => .ub

/-- The members of `DmiInfo`, src/library/os/dmi_info.hpp:16-20. -/
structure WinDmi where
  sysVendor : Bytes
  biosVendor : Bytes
  biosDescription : Bytes
  cpuManufacturer : Bytes
  cores : Nat
  deriving DecidableEq, Repr

/-- One iteration of the loop in the constructor, src/library/os/windows/dmi_info.cpp:50-96. -/
def readStructure (d : WinDmi) (x : Bytes) : Outcome WinDmi := do
  let strings ← extractStrings x
  let type ← fieldAt x 0
  let len ← headerLength x
  if type = 2 then
    if len = 0 then .ok d
    else
      let i ← fieldAt x 4
      if 0 < i.toNat ∧ i.toNat < len then
        let s ← stringAt strings i
        .ok { d with sysVendor := s }
      else .ok d
  else if type = 0 then
    if len = 0 then .ok d
    else
      let i ← fieldAt x 4
      if 0 < i.toNat ∧ i.toNat < len then
        let s ← stringAt strings i
        .ok { d with biosVendor := s }
      else .ok d
  else if type = 4 then
    if len = 0 then .ok d
    else
      let i ← fieldAt x 7
      let d ← if 0 < i.toNat ∧ i.toNat < len then (do
          let s ← stringAt strings i
          .ok { d with cpuManufacturer := s })
        else .ok d
      let c ← fieldAt x 35
      .ok { d with cores := c.toNat }
  else if type = 1 then
    if len = 0 then .ok d
    else
      let i ← fieldAt x 4
      if 0 < i.toNat ∧ i.toNat < len then
        let j ← fieldAt x 5
        if 0 < j.toNat ∧ j.toNat < len then
          let s ← stringAt strings i
          let t ← stringAt strings j
          .ok { d with biosDescription := s ++ t }
        else .ok d
      else .ok d
  else .ok d

/-- The loop over the headers. -/
def readStructures : WinDmi → List Bytes → Outcome WinDmi
  | d, [] => .ok d
  | d, x :: l => do
    let d ← readStructure d x
    readStructures d l

/-- An empty `DmiInfo`. -/
def emptyDmi : WinDmi := ⟨[], [], [], [], 0⟩

/-- `DmiInfo::DmiInfo`, src/library/os/windows/dmi_info.cpp:41-102.  `raw` is what `readSMBIOS` (27-39) delivers: a header of 8
    bytes with the length of the table (little-endian) in the last four, then the table. -/
def winDmiInfo (raw : Option Bytes) : Outcome WinDmi :=
  match raw with
  | none => .ok emptyDmi
  | some (_ :: _ :: _ :: _ :: a :: b :: c :: d :: rest) =>
    let length := a.toNat + 256 * b.toNat + 65536 * c.toNat + 16777216 * d.toNat
    if rest.length < length then .ub
    else do
      let hs ← feed (rest.take length)
      readStructures emptyDmi hs
  | some _ => .ub

/-- What Windows shows of the machine: firmware table, CPU (src/library/os/windows/cpu_info.cpp) and the iteration orders of the
    two tables in execution_environment_common.cpp. -/
structure WinHost where
  raw : Option Bytes
  cpuVendor : Bytes
  cpuBrand : Bytes
  hypervisor : Bool
  vmOrder : List (Bytes × VirtDetail)
  cpuOrder : List (Bytes × VirtDetail)

/-- The parts the common code reads (`virtualizationDetail`). -/
def WinHost.common (h : WinHost) : Host where
  sysVendor := none
  modalias := none
  cgroup := none
  systemdContainer := none
  cpuVendor := h.cpuVendor
  cpuBrand := h.cpuBrand
  hypervisor := h.hypervisor
  vmOrder := h.vmOrder
  cpuOrder := h.cpuOrder

/-- `ExecutionEnvironment::ExecutionEnvironment`, src/library/os/windows/execution_environment.cpp:23: never a container
    (`wine_container`, lines 26-62, is not called). -/
def WinHost.mkEnv (h : WinHost) : Outcome Env := do
  let d ← winDmiInfo h.raw
  .ok ⟨⟨d.biosVendor, d.biosDescription, d.sysVendor⟩, h.cpuVendor, h.cpuBrand, .none⟩

/-- What `available_strategies` asks, src/library/hw_identifier/default_strategy.cpp:17-24. -/
def WinHost.execSummary (h : WinHost) : Outcome ExecSummary := do
  let e ← h.mkEnv
  .ok ⟨virtualization h.common e, e.container = .docker, isCloud e⟩

end Licensecc.Win
