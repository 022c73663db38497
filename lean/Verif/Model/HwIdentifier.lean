import Verif.Model.Base64
import Verif.Model.StringUtils
/-!
# Model of src/library/hw_identifier/*.cpp and of identify_pc
-/
namespace Licensecc

/-- `std::array<uint8_t, HW_IDENTIFIER_PROPRIETARY_DATA>` (7 bytes),
    src/library/hw_identifier/hw_identifier.hpp:23. -/
structure Payload where
  (p0 p1 p2 p3 p4 p5 p6 : UInt8)
  deriving DecidableEq, Repr

/-- Class `HwIdentifier`: its 8 bytes `m_data`, src/library/hw_identifier/hw_identifier.hpp:37-39. -/
structure HwId where
  (d0 d1 d2 d3 d4 d5 d6 d7 : UInt8)
  deriving DecidableEq, Repr

namespace HwId

/-- Default constructor: `m_data = {}`, src/library/hw_identifier/hw_identifier.hpp:39, hw_identifier.cpp:17. -/
def zero : HwId := ⟨0, 0, 0, 0, 0, 0, 0, 0⟩

/-- `m_data.data()` / `m_data.size()`. -/
def toBytes (h : HwId) : Bytes := [h.d0, h.d1, h.d2, h.d3, h.d4, h.d5, h.d6, h.d7]

/-- `std::replace(s.begin(), s.end(), a, b)`. -/
def replaceByte (a b : UInt8) (s : Bytes) : Bytes := s.map fun x => if x = a then b else x

/-- `HwIdentifier(const string&)`, src/library/hw_identifier/hw_identifier.cpp:19-28. -/
def ofString (s : Bytes) : Outcome HwId :=
  match unbase64 (replaceByte 45 10 s) with
  | .ok [a, b, c, d, e, f, g, h] => .ok ⟨a, b, c, d, e, f, g, h⟩
  | .ok _ => .throw .logicError
  | .throw e => .throw e
  | .ub => .ub

/-- `set_identification_strategy`, src/library/hw_identifier/hw_identifier.cpp:34-40
    (STRATEGY_NONE = -2, STRATEGY_DEFAULT = -1; `uint8_t stratMov = strategy << 5`). -/
def setStrategy (h : HwId) (strategy : Int) : Outcome HwId :=
  if strategy = -2 ∨ strategy = -1 then .throw .logicError
  else .ok { h with d1 := (h.d1 &&& 0x1F) ||| UInt8.ofNat ((strategy * 32) % 256).toNat }

/-- `set_use_environment_var`, src/library/hw_identifier/hw_identifier.cpp:42-48. -/
def setUseEnvVar (h : HwId) (use : Bool) : HwId :=
  if use then { h with d0 := h.d0 ||| 0x40 } else { h with d0 := h.d0 &&& 0xBF }

/-- `set_data`, src/library/hw_identifier/hw_identifier.cpp:50-55. -/
def setData (h : HwId) (p : Payload) : HwId :=
  ⟨h.d0, (h.d1 &&& 0xE0) ||| (p.p0 &&& 0x1F), p.p1, p.p2, p.p3, p.p4, p.p5, p.p6⟩

/-- `print`, src/library/hw_identifier/hw_identifier.cpp:57-61. -/
def print (h : HwId) : Outcome Bytes :=
  match base64 h.toBytes 5 with
  | .ok s => let r := replaceByte 10 45 s; .ok (r.take (r.length - 1))
  | .throw e => .throw e
  | .ub => .ub

/-- `get_identification_strategy`, src/library/hw_identifier/hw_identifier.cpp:63-66. -/
def strategy (h : HwId) : Int := ((h.d1 >>> 5).toNat : Int)

/-- `data_match`, src/library/hw_identifier/hw_identifier.cpp:68-74. -/
def dataMatch (h : HwId) (p : Payload) : Bool :=
  (p.p0 &&& 0x1F) == (h.d1 &&& 0x1F) && p.p1 == h.d2 && p.p2 == h.d3 && p.p3 == h.d4 && p.p4 == h.d5
    && p.p5 == h.d6 && p.p6 == h.d7

/-- `operator==`, src/library/hw_identifier/hw_identifier.cpp:76-84. -/
def eq (l r : HwId) : Bool :=
  decide (l.strategy = r.strategy) && (r.d1 &&& 0x1F) == (l.d1 &&& 0x1F) && l.d2 == r.d2 && l.d3 == r.d3
    && l.d4 == r.d4 && l.d5 == r.d5 && l.d6 == r.d6 && l.d7 == r.d7

end HwId

/-- `mac_address[6]`, src/library/os/network.hpp:34. -/
structure Mac where
  (m0 m1 m2 m3 m4 m5 : UInt8)
  deriving DecidableEq, Repr

/-- `ipv4_address[4]`, src/library/os/network.hpp:35. -/
structure Ipv4 where
  (i0 i1 i2 i3 : UInt8)
  deriving DecidableEq, Repr

/-- `disk_sn[8]`, src/library/os/os.h:30. -/
structure DiskSn where
  (s0 s1 s2 s3 s4 s5 s6 s7 : UInt8)
  deriving DecidableEq, Repr

/-- `OsAdapterInfo`, src/library/os/network.hpp:31-37: the fields the identifier code reads. -/
structure Adapter where
  mac : Mac
  ip : Ipv4
  deriving DecidableEq, Repr

/-- `DiskInfo`, src/library/os/os.h:27-35.  `label` is the `char[255]` array as a list of bytes (a NUL ends it). -/
structure Disk where
  id : Int
  device : Bytes
  sn : DiskSn
  snInit : Bool
  label : Bytes
  labelInit : Bool
  preferred : Bool
  deriving DecidableEq, Repr

/-- `LCC_API_VIRTUALIZATION_SUMMARY`, include/licensecc/datatypes.h. -/
inductive VirtSummary where
  | none | container | vm
  deriving DecidableEq, Repr

/-- What `os::ExecutionEnvironment` answers (modelled in `Verif.Model.ExecEnv`). -/
structure ExecSummary where
  virtualization : VirtSummary
  isDocker : Bool
  isCloud : Bool
  deriving DecidableEq, Repr

/-- The machine as seen by the identification strategies. The system calls can themselves run into undefined
    behaviour, hence `Outcome`. -/
structure Machine where
  /-- `getAdapterInfos` -/
  adapters : Outcome (FuncRet × List Adapter)
  /-- `getDiskInfos` -/
  disks : Outcome (FuncRet × List Disk)
  /-- `os::ExecutionEnvironment` -/
  exec : Outcome ExecSummary
  /-- `getenv("IDENTIFICATION_STRATEGY")` -/
  strategyVar : Option Bytes
  /-- does `LOG_WARN` or `LOG_ERROR` overrun the array for the path of the log file (`Logger.overruns`)? -/
  logOverruns : Bool := false

/-- One iteration of the loop of `generate_ethernet_pc_id`, src/library/hw_identifier/ethernet.cpp:35-56: `none`
    when the address is all zero. -/
def adapterPayload (useIp : Bool) (a : Adapter) : Option Payload :=
  if useIp then
    let ⟨b0, b1, b2, b3⟩ := a.ip
    if b0 == 0 && b1 == 0 && b2 == 0 && b3 == 0 then none
    else some ⟨0, b0, b1, b2, b3, 42, 42⟩
  else
    let ⟨b0, b1, b2, b3, b4, b5⟩ := a.mac
    if b0 == 0 && b1 == 0 && b2 == 0 && b3 == 0 && b4 == 0 && b5 == 0 then none
    else some ⟨0, b0, b1, b2, b3, b4, b5⟩

/-- `generate_ethernet_pc_id`, src/library/hw_identifier/ethernet.cpp:22-59. -/
def generateEthernetIds (m : Machine) (useIp : Bool) : Outcome (FuncRet × List Payload) := do
  let (r, as) ← m.adapters
  if r ≠ .ok then return (r, [])
  if as.length = 0 then return (.notAvail, [])
  return (r, as.filterMap (adapterPayload useIp))

/-- `generate_id_by_sn`, src/library/hw_identifier/disk_strategy.cpp:15-22: the first 7 of the 8 bytes. -/
def idBySn (d : Disk) : Payload :=
  let ⟨s0, s1, s2, s3, s4, s5, s6, _⟩ := d.sn
  ⟨s0, s1, s2, s3, s4, s5, s6⟩

/-- `generate_id_by_label`, src/library/hw_identifier/disk_strategy.cpp:24-28: `strncpy` of 6 characters into a
    zeroed array (strncpy stops at the NUL and pads with zeros). -/
def idByLabel (d : Disk) : Payload :=
  let l := d.label.takeWhile (· ≠ 0)
  ⟨l.getD 0 0, l.getD 1 0, l.getD 2 0, l.getD 3 0, l.getD 4 0, l.getD 5 0, 0⟩

/-- The ids contributed by one disk, src/library/hw_identifier/disk_strategy.cpp:46-53. -/
def diskPayloads (d : Disk) : List Payload :=
  (if d.snInit then [idBySn d] else []) ++ (if d.labelInit then [idByLabel d] else [])

/-- `generate_disk_pc_id`, src/library/hw_identifier/disk_strategy.cpp:30-57: preferred disks first. -/
def generateDiskIds (m : Machine) : Outcome (FuncRet × List Payload) := do
  let (r, ds) ← m.disks
  if r ≠ .ok then return (r, [])
  if ds.length = 0 then return (.notAvail, [])
  let ids := (ds.filter (·.preferred)).flatMap diskPayloads ++ (ds.filter (!·.preferred)).flatMap diskPayloads
  return (if ids.length > 0 then .ok else .notAvail, ids)

/-- The concrete identification strategies, src/library/hw_identifier/identification_strategy.cpp:38-49. -/
inductive Strategy where
  | default | ethernet | ip | disk
  deriving DecidableEq, Repr

/-- `IdentificationStrategy::get_strategy`, src/library/hw_identifier/identification_strategy.cpp:35-54. -/
def getStrategy (n : Int) : Outcome Strategy :=
  if n = -1 then .ok .default
  else if n = 0 then .ok .ethernet
  else if n = 1 then .ok .ip
  else if n = 2 then .ok .disk
  else .throw .logicError

/-- `identification_strategy()` of each class: default_strategy.cpp:42, ethernet.cpp:65-67, disk_strategy.cpp:61-63. -/
def Strategy.code : Strategy → Int
  | .default => -1
  | .ethernet => 0
  | .ip => 1
  | .disk => 2

/-- Building one identifier: `set_identification_strategy` then `set_data` on a fresh object,
    src/library/hw_identifier/ethernet.cpp:75-80, disk_strategy.cpp:71-76. -/
def mkId (code : Int) (p : Payload) : Outcome HwId := do
  let h ← HwId.zero.setStrategy code
  return h.setData p

/-- `alternative_ids` of `Ethernet` and `DiskStrategy`, src/library/hw_identifier/ethernet.cpp:69-83,
    disk_strategy.cpp:65-79.  `DefaultStrategy::alternative_ids` (default_strategy.cpp:58-69) is not reachable from
    the API: both callers are overridden in `DefaultStrategy`; it is given the empty list here. -/
def alternativeIds (m : Machine) (s : Strategy) : Outcome (List HwId) := do
  let (r, ps) ← match s with
    | .ethernet => generateEthernetIds m false
    | .ip => generateEthernetIds m true
    | .disk => generateDiskIds m
    | .default => return []
  if r = .ok then ps.mapM (mkId s.code) else return []

/-- LCC_EVENT_TYPE, include/licensecc/datatypes.h:30-46. -/
inductive EventType where
  | licenseOk | fileNotFound | serverNotFound | envVarNotDefined | fileFormatNotRecognized | malformed
  | productNotLicensed | productExpired | corrupted | identifiersMismatch
  | specified | found | productFound | signatureVerified
  deriving DecidableEq, Repr

/-- `validate_identifier`, src/library/hw_identifier/identification_strategy.cpp:10-23 and
    default_strategy.cpp:74-77. -/
def validateIdentifier (m : Machine) (s : Strategy) (h : HwId) : Outcome EventType := do
  if s = .default then return .identifiersMismatch
  if h.strategy = s.code then
    let ids ← alternativeIds m s
    return if ids.any (fun x => x.eq h) then .licenseOk else .identifiersMismatch
  else return .identifiersMismatch

/-- A use of `LOG_WARN` or `LOG_ERROR`: it has no effect on what follows unless it overruns the array for the path of the log file,
    src/library/base/logger.cpp:29-37, 46-54. -/
def Machine.logged {α : Type} (m : Machine) (x : Outcome α) : Outcome α := if m.logOverruns then .ub else x

/-- `HwIdentifierFacade::validate_pc_signature`, src/library/hw_identifier/hw_identifier_facade.cpp:23-35. -/
def validatePcSignature (m : Machine) (code : Bytes) : Outcome EventType :=
  let r : Outcome EventType := do
    let h ← HwId.ofString code
    let s ← getStrategy h.strategy
    validateIdentifier m s h
  match r with
  | .throw e => if e.isLogicError then m.logged (.ok .identifiersMismatch) else .throw e
  | r => r

/-- `available_strategies`, src/library/hw_identifier/default_strategy.cpp:16-36 with the lists of
    src/templates/licensecc_properties.h.in:120-130. -/
def availableStrategies (e : ExecSummary) : List Int :=
  match e.virtualization with
  | .container => if e.isDocker then [-2] else [0, -2]
  | .vm => if e.isCloud then [-2] else [0, -2]
  | .none => [2, 4, -2]

/-- `IdentificationStrategy::generate_pc_id`, src/library/hw_identifier/identification_strategy.cpp:25-33. -/
def generateFirst (m : Machine) (s : Strategy) : Outcome (Option HwId) := do
  let ids ← alternativeIds m s
  return ids.head?

/-- The loop of `DefaultStrategy::generate_pc_id`, src/library/hw_identifier/default_strategy.cpp:44-56.  `none` is a
    result other than `FUNC_RET_OK`.  (A `DefaultStrategy` inside the lists would recurse; the lists do not contain it.) -/
def tryStrategies (m : Machine) : List Int → Outcome (Option HwId)
  | [] => .ok none
  | n :: ns => do
      let s ← getStrategy n
      match ← generateFirst m s with
      | some h => return some h
      | none => tryStrategies m ns

/-- virtual `generate_pc_id`. -/
def generatePcId (m : Machine) (s : Strategy) : Outcome (Option HwId) :=
  match s with
  | .default => do tryStrategies m (availableStrategies (← m.exec))
  | s => generateFirst m s

/-- Value of the leading digits, without bound on their number. -/
def digitsValue : Bytes → Nat → Nat
  | [], v => v
  | b :: s, v => if isDigit b then digitsValue s (v * 10 + (b.toNat - 48)) else v

/-- glibc `atoi`: `(int) strtol(s, NULL, 10)`, i.e. clamped to `long` and then truncated to 32 bits. -/
def atoi (s : Bytes) : Int :=
  let t := s.dropWhile isSpace
  let v : Int := match t with
    | 45 :: r => -(digitsValue r 0 : Int)
    | 43 :: r => (digitsValue r 0 : Int)
    | r => (digitsValue r 0 : Int)
  let l := max (-(2 : Int) ^ 63) (min ((2 : Int) ^ 63 - 1) v)
  let u := l % (2 : Int) ^ 32
  if u < (2 : Int) ^ 31 then u else u - (2 : Int) ^ 32

/-- Selection of the strategy by the environment variable, src/library/hw_identifier/hw_identifier_facade.cpp:38-52:
    the strategy number to use and whether the variable was used. -/
def selectStrategy (var : Option Bytes) (strategy : Int) : Int × Bool :=
  if strategy = -1 then
    match var with
    | some (b :: s) =>
        let n := atoi ((b :: s).takeWhile (· ≠ 0))
        if b = 0 then (strategy, false)
        else if n < 0 ∨ n > 3 then (strategy, false) else (n, true)
    | _ => (strategy, false)
  else (strategy, false)

/-- Is the content of the environment variable reported as unknown, src/library/hw_identifier/hw_identifier_facade.cpp:44-45? -/
def strategyUnknown (var : Option Bytes) (strategy : Int) : Bool :=
  strategy = -1 && match var with
    | some (b :: s) =>
        let n := atoi ((b :: s).takeWhile (· ≠ 0))
        b ≠ 0 && (n < 0 || n > 3)
    | _ => false

/-- The warning, src/library/hw_identifier/hw_identifier_facade.cpp:45. -/
def Machine.warnUnknown (m : Machine) (strategy : Int) : Outcome Unit :=
  if strategyUnknown m.strategyVar strategy then m.logged (.ok ()) else .ok ()

/-- `HwIdentifierFacade::generate_user_pc_signature`, src/library/hw_identifier/hw_identifier_facade.cpp:37-61. -/
def generateUserPcSignature (m : Machine) (strategy : Int) : Outcome Bytes := do
  let _ ← m.warnUnknown strategy
  let (n, useEnv) := selectStrategy m.strategyVar strategy
  let s ← getStrategy n
  match ← generatePcId m s with
  | none => .throw .logicError
  | some h => (h.setUseEnvVar useEnv).print

/-- Result of `identify_pc`: return value, new `*bufSize`, new contents of the caller's buffer. -/
structure IdentifyResult where
  ret : Bool
  bufSize : Nat
  buf : Option Bytes
  deriving DecidableEq, Repr

/-- `identify_pc` without the environment report, src/library/licensecc.cpp:32-48, 55: LCC_API_PC_IDENTIFIER_SIZE is 19.
    All modelled exceptions derive from `std::exception`, so all are caught. -/
def identifyPc (m : Machine) (strategy : Int) (buf : Option Bytes) (bufSize : Nat) : Outcome IdentifyResult :=
  match buf with
  | some mem =>
    if bufSize > 19 then
      match generateUserPcSignature m strategy with
      | .ub => .ub
      | .throw _ => m.logged (.ok ⟨false, bufSize, some mem⟩)
      | .ok id =>
        match mstrlcpy mem (id ++ [0]) bufSize with
        | .ok (mem', _) => .ok ⟨true, bufSize, some mem'⟩
        | .throw e => .throw e
        | .ub => .ub
    else .ok ⟨false, 20, some mem⟩
  | none => .ok ⟨false, 20, none⟩

end Licensecc
