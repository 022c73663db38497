import Verif.Model.Acquire
import Verif.Model.ExecEnv
/-!
# Model of the command line tool lccinspector, src/inspector/inspector.cpp

The lines it prints about this computer and about a licence file; the rest of `main` is in Model/InspectorMain.
-/
namespace Licensecc.Inspector
open Licensecc

/-- `stringByEventType`, src/inspector/inspector.cpp:42-52. -/
def describe : EventType → Option Bytes
  | .licenseOk => some (b!"OK ")
  | .fileNotFound => some (b!"license file not found ")
  | .serverNotFound => some (b!"license server can't be contacted ")
  | .envVarNotDefined => some (b!"environment variable not defined ")
  | .fileFormatNotRecognized => some (b!"license file has invalid format (not .ini file) ")
  | .malformed => some (b!"some mandatory field are missing, or data can't be fully read. ")
  | .productNotLicensed => some (b!"this product was not licensed ")
  | .productExpired => some (b!"license expired ")
  | .corrupted => some (b!"license signature didn't match with current license ")
  | .identifiersMismatch => some (b!"Calculated identifier and the one provided in license didn't match")
  | _ => none

/-- One line about a licence: the project in brackets and what follows it.  `find(...)->second` with a code that is not in the map
    is undefined, src/inspector/inspector.cpp:59-63 and 75-79. -/
def verdict (project : Bytes) (ret : EventType) : Outcome (Bytes × Bytes) :=
  if ret = .licenseOk then .ok (project, b!"license OK")
  else match describe ret with
    | some d => .ok (project, d)
    | none => .ub

/-- The text of the licence from the first byte of a section name on, src/library/ini/SimpleIni.h:1536-1542. -/
def nameStart (t : Bytes) : Bytes := ((t.dropWhile Ini.isSp).drop 1).dropWhile Ini.isSp

/-- The section names in the order of the file, each with the number of bytes that can be read from its first byte on: the names are
    pointers into a copy of the file (src/library/ini/SimpleIni.h:1403-1450), which has `extra` bytes beyond the text.  Entries before
    the first header (`inside` is false) belong to the name `&empty`, a single byte (line 1419).  Files with a header that is not
    closed on its line are not covered: what follows it belongs to a name with line breaks. -/
def namesAux (extra : Nat) : Nat → Bool → Bytes → List (Bytes × Nat)
  | 0, _, _ => []
  | fuel + 1, inside, t => match Ini.step t with
    | .done => []
    | .skip r => namesAux extra fuel inside r
    | .badHeader r => namesAux extra fuel true r
    | .header n r => (n, (nameStart t).length + extra) :: namesAux extra fuel true r
    | .entry _ _ r => if inside then namesAux extra fuel inside r else ([], 1) :: namesAux extra fuel inside r

/-- The map of sections keeps the first of several names that differ in case only, src/library/ini/SimpleIni.h:1868-1890. -/
def firstOnly : List (Bytes × Nat) → List (Bytes × Nat)
  | [] => []
  | x :: xs => x :: (firstOnly xs).filter fun y => !Ini.sameName y.1 x.1

/-- `LoadFile` and `GetAllSections`, src/library/ini/SimpleIni.h:1341-1380 and 2269-2278.  Simplification: in the order of the file;
    the real order is that of the names, which shows only in the order of the lines printed. -/
def sections (content : Option Bytes) : List (Bytes × Nat) :=
  match content with
  | none => []
  | some s =>
    let t := Ini.loadComment false (Ini.cut s).length (Ini.cut s)
    firstOnly (namesAux (s.length - (Ini.cut s).length + 1) (t.length + 1) false t)

/-- What the tool meets: the surroundings of its n-th call of the library, the content of the licence file, and what uninitialised
    variables hold. -/
structure Run where
  world : Nat → World
  content : Option Bytes
  /-- `callerInformation.magic`, never set (src/inspector/inspector.cpp:69) -/
  magic : Nat
  /-- the last byte of `callerInformation.feature_name`, never set -/
  lastByte : UInt8
  /-- `licenseInfo`, src/inspector/inspector.cpp:55 -/
  info : LicInfo

/-- `licLocation`, src/inspector/inspector.cpp:56-57: the rest of the array is zero. -/
def location (fname : Bytes) : LicenseLocation := ⟨0, fname ++ List.replicate (4096 - fname.length) 0⟩

/-- `string(section.pItem, 15)`, src/inspector/inspector.cpp:71.  Simplification: the bytes behind the terminator of a shorter name
    are zero; the real ones are not looked at. -/
def fifteen (name : Bytes) : Bytes := (name ++ List.replicate 15 0).take 15

/-- `callerInformation` for a section, src/inspector/inspector.cpp:69-73.  The library looks at one byte behind the array
    `feature_name` if the name fills it: this is the first byte of `magic`. -/
def caller (r : Run) (name : Bytes) : Caller := ⟨fifteen name ++ [r.lastByte, UInt8.ofNat r.magic], r.magic⟩

/-- Loop over the sections, src/inspector/inspector.cpp:70-81; `n` counts the calls of the library. -/
def sectionLines (cfg : Config) (r : Run) (loc : LicenseLocation) : Nat → List (Bytes × Nat) → Outcome (List (Bytes × Bytes))
  | _, [] => .ok []
  | n, (name, room) :: ss =>
    if room < 15 then .ub
    else if fifteen name = cfg.projectName then sectionLines cfg r loc n ss
    else do
      let res ← acquire cfg (r.world n) (some (caller r name)) (some loc) (some r.info)
      let line ← verdict name res.ret
      let lines ← sectionLines cfg r loc (n + 1) ss
      return line :: lines

/-- `verifyLicense`, src/inspector/inspector.cpp:54-83: the lines printed.  A file name of more than 4096 bytes overruns the array. -/
def verifyLicense (cfg : Config) (r : Run) (fname : Bytes) : Outcome (List (Bytes × Bytes)) :=
  if fname.length > 4096 then .ub
  else do
    let res ← acquire cfg (r.world 0) none (some (location fname)) (some r.info)
    let line ← verdict cfg.projectName res.ret
    let lines ← sectionLines cfg r (location fname) 1 (sections r.content)
    return line :: lines

/-- `stringByStrategyId`, src/inspector/inspector.cpp:19-20, in the order of the map. -/
def strategies : List (Int × Bytes) := [(-1, b!"DEFAULT"), (0, b!"MAC"), (1, b!"IP"), (2, b!"Disk")]

/-- `descByVirt`, src/inspector/inspector.cpp:31-33. -/
def descByVirt : VirtSummary → Option Bytes
  | .none => some (b!"No virtualization")
  | .vm => some (b!"Virtual machine")
  | .container => some (b!"Container")

/-- `descByVirtDetail`, src/inspector/inspector.cpp:22-29. -/
def descByVirtDetail : VirtDetail → Option Bytes
  | .bareToMetal => some (b!"No virtualization")
  | .vmware => some (b!"Vmware")
  | .virtualbox => some (b!"Virtualbox")
  | .xen => some (b!"XEN")
  | .kvm => some (b!"KVM")
  | .hv => some (b!"Microsoft Hypervisor")
  | .parallels => some (b!"Parallels Desktop")
  | .other => some (b!"Other type of vm")

/-- `descByCloudProvider`, src/inspector/inspector.cpp:35-40. -/
def descByCloudProvider : CloudProvider → Option Bytes
  | .unknown => some (b!"Provider unknown")
  | .onPremise => some (b!"On premise hardware (no cloud)")
  | .google => some (b!"Google Cloud")
  | .azure => some (b!"Microsoft Azure")
  | .aws => some (b!"Amazon AWS")
  | .ali => some (b!"Alibaba Cloud (Chinese cloud provider)")

/-- `map.find(key)->second`. -/
def lookup (o : Option Bytes) : Outcome Bytes := match o with
  | some d => .ok d
  | none => .ub

/-- The loop over the strategies, src/inspector/inspector.cpp:89-96: the lines (name and text), the structure filled last, the buffer,
    the size and the static object kept by the library. -/
def identifyLoop (m : Machine) (h : Host) : List (Int × Bytes) → Bytes → Nat → Option Env → Option EnvInfo →
    Outcome (List (Bytes × Bytes) × Option EnvInfo)
  | [], _, _, _, info => .ok ([], info)
  | (n, label) :: ss, mem, size, cache, _ => do
    let (r, info, cache) ← identifyPcEnv m h cache n (some mem) size true
    let mem := r.buf.getD mem
    let text := if r.ret then mem.takeWhile (· ≠ 0) else b!" NA"
    let (lines, info) ← identifyLoop m h ss mem r.bufSize cache info
    return ((label, text) :: lines, info)

/-- First part of `main`, src/inspector/inspector.cpp:86-99: `mem` is what the uninitialised array of 20 bytes holds. -/
def identifyLines (m : Machine) (h : Host) (mem : Bytes) : Outcome (List (Bytes × Bytes)) := do
  let (lines, info) ← identifyLoop m h strategies mem 20 none none
  match info with
  | none => .ub
  | some i => do
    let a ← lookup (descByVirt i.virtualization)
    let b ← lookup (descByVirtDetail i.detail)
    let c ← lookup (descByCloudProvider i.provider)
    return lines ++ [(b!"Virtualiz. class ", a), (b!"Virtualiz. detail", b), (b!"Cloud provider   ", c)]

end Licensecc.Inspector
