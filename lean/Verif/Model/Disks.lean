import Verif.Model.HwIdentifier
/-!
# Model of the disk enumeration on Linux: src/library/os/linux/os_linux.cpp
-/
namespace Licensecc

/-- `isxdigit` in the C locale (false for bytes from 128 on, as in glibc). -/
def isXDigit (b : UInt8) : Bool := (48 ≤ b && b ≤ 57) || (65 ≤ b && b ≤ 70) || (97 ≤ b && b ≤ 102)

/-- The value `sscanf("%x")` gives to one hexadecimal digit. -/
def hexDigit (b : UInt8) : UInt8 := if b ≤ 57 then b - 48 else if b ≤ 70 then b - 55 else b - 87

/-- The folding loop of `parseUUID`, src/library/os/linux/os_linux.cpp:65-68: `i` counts the pairs, `buf` is `buffer_out`. -/
def foldHex : Nat → Bytes → Bytes → Bytes
  | i, buf, a :: b :: r => foldHex (i + 1) (buf.modify (i % buf.length) (· ^^^ (hexDigit a * 16 + hexDigit b))) r
  | _, buf, _ => buf

/-- The eight bytes of an array as the structure. -/
def snOf (buf : Bytes) : DiskSn :=
  ⟨buf.getD 0 0, buf.getD 1 0, buf.getD 2 0, buf.getD 3 0, buf.getD 4 0, buf.getD 5 0, buf.getD 6 0, buf.getD 7 0⟩

/-- `parseUUID`, src/library/os/linux/os_linux.cpp:42-71, for `out_size == 8`.  `uuid` is the C string (no NUL).  The scratch
    buffer has `strlen(uuid)` bytes: writing the padding '0' or the terminator behind it is undefined. -/
def parseUuid (uuid : Bytes) : Outcome DiskSn :=
  let hex := uuid.filter isXDigit
  let odd := hex.length % 2 = 1
  if odd ∧ hex.length ≥ uuid.length then .ub
  else
    let hex := if odd then hex ++ [48] else hex
    if hex.length ≥ uuid.length then .ub
    else .ok (snOf (foldHex 0 [0, 0, 0, 0, 0, 0, 0, 0] hex))

/-- An entry of /dev/disk/by-uuid: its name, the inode number `stat` finds as an `int` (none if it fails), and what
    `readlink` delivers (none if it fails; at most 1023 bytes). -/
structure UuidEntry where
  name : Bytes
  inode : Option Int
  link : Option Bytes
  deriving DecidableEq, Repr

/-- An entry of /dev/disk/by-label or /dev/disk/by-partlabel. -/
structure LabelEntry where
  name : Bytes
  inode : Option Int
  deriving DecidableEq, Repr

/-- What the operating system shows of the disks.  Directories and files are `none` if they cannot be opened; directory
    entries are in `readdir` order; `fstab` are the `mnt_fsname`s in `getmntent` order. -/
structure DiskHost where
  byUuid : Option (List UuidEntry)
  byLabel : Option (List LabelEntry)
  byPartLabel : Option (List LabelEntry)
  /-- /run/blkid/blkid.tab -/
  blkidRun : Option Bytes
  /-- /etc/blkid.tab -/
  blkidEtc : Option Bytes
  fstab : Option (List Bytes)

/-- `disk_by_uuid`: insertion never overwrites, so the first pair with a key counts. -/
abbrev UuidMap := List (Bytes × Int)

def UuidMap.find? (m : UuidMap) (k : Bytes) : Option Int := (List.find? (fun p => p.1 = k) m).map (·.2)

/-- `unordered_map::insert`. -/
def UuidMap.insert (m : UuidMap) (k : Bytes) (v : Int) : UuidMap := m ++ [(k, v)]

/-- The part of a path after the last slash: `find_last_of("/")`, `substr(pos + 1)`. -/
def baseName (s : Bytes) : Bytes := (s.reverse.takeWhile (· ≠ 47)).reverse

/-- The entries the loop skips, src/library/os/linux/os_linux.cpp:203-206. -/
def skippedName (n : Bytes) : Bool := n == b!"." || n == b!".." || (b!"usb").isPrefixOf n

/-- One entry in the loop of `getDiskInfos_dev`, src/library/os/linux/os_linux.cpp:203-241.  The members `label` of the new
    structure are not initialised (`[]` here, with `labelInit = false`). -/
def addUuidEntry (e : UuidEntry) (ds : List Disk) (m : UuidMap) : Outcome (List Disk × UuidMap) :=
  if skippedName e.name then .ok (ds, m)
  else
    match e.inode, e.link with
    | some ino, some link => do
        let sn ← parseUuid e.name
        let d : Disk := ⟨ino, (baseName link).take 1023, sn, true, [], false, false⟩
        let m := m.insert e.name ino
        return (if ds.any (fun x => x.id = ino) then ds else ds ++ [d], m)
    | _, _ => .ok (ds, m)

/-- The loop of `getDiskInfos_dev`, src/library/os/linux/os_linux.cpp:202-242, MAX_UNITS = 40. -/
def uuidLoop : List UuidEntry → List Disk → UuidMap → Outcome (List Disk × UuidMap)
  | [], ds, m => .ok (ds, m)
  | e :: es, ds, m =>
    if ds.length < 40 then do
      let (ds, m) ← addUuidEntry e ds m
      uuidLoop es ds m
    else .ok (ds, m)

/-- `for (auto &d : disks) if (p(d)) { f(d); break; }`. -/
def updateFirst (p : Disk → Bool) (f : Disk → Disk) : List Disk → List Disk
  | [] => []
  | d :: ds => if p d then f d :: ds else d :: updateFirst p f ds

/-- The loop of `read_disk_labels`, src/library/os/linux/os_linux.cpp:163-182. -/
def labelLoop : List LabelEntry → List Disk → List Disk
  | [], ds => ds
  | e :: es, ds =>
    if e.name = b!"." ∨ e.name = b!".." then labelLoop es ds
    else
      match e.inode with
      | some ino => labelLoop es (updateFirst (fun d => d.id = ino) (fun d => { d with label := e.name.take 254, labelInit := true }) ds)
      | none => labelLoop es ds

/-- `read_disk_labels`, src/library/os/linux/os_linux.cpp:153-188. -/
def readDiskLabels (h : DiskHost) (ds : List Disk) : List Disk :=
  match h.byLabel with
  | some es => labelLoop es ds
  | none =>
    match h.byPartLabel with
    | some es => labelLoop es ds
    | none => ds

/-- `getDiskInfos_dev`, src/library/os/linux/os_linux.cpp:190-251. -/
def getDiskInfosDev (h : DiskHost) : Outcome (FuncRet × List Disk × UuidMap) := do
  let (ds, m) ← match h.byUuid with
    | some es => uuidLoop es [] []
    | none => .ok ([], [])
  let r := if ds.length > 0 then FuncRet.ok else .notAvail
  return (r, readDiskLabels h ds, m)

/-- `s.find(needle)`. -/
def findSub (needle : Bytes) : Bytes → Option Nat
  | [] => if needle = [] then some 0 else none
  | c :: s => if needle.isPrefixOf (c :: s) then some 0 else (findSub needle s).map (· + 1)

/-- `getAttribute`, src/library/os/linux/os_linux.cpp:94-99: if the attribute is missing, `npos` plus the length of the search
    text wraps around, and the text is taken from that position on; `substr` throws if it is behind the end. -/
def getAttribute (source attr : Bytes) : Outcome Bytes :=
  let full := attr ++ [61, 34]
  let start := match findSub full source with
    | some p => p + full.length
    | none => full.length - 1
  if start > source.length then .throw .outOfRange
  else .ok ((source.drop start).takeWhile (· ≠ 34))

/-- The part of the text after the last `>` (all of it if there is none), src/library/os/linux/os_linux.cpp:110. -/
def afterLastGt (s : Bytes) : Bytes := (s.reverse.takeWhile (· ≠ 62)).reverse

/-- One iteration of the loop of `parse_blkid`, src/library/os/linux/os_linux.cpp:107-124, for the window `cur_dev`. -/
def blkidDevice (cur : Bytes) (n : Nat) : Outcome (Disk × Bytes) := do
  let device := ((afterLastGt cur).takeWhile (· ≠ 0)).take 1023
  let label ← getAttribute cur b!"PARTLABEL"
  let uuid ← getAttribute cur b!"UUID"
  let sn ← parseUuid (uuid.takeWhile (· ≠ 0))
  let type ← getAttribute cur b!"TYPE"
  return (⟨n, device, sn, true, (label.takeWhile (· ≠ 0)).take 254, true, type = b!"swap"⟩, uuid)

/-- The loop of `parse_blkid`, src/library/os/linux/os_linux.cpp:105-125.  `win` is the text from `oldpos` on, `pos` the
    position of the rest in the whole text.  `substr(oldpos, pos)` takes `pos` bytes (sic), not `pos - oldpos`. -/
def blkidLoop (win : Bytes) (pos : Nat) (n : Nat) (ds : List Disk) (m : UuidMap) : Bytes → Outcome (List Disk × UuidMap)
  | [] => .ok (ds, m)
  | c :: s =>
    if (b!"</device>").isPrefixOf (c :: s) then do
      let (d, uuid) ← blkidDevice (win.take pos) n
      blkidLoop s (pos + 1) (n + 1) (ds ++ [d]) (m.insert uuid n) s
    else blkidLoop win (pos + 1) n ds m s

/-- `parse_blkid`, src/library/os/linux/os_linux.cpp:101-126. -/
def parseBlkid (content : Bytes) (ds : List Disk) (m : UuidMap) : Outcome (FuncRet × List Disk × UuidMap) := do
  let (ds, m) ← blkidLoop content 0 0 ds m content
  return (.ok, ds, m)

/-- `getDiskInfos_blkid`, src/library/os/linux/os_linux.cpp:130-149. -/
def getDiskInfosBlkid (h : DiskHost) (ds : List Disk) (m : UuidMap) : Outcome (FuncRet × List Disk × UuidMap) :=
  match h.blkidRun with
  | some c => parseBlkid c ds m
  | none =>
    match h.blkidEtc with
    | some c => parseBlkid c ds m
    | none => .ok (.notAvail, ds, m)

/-- The search of a label in the LABEL branch, src/library/os/linux/os_linux.cpp:287-293: looking at a label that was never
    written is undefined. -/
def markLabel (l : Bytes) : List Disk → Outcome (List Disk)
  | [] => .ok []
  | d :: ds =>
    if d.labelInit = false then .ub
    else if l = d.label then .ok ({ d with preferred := true } :: ds)
    else do return d :: (← markLabel l ds)

/-- One fstab entry in `set_preferred_disks`, src/library/os/linux/os_linux.cpp:267-309.  The branch for device names changes
    only copies. -/
def markEntry (m : UuidMap) (fsname : Bytes) (ds : List Disk) : Outcome (List Disk) :=
  if (b!"UUID=").isPrefixOf fsname then
    match m.find? (fsname.drop 5) with
    | some id => .ok (updateFirst (fun d => d.id = id) (fun d => { d with preferred := true }) ds)
    | none => .ok ds
  else if (b!"LABEL=").isPrefixOf fsname then markLabel (fsname.drop 6) ds
  else .ok ds

/-- The loop of `set_preferred_disks`. -/
def markEntries (m : UuidMap) : List Bytes → List Disk → Outcome (List Disk)
  | [], ds => .ok ds
  | e :: es, ds => do markEntries m es (← markEntry m e ds)

/-- `set_preferred_disks`, src/library/os/linux/os_linux.cpp:259-313. -/
def setPreferredDisks (h : DiskHost) (ds : List Disk) (m : UuidMap) : Outcome (List Disk) :=
  match h.fstab with
  | some es => markEntries m es ds
  | none => .ok ds

/-- `getDiskInfos`, src/library/os/linux/os_linux.cpp:322-334. -/
def getDiskInfos (h : DiskHost) : Outcome (FuncRet × List Disk) := do
  let (r, ds, m) ← getDiskInfosDev h
  let (r, ds, m) ← if r ≠ .ok then getDiskInfosBlkid h ds m else .ok (r, ds, m)
  if r = .ok then
    return (r, ← setPreferredDisks h ds m)
  else return (r, ds)

end Licensecc
