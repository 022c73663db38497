import Verif.Model.LogDebugWin
import Verif.Spec.LogTextWin
import Verif.Spec.Windows
import Verif.Spec.Trouble
/-!
# Specification: the messages of debug builds
-/
namespace Licensecc.Spec
open LogDebug LogText

/-- A byte as two hexadecimal digits. -/
def TwoDigits (b : UInt8) (t : Bytes) : Prop := t.length = 2 ∧ Numeral 16 b.toNat t

/-- A text, filled with blanks up to eight bytes. -/
def Column (s t : Bytes) : Prop := ∃ n, t = upToNul s ++ List.replicate n 32 ∧ n = 8 - (upToNul s).length

/-- A number without sign in hexadecimal notation, without leading zeros. -/
def HexText (n : Nat) (t : Bytes) : Prop := Numeral 16 n t ∧ (n ≠ 0 → t.head? ≠ some 48)

/-- The name of an address family. -/
inductive FamilyNamed : Nat → Bytes → Prop
  | packet : FamilyNamed 17 (b!"AF_PACKET")
  | inet : FamilyNamed 2 (b!"AF_INET")
  | inet6 : FamilyNamed 10 (b!"AF_INET6")
  | other {n : Nat} : n ∉ [17, 2, 10] → FamilyNamed n (b!"???")

/-- Source file, line and text of each message that has one. -/
inductive DebugText : Message → Bytes → Int → Bytes → Prop
  /-- not what happened but the place in memory where it is noted -/
  | status (a : Bytes) : DebugText (.status a) (b!"licensecc.cpp") 128 (b!"License status " ++ upToNul a)
  | interface {n c f t : Bytes} {k : Nat} : Column n c → FamilyNamed k f → IntText k t →
      DebugText (.interface n k) (b!"os/linux/network.cpp") 78 (c ++ b!" " ++ f ++ b!" (" ++ t ++ b!")\n")
  | macByte {b : UInt8} {t : Bytes} : TwoDigits b t → DebugText (.macByte b) (b!"os/linux/network.cpp") 97 (t ++ b!":")
  | interfaceEnd (n : Bytes) : DebugText (.interfaceEnd n) (b!"os/linux/network.cpp") 99 (b!"\t " ++ upToNul n ++ b!"\n")
  | labelSet {i : Int} {t : Bytes} (d l : Bytes) : IntText i t → DebugText (.labelSet i d l) (b!"os/linux/os_linux.cpp") 175
      (b!"Label for disk ino " ++ t ++ b!" device " ++ upToNul d ++ b!", set to " ++ upToNul l)
  | labelStat (p e : Bytes) : DebugText (.labelStat p e) (b!"os/linux/os_linux.cpp") 181
      (b!"Stat " ++ upToNul p ++ b!" for fail:F " ++ upToNul e)
  | labelOpen (d e : Bytes) : DebugText (.labelOpen d e) (b!"os/linux/os_linux.cpp") 186
      (b!"Open " ++ upToNul d ++ b!" for reading disk labels fail: " ++ upToNul e)
  | uuidOpen (e : Bytes) : DebugText (.uuidOpen e) (b!"os/linux/os_linux.cpp") 199 (b!"Open /dev/disk/by-uuid fail: " ++ upToNul e)
  | diskFound {i : Int} {t : Bytes} (d s : Bytes) : IntText i t → DebugText (.diskFound i d s) (b!"os/linux/os_linux.cpp") 234
      (b!"Found disk inode " ++ t ++ b!" device " ++ upToNul d ++ b!", sn " ++ upToNul s)
  | readlink (e p : Bytes) : DebugText (.readlink e p) (b!"os/linux/os_linux.cpp") 239
      (b!"Error " ++ upToNul e ++ b!" during readlink of " ++ upToNul p)
  | uuidStat (e p : Bytes) : DebugText (.uuidStat e p) (b!"os/linux/os_linux.cpp") 242
      (b!"Error " ++ upToNul e ++ b!" during stat of " ++ upToNul p)
  | fstab : DebugText .fstab (b!"os/linux/os_linux.cpp") 262 (b!"/etc/fstab not accessible")
  | fstabEntry (n : Bytes) : DebugText (.fstabEntry n) (b!"os/linux/os_linux.cpp") 269 (b!"found fstab entry " ++ upToNul n ++ b!" ")
  | preferredUuid {i : Int} {t : Bytes} (d : Bytes) : IntText i t → DebugText (.preferredUuid i d) (b!"os/linux/os_linux.cpp") 278
      (b!"Disk " ++ t ++ b!" device " ++ upToNul d ++ b!" set as preferred")
  | fstabNoDisk (n : Bytes) : DebugText (.fstabNoDisk n) (b!"os/linux/os_linux.cpp") 283
      (b!"fstab device " ++ upToNul n ++ b!" found, but no corresponding diskInfo")
  | preferredLabel {i : Int} {t : Bytes} (d : Bytes) : IntText i t → DebugText (.preferredLabel i d) (b!"os/linux/os_linux.cpp") 291
      (b!"Disk " ++ t ++ b!" device " ++ upToNul d ++ b!" set as preferred")
  | preferredDevice {i : Int} {t : Bytes} (d : Bytes) : IntText i t → DebugText (.preferredDevice i d) (b!"os/linux/os_linux.cpp") 305
      (b!"Disk " ++ t ++ b!" device " ++ upToNul d ++ b!" set as preferred")
  | biosVendor (w : Bytes) : DebugText (.biosVendor w) (b!"os/linux/dmi_info.cpp") 15 (b!"Can not read sys_vendor " ++ upToNul w)
  | modalias (w : Bytes) : DebugText (.modalias w) (b!"os/linux/dmi_info.cpp") 25 (b!"Can not read bios_description " ++ upToNul w)
  | sysVendor (w : Bytes) : DebugText (.sysVendor w) (b!"os/linux/dmi_info.cpp") 35 (b!"Can not read bios_description " ++ upToNul w)
  | noKey : DebugText .noKey (b!"os/windows/signature_verifier.cpp") 160 (b!"Error reading public key")
  | noMemory : DebugText .noMemory (b!"os/windows/signature_verifier.cpp") 222 (b!"Error allocating memory")
  | ethernet {k : Nat} {t : Bytes} (n d : Bytes) : IntText k t → DebugText (.ethernet n d k) (b!"os/windows/network.cpp") 133
      (b!"Ethernet found " ++ upToNul n ++ b!", " ++ upToNul d ++ b!", mac_l: " ++ t)
  | drive {k : Nat} {t : Bytes} (r v f : Bytes) : HexText k t → DebugText (.drive r v k f) (b!"os/windows/os_win.cpp") 52
      (b!"drive: " ++ upToNul r ++ b!",volume Name: " ++ upToNul v ++ b!", Volume Serial: 0x" ++ t ++ b!",Filesystem: " ++ upToNul f)
  | unreadable (r : Bytes) : DebugText (.unreadable r) (b!"os/windows/os_win.cpp") 65
      (b!"Unable to retrieve information of '" ++ upToNul r ++ b!"'")
  | noDrive : DebugText .noDrive (b!"os/windows/os_win.cpp") 78 (b!"No fixed drive were detected")

/-- The entry in the file: time, level, place, text, line end. -/
inductive DebugLine (dir now : Bytes) (m : Message) : Bytes → Prop
  | mk {file num msg : Bytes} {line : Int} : DebugText m file line msg → IntText line num →
      DebugLine dir now m (now ++ b!"[DEBUG] (" ++ upToNul (dir ++ file) ++ b!":" ++ num ++ b!") " ++ msg ++ b!"\n")

/-- The two messages for which the arguments are not those of the format. -/
inductive Malformed : Message → Prop
  /-- `%h` is no directive -/
  | formatError (description text : Bytes) (status : Int) : Malformed (.formatError description text status)
  /-- there is no argument for `%d` -/
  | notFixed (root : Bytes) : Malformed (.notFixed root)

end Licensecc.Spec

namespace Licensecc.Win.Spec
open Licensecc.Spec LogDebug

/-- Messages can be written: the log file is open, or it can be opened and its path fits in the array. -/
def Logs (l : Windows) (d : DebugSystem) : Prop :=
  (∃ p, l.log.logFile = some p) ∨
  ∃ t, l.tempPath = some t ∧ t.length < 244 ∧ d.canOpen (t ++ b!"open-license.log") = true

/-- The path of the log file fits in its array, or the file is open already. -/
def LogFits (l : Windows) : Prop := (∃ p, l.log.logFile = some p) ∨ ∃ t, l.tempPath = some t ∧ t.length < 244

/-- A drive that is not fixed (a CD-ROM, a memory stick, a network drive) is among the first forty. -/
def UnfixedDrive (l : Windows) : Prop := ∃ x ∈ l.drives.take 40, x.fixed = false

end Licensecc.Win.Spec

namespace Licensecc.LogDebug

/-- The number and the device of a disk a message says was found. -/
def Spec.foundDisk : Message → Option (Int × Bytes)
  | .diskFound i d _ => some (i, d)
  | _ => none

/-- The interface a message names. -/
def Spec.namedInterface : Message → Option Bytes
  | .interface n _ => some n
  | _ => none

/-- The entry of /etc/fstab a message names. -/
def Spec.namedEntry : Message → Option Bytes
  | .fstabEntry n => some n
  | _ => none

end Licensecc.LogDebug
