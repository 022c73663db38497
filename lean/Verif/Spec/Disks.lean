import Verif.Model.Disks
/-!
# Specification of the disk enumeration

Written on what the operating system shows: directory entries, the text of the blkid cache, the first fields of fstab.
-/
namespace Licensecc.Spec

/-! ## Serial numbers -/

/-- A hexadecimal digit. -/
def IsHex (b : UInt8) : Prop := (48 ≤ b ∧ b ≤ 57) ∨ (65 ≤ b ∧ b ≤ 70) ∨ (97 ≤ b ∧ b ≤ 102)

instance (b : UInt8) : Decidable (IsHex b) := by unfold IsHex; infer_instance

/-- Its value. -/
def hexValue (b : UInt8) : UInt8 := if b ≤ 57 then b - 48 else if b ≤ 70 then b - 65 + 10 else b - 97 + 10

/-- The hexadecimal digits of a text. -/
def hexDigits (u : Bytes) : Bytes := u.filter fun b => IsHex b

/-- Digits read in pairs; a last single digit counts as followed by 0. -/
def hexBytes : Bytes → Bytes
  | a :: b :: r => (hexValue a * 16 + hexValue b) :: hexBytes r
  | [a] => [hexValue a * 16]
  | [] => []

/-- Exclusive or of the bytes at the positions `k`, `k + 8`, `k + 16`, ... -/
def xorEvery8 (bs : Bytes) (k : Nat) : UInt8 := ((bs.zipIdx.filter fun p => p.2 % 8 = k).map (·.1)).foldl (· ^^^ ·) 0

/-- The serial number derived from a UUID text. -/
def serialOf (u : Bytes) : DiskSn :=
  let x := xorEvery8 (hexBytes (hexDigits u))
  ⟨x 0, x 1, x 2, x 3, x 4, x 5, x 6, x 7⟩

/-- Room that the code needs in its scratch buffer: the digits, rounded up to an even number, and a terminator. -/
def roomNeeded (u : Bytes) : Nat := (hexDigits u).length + (hexDigits u).length % 2 + 1

/-! ## Disks from /dev/disk/by-uuid -/

/-- The entries that count: those not called `.`, `..` or `usb...` whose link can be followed and read. -/
def usable (es : List UuidEntry) : List (Bytes × Int) :=
  es.filterMap fun e =>
    if e.name = b!"." ∨ e.name = b!".." ∨ e.name.take 3 = b!"usb" then none
    else match e.inode, e.link with
      | some i, some _ => some (e.name, i)
      | _, _ => none

/-- One entry per inode, the first one. -/
def firstPerInode : List (Bytes × Int) → List (Bytes × Int)
  | [] => []
  | p :: ps => p :: (firstPerInode ps).filter fun q => q.2 ≠ p.2

/-- The directory makes the code overrun its scratch buffer: an entry without room for its digits is met before 40 disks have
    been found. -/
def Overruns (es : List UuidEntry) : Prop :=
  ∃ before e after i, es = before ++ e :: after ∧ usable [e] = [(e.name, i)] ∧ e.name.length < roomNeeded e.name
    ∧ (firstPerInode (usable before)).length < 40

/-- The label of an inode: the name of the last entry of the label directory that points to it, cut to 254 bytes. -/
def lastLabel (es : List LabelEntry) (ino : Int) : Option Bytes :=
  (es.filterMap fun e => if e.name = b!"." ∨ e.name = b!".." then none else if e.inode = some ino then some (e.name.take 254)
    else none).getLast?

/-- The label directory that is used. -/
def labelDir (h : DiskHost) : List LabelEntry :=
  match h.byLabel, h.byPartLabel with
  | some es, _ => es
  | none, some es => es
  | none, none => []

/-! ## The blkid cache -/

/-- The value that a reader looking for `name="..."` finds in a text: what is between the first occurrence of `name="` and the
    next quote. -/
def AttributeIs (text name v : Bytes) : Prop :=
  ∃ pre post, text = pre ++ (name ++ [61, 34]) ++ v ++ [34] ++ post ∧ 34 ∉ v ∧ ¬ (name ++ [61, 34]) <:+: (pre ++ (name ++ [61]))

/-- One `<device ...>...</device>` entry: its text up to the closing tag, and the attributes. -/
structure CacheEntry where
  text : Bytes
  partLabel : Bytes
  uuid : Bytes
  type : Bytes

/-- The entry has the three attributes, is closed by the first closing tag, and its values are C strings. -/
structure CacheEntry.WellFormed (e : CacheEntry) : Prop where
  closed : ¬ b!"</device>" <:+: (e.text ++ b!"</device")
  partLabel : AttributeIs e.text b!"PARTLABEL" e.partLabel
  uuid : AttributeIs e.text b!"UUID" e.uuid
  type : AttributeIs e.text b!"TYPE" e.type
  noNul : (0 : UInt8) ∉ e.partLabel ∧ (0 : UInt8) ∉ e.uuid

/-- The text of a cache file: the entries with their closing tags, then anything without a closing tag. -/
def cacheText (es : List CacheEntry) (tail : Bytes) : Bytes := (es.map fun e => e.text ++ b!"</device>").flatten ++ tail

/-! ## Preferred disks -/

/-- Disk number `i` is the one an fstab entry names: by UUID (of the first directory entry or cache entry with that UUID) or
    by label; the first disk with that inode or label counts. -/
def NamedIn (fstab : List Bytes) (m : UuidMap) (ds : List Disk) (i : Nat) (d : Disk) : Prop :=
  (∃ u id, (b!"UUID=" ++ u) ∈ fstab ∧ m.find? u = some id ∧ d.id = id ∧ ∀ (j : Nat) (x : Disk), j < i → ds[j]? = some x → x.id ≠ id)
  ∨ (∃ l, (b!"LABEL=" ++ l) ∈ fstab ∧ d.label = l ∧ ∀ (j : Nat) (x : Disk), j < i → ds[j]? = some x → x.label ≠ l)

end Licensecc.Spec
