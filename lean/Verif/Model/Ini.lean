import Verif.Model.StringUtils
/-!
# Model of the INI parser, src/library/ini/SimpleIni.h

`CSimpleIniA` with the options the library uses: not UTF-8, no multi keys, no multi line values
(src/library/LicenseReader.cpp:64).  The C++ parser cuts the text in place by writing NULs and keeps pointers into it;
the model works on the remaining text as a list.  All writes go to positions before the read pointer, so the remaining
text is never changed.
-/
namespace Licensecc
namespace Ini

/-- `IsSpace`, src/library/ini/SimpleIni.h:1160-1162. -/
def isSp (c : UInt8) : Bool := c == 32 || c == 9 || c == 13 || c == 10

/-- `IsComment`, src/library/ini/SimpleIni.h:1165-1167. -/
def isComment (c : UInt8) : Bool := c == 59 || c == 35

/-- `IsNewLineChar`, src/library/ini/SimpleIni.h:1686-1692. -/
def isNL (c : UInt8) : Bool := c == 10 || c == 13

/-- `SkipNewLine`, src/library/ini/SimpleIni.h:1171-1173 (called on a non-empty text only). -/
def skipNewLine : Bytes → Bytes
  | 13 :: 10 :: t => t
  | _ :: t => t
  | [] => []

/-- Does the text start with a comment character? -/
def startsComment : Bytes → Bool
  | c :: _ => isComment c
  | [] => false

/-- `LoadMultiLineText` used for comments (no tag), src/library/ini/SimpleIni.h:1697-1817: the text that remains.  The
    comment text itself is not used by the library.  `fuel` bounds the number of rounds of the `for(;;)` loop; every
    round consumes at least one byte, see `loadComment_fuel`. -/
def loadComment (allowBlank : Bool) : Nat → Bytes → Bytes
  | 0, t => t
  | fuel + 1, t =>
    if startsComment t then
      let r := t.dropWhile (fun c => !isNL c)
      if r = [] then [] else loadComment allowBlank fuel (skipNewLine r)
    else if allowBlank then
      let p := t.dropWhile isSp
      if startsComment p then loadComment allowBlank fuel p else t
    else t

/-- Removal of trailing spaces from a name or value, e.g. src/library/ini/SimpleIni.h:1558-1563. -/
def trimRight (s : Bytes) : Bytes := (s.reverse.dropWhile isSp).reverse

/-- What one round of the loop of `FindEntry` does. -/
inductive Step where
  /-- end of the text -/
  | done
  /-- a comment or an invalid line was skipped -/
  | skip (rest : Bytes)
  /-- `[` without `]` on the line: the section pointer now points to this text -/
  | badHeader (rest : Bytes)
  /-- a section header -/
  | header (name rest : Bytes)
  /-- `key = value` -/
  | entry (key value rest : Bytes)
  deriving DecidableEq, Repr

/-- One round of the loop of `FindEntry`, src/library/ini/SimpleIni.h:1517-1631. -/
def step (t : Bytes) : Step :=
  match t.dropWhile isSp with
  | [] => .done
  | c :: r =>
    if isComment c then .skip (loadComment true (c :: r).length (c :: r))
    else if c = 91 then          -- '['
      let r1 := r.dropWhile isSp
      let name := r1.takeWhile (fun c => c != 93 && !isNL c)
      match r1.dropWhile (fun c => c != 93 && !isNL c) with
      | 93 :: r3 => .header (trimRight name) (r3.dropWhile (fun c => !isNL c))
      | r2 => .badHeader r2
    else
      let key := (c :: r).takeWhile (fun c => c != 61 && !isNL c)
      match (c :: r).dropWhile (fun c => c != 61 && !isNL c) with
      | 61 :: r2 =>              -- '='
        if key = [] then .skip ((61 :: r2).dropWhile (fun c => !isNL c))
        else
          let r3 := r2.dropWhile (fun c => !isNL c && isSp c)
          let v := r3.takeWhile (fun c => !isNL c)
          .entry (trimRight key) (trimRight v) (skipNewLine (r3.dropWhile (fun c => !isNL c)))
      | r1 => .skip r1

/-- One key/value pair found in the text, with the section it belongs to.  `none` stands for the text that follows a
    malformed header: it contains a line break and is never equal to a name without line breaks. -/
inductive Item where
  | header (name : Bytes)
  | badHeader
  | entry (key value : Bytes)
  deriving DecidableEq, Repr

/-- The sequence of `FindEntry` results and of malformed headers, src/library/ini/SimpleIni.h:1437-1440: `fuel` bounds
    the number of rounds; every round but the last consumes at least one byte, see `items_fuel`. -/
def itemsAux : Nat → Bytes → List Item
  | 0, _ => []
  | fuel + 1, t => match step t with
    | .done => []
    | .skip r => itemsAux fuel r
    | .badHeader r => .badHeader :: itemsAux fuel r
    | .header n r => .header n :: itemsAux fuel r
    | .entry k v r => .entry k v :: itemsAux fuel r

/-- The bytes `LoadData` looks at: the loops stop at the first NUL. -/
def cut (s : Bytes) : Bytes := s.takeWhile (· ≠ 0)

/-- `FindFileComment` followed by all `FindEntry` calls, src/library/ini/SimpleIni.h:1431-1440, 1478-1501. -/
def items (s : Bytes) : List Item :=
  let t := loadComment false (cut s).length (cut s)
  itemsAux (t.length + 1) t

/-- `SI_GenericNoCase::locase`, src/library/ini/SimpleIni.h:2657-2659. -/
def locase (c : UInt8) : UInt8 := if c < 65 || c > 90 then c else c + 32

/-- Names are the same for the case-insensitive order, src/library/ini/SimpleIni.h:2660-2669. -/
def sameName (a b : Bytes) : Bool := a.map locase == b.map locase

/-- `TKeyVal`, src/library/ini/SimpleIni.h:348.  Simplification: kept in insertion order; the order of the multimap is not
    observable through the functions used. -/
abbrev KeyVal := List (Bytes × Bytes)

/-- `TSection`, src/library/ini/SimpleIni.h:351. -/
abbrev Data := List (Bytes × KeyVal)

/-- Find the value of a key, ignoring case. -/
def findKey (k : Bytes) (kv : KeyVal) : Option Bytes := (kv.find? fun p => sameName p.1 k).map (·.2)

/-- Find a section, ignoring case. -/
def findSection (s : Bytes) (d : Data) : Option KeyVal := (d.find? fun p => sameName p.1 s).map (·.2)

/-- Setting a key in a section, src/library/ini/SimpleIni.h:1895-1948: the first spelling of the key is kept. -/
def setKey (k v : Bytes) (kv : KeyVal) : KeyVal :=
  if kv.any fun p => sameName p.1 k then kv.map fun p => if sameName p.1 k then (p.1, v) else p
  else kv ++ [(k, v)]

/-- Creating a section if it does not exist, src/library/ini/SimpleIni.h:1868-1890. -/
def addSection (s : Bytes) (d : Data) : Data :=
  if d.any fun p => sameName p.1 s then d else d ++ [(s, [])]

/-- `AddEntry` with a key, src/library/ini/SimpleIni.h:1848-1949. -/
def addKey (s k v : Bytes) (d : Data) : Data :=
  (addSection s d).map fun p => if sameName p.1 s then (p.1, setKey k v p.2) else p

/-- The loop of `LoadData`, src/library/ini/SimpleIni.h:1437-1440.  The section before any header is the empty name.
    Entries after a malformed header go to a section that no name without line breaks can address; the model drops
    them. -/
def build : Option Bytes → Data → List Item → Data
  | _, d, [] => d
  | _, d, .header n :: is => build (some n) (addSection n d) is
  | _, d, .badHeader :: is => build none d is
  | some s, d, .entry k v :: is => build (some s) (addKey s k v d) is
  | none, d, .entry _ _ :: is => build none d is

/-- `Reset` and `LoadData`, src/library/ini/SimpleIni.h:1275-1294, 1384-1456.  The result code is always SI_OK. -/
def load (s : Bytes) : Data := build (some []) [] (items s)

/-- `GetValue`, src/library/ini/SimpleIni.h:1953-1986. -/
def getValue (d : Data) (s k : Bytes) : Option Bytes := (findSection s d).bind (findKey k)

/-- `GetSectionSize`, src/library/ini/SimpleIni.h:2219-2250: -1 if there is no such section. -/
def getSectionSize (d : Data) (s : Bytes) : Int := match findSection s d with
  | none => -1
  | some kv => (kv.length : Int)

/-- `GetAllKeys`, src/library/ini/SimpleIni.h:2282-2309. -/
def getAllKeys (d : Data) (s : Bytes) : List Bytes := match findSection s d with
  | none => []
  | some kv => kv.map (·.1)

/-- Value of a digit in base `b` (10 or 16), if it is one. -/
def digit (base : Nat) (c : UInt8) : Option Nat :=
  let v := if 48 ≤ c && c ≤ 57 then some (c.toNat - 48)
    else if 97 ≤ c && c ≤ 102 then some (c.toNat - 87)
    else if 65 ≤ c && c ≤ 70 then some (c.toNat - 55) else none
  v.bind fun n => if n < base then some n else none

/-- Value of a digit sequence. -/
def digits (base : Nat) : Bytes → Nat → Nat
  | [], v => v
  | c :: s, v => match digit base c with
    | some n => digits base s (v * base + n)
    | none => v

/-- C `strtol` for base 10 or 16 on 64 bit: value (clamped) and the unconverted suffix. -/
def strtol (base : Nat) (s : Bytes) : Int × Bytes :=
  let t := s.dropWhile isSpace
  let (neg, u) : Bool × Bytes := match t with
    | 45 :: r => (true, r)
    | 43 :: r => (false, r)
    | r => (false, r)
  let w := match u with
    | 48 :: x :: h :: r => if base = 16 && (x == 120 || x == 88) && (digit 16 h).isSome then h :: r else u
    | _ => u
  if (w.takeWhile fun c => (digit base c).isSome) = [] then (0, s)
  else
    let v : Int := digits base w 0
    (max (-(2 : Int) ^ 63) (min ((2 : Int) ^ 63 - 1) (if neg then -v else v)), w.dropWhile fun c => (digit base c).isSome)

/-- `GetLongValue`, src/library/ini/SimpleIni.h:1990-2025, on the value found. -/
def toLong (v : Option Bytes) (dflt : Int) : Int :=
  match v with
  | none => dflt
  | some [] => dflt
  | some s =>
    if s.length + 1 > 64 then dflt
    else
      let r : Option (Int × Bytes) := match s with
        | 48 :: x :: r => if x == 120 || x == 88 then (if r = [] then none else some (strtol 16 r)) else some (strtol 10 s)
        | _ => some (strtol 10 s)
      match r with
      | none => dflt
      | some (n, suffix) => if suffix = [] then n else dflt

end Ini
end Licensecc
