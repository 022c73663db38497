import Verif.Model.Ini
/-!
# Model of the INI parser with its memory, src/library/ini/SimpleIni.h

`Ini.load` works on lists; here the parser is modelled as it is: a copy of the text in an array, pointers into it, NULs written
into it, comments moved inside it.  Sections, keys and values are pointers, and names are compared by the bytes that are in the
array at that moment.  A read or write outside the array, and a loop that does not end, are undefined behaviour.
Pointers are positions in the array.
-/
namespace Licensecc.IniMem
open Ini

/-- `*p`. -/
def rd (m : Bytes) (p : Nat) : Outcome UInt8 :=
  match m[p]? with
  | some c => .ok c
  | none => .ub

/-- `*p = c`. -/
def wr (m : Bytes) (p : Nat) (c : UInt8) : Outcome Bytes := if p < m.length then .ok (m.set p c) else .ub

/-- `while (*p && cond(*p)) ++p`, e.g. src/library/ini/SimpleIni.h:1519-1521; `fuel` bounds the rounds. -/
def scan (cond : UInt8 → Bool) (m : Bytes) : Nat → Nat → Outcome Nat
  | 0, _ => .ub
  | fuel + 1, p => do
    let c ← rd m p
    if c ≠ 0 ∧ cond c = true then scan cond m fuel (p + 1) else .ok p

/-- `while (pTrail >= start && IsSpace(*pTrail)) --pTrail; ++pTrail`, e.g. src/library/ini/SimpleIni.h:1558-1563; the argument is
    `pTrail + 1`. -/
def trimBack (m : Bytes) (start : Nat) : Nat → Outcome Nat
  | 0 => .ok 0
  | e + 1 =>
    if start ≤ e then do
      let c ← rd m e
      if isSp c then trimBack m start e else .ok (e + 1)
    else .ok (e + 1)

/-- `SkipNewLine`, src/library/ini/SimpleIni.h:1171-1173. -/
def skipNewLine (m : Bytes) (p : Nat) : Outcome Nat := do
  let c ← rd m p
  if c = 13 then do
    let d ← rd m (p + 1)
    .ok (if d = 10 then p + 2 else p + 1)
  else .ok (p + 1)

/-- Reading ahead over blank lines, src/library/ini/SimpleIni.h:1736-1746: where it ends and the number of line breaks. -/
def readAhead (m : Bytes) : Nat → Nat → Nat → Outcome (Nat × Nat)
  | 0, _, _ => .ub
  | fuel + 1, p, n => do
    let c ← rd m p
    if isSp c then
      if isNL c then do
        let q ← skipNewLine m p
        readAhead m fuel q (n + 1)
      else readAhead m fuel (p + 1) n
    else .ok (p, n)

/-- `for (; nNewLines > 0; --nNewLines) *pDataLine++ = '\n'`, src/library/ini/SimpleIni.h:1751. -/
def newLines : Nat → Bytes → Nat → Outcome Bytes
  | 0, m, _ => .ok m
  | n + 1, m, d => do
    let m ← wr m d 10
    newLines n m (d + 1)

/-- `memmove(to, from, n)`. -/
def move (m : Bytes) (to src n : Nat) : Outcome Bytes :=
  if src + n ≤ m.length ∧ to + n ≤ m.length then .ok (m.take to ++ (m.drop src).take n ++ m.drop (to + n)) else .ub

/-- Moving a line down if necessary, src/library/ini/SimpleIni.h:1765-1769: from `p` (up to `e`) to `d`. -/
def moveLine (m : Bytes) (d p e : Nat) : Outcome Bytes :=
  if d < p then do
    let m ← move m d p (e - p)
    wr m (d + (e - p)) 0
  else .ok m

/-- What the loop of `LoadMultiLineText` ends with: the array, `a_pData`, `pDataLine`, and whether the data ended in the comment
    (then the function returns at once). -/
structure Loaded where
  mem : Bytes
  data : Nat
  dataLine : Nat
  ended : Bool

/-- The loop of `LoadMultiLineText` for comments (`a_pTagName` is NULL), src/library/ini/SimpleIni.h:1724-1795. -/
def commentLoop (allowBlank : Bool) : Nat → Bytes → Nat → Nat → Outcome Loaded
  | 0, _, _, _ => .ub
  | fuel + 1, m, p, d => do
    let c ← rd m p
    if isComment c then do
      let e ← scan (fun c => !isNL c) m (m.length + 1) p
      let m ← moveLine m d p e
      let eol ← rd m e
      let m ← wr m e 0
      if eol = 0 then .ok ⟨m, e, d, true⟩
      else do
        let m ← wr m e eol
        let q ← skipNewLine m e
        let m ← wr m (d + (e - p)) 10
        commentLoop allowBlank fuel m q (d + (e - p) + 1)
    else if allowBlank then do
      let (q, n) ← readAhead m (m.length + 1) p 0
      let c ← rd m q
      if isComment c then do
        let m ← newLines n m d
        commentLoop allowBlank fuel m q (d + n)
      else .ok ⟨m, p, d, false⟩
    else .ok ⟨m, p, d, false⟩

/-- `LoadMultiLineText` for comments, src/library/ini/SimpleIni.h:1697-1817: the array and `a_pData`.  What happens to the comment is
    left out: the library never asks for it. -/
def loadMultiLineText (allowBlank : Bool) (m : Bytes) (p : Nat) : Outcome (Bytes × Nat) := do
  let l ← commentLoop allowBlank (m.length + 1) m p p
  if l.ended then .ok (l.mem, l.data)
  else if p = l.data then .ok (l.mem, l.data)
  else do
    let m ← wr l.mem (l.dataLine - 1) 0
    .ok (m, l.data)

/-- What `FindEntry` finds: `a_pKey` and `a_pVal` are NULL for a header. -/
structure Found where
  mem : Bytes
  data : Nat
  /-- `a_pSection`; `none` is the pointer to the variable `empty` of `LoadData` -/
  sect : Option Nat
  /-- did it find something? -/
  found : Bool
  keyVal : Option (Nat × Nat)

/-- What one round of `FindEntry` leads to: another one, or the end. -/
inductive Round where
  | again (m : Bytes) (p : Nat) (sect : Option Nat)
  | stop (f : Found)

/-- A round that meets a `[`, src/library/ini/SimpleIni.h:1535-1574. -/
def sectionRound (m : Bytes) (p : Nat) : Outcome Round := do
  let s ← scan isSp m (m.length + 1) (p + 1)
  let e ← scan (fun c => c != 93 && !isNL c) m (m.length + 1) s
  let c ← rd m e
  if c ≠ 93 then .ok (.again m e (some s))
  else do
    let t ← trimBack m s e
    let m ← wr m t 0
    let q ← scan (fun c => !isNL c) m (m.length + 1) (e + 1)
    .ok (.stop ⟨m, q, some s, true, none⟩)

/-- The end of an entry, src/library/ini/SimpleIni.h:1614-1624: the value begins at `v` and its line ends at `e`. -/
def valueRound (m : Bytes) (sect : Option Nat) (key v e : Nat) : Outcome Round := do
  let c ← rd m e
  let q ← if c ≠ 0 then skipNewLine m e else .ok e
  let t ← trimBack m v e
  let m ← wr m t 0
  .ok (.stop ⟨m, q, sect, true, some (key, v)⟩)

/-- A round that meets a key, src/library/ini/SimpleIni.h:1576-1635. -/
def keyRound (m : Bytes) (p : Nat) (sect : Option Nat) : Outcome Round := do
  let e ← scan (fun c => c != 61 && !isNL c) m (m.length + 1) p
  let c ← rd m e
  if c ≠ 61 then .ok (.again m e sect)
  else if p = e then do
    let q ← scan (fun c => !isNL c) m (m.length + 1) e
    .ok (.again m q sect)
  else do
    let t ← trimBack m p e
    let m ← wr m t 0
    let v ← scan (fun c => !isNL c && isSp c) m (m.length + 1) (e + 1)
    let f ← scan (fun c => !isNL c) m (m.length + 1) v
    valueRound m sect p v f

/-- One round of the loop of `FindEntry`, src/library/ini/SimpleIni.h:1517-1636. -/
def round (m : Bytes) (p : Nat) (sect : Option Nat) : Outcome Round := do
  let p ← scan isSp m (m.length + 1) p
  let c ← rd m p
  if c = 0 then .ok (.stop ⟨m, p, sect, false, none⟩)
  else if isComment c then do
    let (m, p) ← loadMultiLineText true m p
    .ok (.again m p sect)
  else if c = 91 then sectionRound m p
  else keyRound m p sect

/-- The loop of `FindEntry`. -/
def findEntry : Nat → Bytes → Nat → Option Nat → Outcome Found
  | 0, _, _, _ => .ub
  | fuel + 1, m, p, sect => do
    let r ← round m p sect
    match r with
    | .again m p sect => findEntry fuel m p sect
    | .stop f => .ok f

/-- The C string at a pointer. -/
def str (m : Bytes) (p : Option Nat) : Bytes :=
  match p with
  | none => []
  | some p => (m.drop p).takeWhile (· ≠ 0)

/-- Is there a NUL behind the pointer? -/
def terminated (m : Bytes) (p : Option Nat) : Bool :=
  match p with
  | none => true
  | some p => (m.drop p).contains 0

/-- `TKeyVal` and `TSection` (src/library/ini/SimpleIni.h:348-351) hold pointers: the keys with their values, the sections with their
    entries, in the order of insertion. -/
abbrev KeyPtrs := List (Nat × Nat)
abbrev Table := List (Option Nat × KeyPtrs)

/-- All strings that a search may compare are terminated. -/
def comparable (m : Bytes) (t : Table) : Bool :=
  t.all fun s => terminated m s.1 && s.2.all fun e => terminated m (some e.1)

/-- Setting a key, src/library/ini/SimpleIni.h:1895-1948. -/
def setKey (m : Bytes) (k v : Nat) (kv : KeyPtrs) : KeyPtrs :=
  if kv.any fun e => sameName (str m (some e.1)) (str m (some k)) then
    kv.map fun e => if sameName (str m (some e.1)) (str m (some k)) then (e.1, v) else e
  else kv ++ [(k, v)]

/-- `AddEntry`, src/library/ini/SimpleIni.h:1848-1949, without copying strings (`m_pData` is NULL after `Reset`). -/
def addEntry (m : Bytes) (s : Option Nat) (kv : Option (Nat × Nat)) (t : Table) : Outcome Table :=
  if comparable m t && terminated m s && kv.all (fun e => terminated m (some e.1)) then
    let t := if t.any fun e => sameName (str m e.1) (str m s) then t else t ++ [(s, [])]
    match kv with
    | none => .ok t
    | some (k, v) => .ok (t.map fun e => if sameName (str m e.1) (str m s) then (e.1, setKey m k v e.2) else e)
  else .ub

/-- The loop of `LoadData`, src/library/ini/SimpleIni.h:1437-1440. -/
def loadLoop : Nat → Bytes → Nat → Option Nat → Table → Outcome (Bytes × Table)
  | 0, _, _, _, _ => .ub
  | fuel + 1, m, p, sect, t => do
    let f ← findEntry (m.length + 1) m p sect
    if f.found then do
      let t ← addEntry f.mem f.sect f.keyVal t
      loadLoop fuel f.mem f.data f.sect t
    else .ok (f.mem, t)

/-- `LoadData` after `Reset`, src/library/ini/SimpleIni.h:1384-1456: the array and the table. -/
def loadData (s : Bytes) : Outcome (Bytes × Table) :=
  if s.length = 0 then .ok ([], [])
  else do
    let (m, p) ← loadMultiLineText false (s ++ [0]) 0
    loadLoop (s.length + 2) m p none []

/-- `m_data.find`: the section of that name. -/
def find (m : Bytes) (t : Table) (name : Bytes) : Outcome (Option KeyPtrs) :=
  if comparable m t then .ok ((t.find? fun e => sameName (str m e.1) name).map (·.2)) else .ub

/-- A pointer used as a C string. -/
def cstr (m : Bytes) (p : Nat) : Outcome Bytes := if terminated m (some p) then .ok (str m (some p)) else .ub

/-- `GetValue`, src/library/ini/SimpleIni.h:1953-1986: the string the result points to. -/
def getValue (m : Bytes) (t : Table) (name key : Bytes) : Outcome (Option Bytes) := do
  let kv ← find m t name
  match kv.bind (·.find? fun e => sameName (str m (some e.1)) key) with
  | none => .ok none
  | some e => do
    let v ← cstr m e.2
    .ok (some v)

/-- `GetSectionSize`, src/library/ini/SimpleIni.h:2219-2250. -/
def getSectionSize (m : Bytes) (t : Table) (name : Bytes) : Outcome Int := do
  let kv ← find m t name
  .ok (kv.elim (-1) fun kv => (kv.length : Int))

/-- `GetAllKeys`, src/library/ini/SimpleIni.h:2282-2309. -/
def getAllKeys (m : Bytes) (t : Table) (name : Bytes) : Outcome (List Bytes) := do
  let kv ← find m t name
  .ok (kv.elim [] fun kv => kv.map fun e => str m (some e.1))

/-- `SI_GenericNoCase`, src/library/ini/SimpleIni.h:2657-2670, on strings without NUL (`char` is signed). -/
def less : Bytes → Bytes → Bool
  | a :: x, b :: y => if locase a = locase b then less x y else decide (((locase a).toInt8).toInt < ((locase b).toInt8).toInt)
  | _, [] => false
  | [], _ :: _ => true

end Licensecc.IniMem
