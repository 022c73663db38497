import Verif.Model.IniMem
import Verif.Model.IniStore
/-!
# Model of the whole INI parser with its memory, src/library/ini/SimpleIni.h

Model/IniMem has the parser as the library uses it: no comments are asked for and values have one line.  Here the same array is parsed with
every setting of the options: the pointers to comments and to values of several lines, and what the strings are when `AddEntry` is called and when
all is parsed.
-/
namespace Licensecc.IniParse
open Ini IniMem
open IniStore (Options)

/-- `!IsLess(a, b) && !IsLess(b, a)` on pointers, src/library/ini/SimpleIni.h:1780. -/
def sameStr (m : Bytes) (a b : Nat) : Outcome Bool := do
  let x ← cstr m a
  let y ← cstr m b
  .ok (!less x y && !less y x)

/-- What the loop of `LoadMultiLineText` with a tag ends with: as `Loaded`, and `cEndOfLineChar`. -/
structure Tagged where
  mem : Bytes
  data : Nat
  dataLine : Nat
  ended : Bool
  eol : UInt8

/-- The loop of `LoadMultiLineText` with a tag, src/library/ini/SimpleIni.h:1724-1795: `p` is `a_pData`, `d` is `pDataLine`. -/
def tagLoop (tag : Nat) : Nat → Bytes → Nat → Nat → Outcome Tagged
  | 0, _, _, _ => .ub
  | fuel + 1, m, p, d => do
    let e ← scan (fun c => !isNL c) m (m.length + 1) p
    let m ← moveLine m d p e
    let eol ← rd m e
    let m ← wr m e 0
    let b ← sameStr m d tag
    if b then .ok ⟨m, e, d, false, eol⟩
    else if eol = 0 then .ok ⟨m, e, d, true, eol⟩
    else do
      let m ← wr m e eol
      let q ← skipNewLine m e
      let m ← wr m (d + (e - p)) 10
      tagLoop tag fuel m q (d + (e - p) + 1)

/-- What follows the loop, src/library/ini/SimpleIni.h:1797-1816, for a value that begins at `v`: the array, `a_pData` and the result. -/
def finishTag (v : Nat) (l : Tagged) : Outcome (Bytes × Nat × Bool) :=
  if l.ended then .ok (l.mem, l.data, true)
  else if v = l.data then .ok (l.mem, l.data, false)
  else if l.dataLine = 0 then .ub
  else do
    let m ← wr l.mem (l.dataLine - 1) 0
    if l.eol = 0 then .ok (m, l.data, true)
    else do
      let m ← wr m l.data l.eol
      let q ← skipNewLine m l.data
      .ok (m, q, true)

/-- `LoadMultiLineText` with a tag, src/library/ini/SimpleIni.h:1697-1817; the value begins where `a_pData` is. -/
def loadTagged (m : Bytes) (p tag : Nat) : Outcome (Bytes × Nat × Bool) := do
  let l ← tagLoop tag (m.length + 1) m p p
  finishTag p l

/-- `LoadMultiLineText` for comments, src/library/ini/SimpleIni.h:1697-1817: the array, `a_pData` and the pointer to the comment. -/
def loadComment (allowBlank : Bool) (m : Bytes) (p : Nat) : Outcome (Bytes × Nat × Option Nat) := do
  let r ← loadMultiLineText allowBlank m p
  .ok (r.1, r.2, if p = r.2 then none else some p)

/-- `IsMultiLineTag`, src/library/ini/SimpleIni.h:1640-1649. -/
def isTag (m : Bytes) (v : Nat) : Outcome Bool := do
  let a ← rd m v
  if a ≠ 60 then .ok false
  else do
    let b ← rd m (v + 1)
    if b ≠ 60 then .ok false
    else do
      let c ← rd m (v + 2)
      .ok (c == 60)

/-- What `AddEntry` is given: `a_pSection` (`none` is the variable `empty` of `LoadData`), key and value (NULL for a header), comment. -/
structure Entry where
  sect : Option Nat
  keyVal : Option (Nat × Nat)
  comment : Option Nat

/-- What `FindEntry` ends with. -/
structure Result where
  mem : Bytes
  data : Nat
  found : Bool
  entry : Entry

/-- One round of the loop of `FindEntry`: another one, or the end. -/
inductive Next where
  | again (m : Bytes) (p : Nat) (sect comment : Option Nat)
  | stop (f : Result)

/-- The end of an entry, src/library/ini/SimpleIni.h:1626-1634. -/
def lastRound (o : Options) (m : Bytes) (p : Nat) (sect : Option Nat) (k v : Nat) (comment : Option Nat) : Outcome Next := do
  let b ← if o.multiLine then isTag m v else .ok false
  if b then do
    let r ← loadTagged m p (v + 3)
    .ok (.stop ⟨r.1, r.2.1, r.2.2, ⟨sect, some (k, p), comment⟩⟩)
  else .ok (.stop ⟨m, p, true, ⟨sect, some (k, v), comment⟩⟩)

/-- What follows a header or a key. -/
def after (o : Options) (comment : Option Nat) : Round → Outcome Next
  | .again m p sect => .ok (.again m p sect comment)
  | .stop f =>
    match f.keyVal with
    | none => .ok (.stop ⟨f.mem, f.data, f.found, ⟨f.sect, none, comment⟩⟩)
    | some (k, v) => lastRound o f.mem f.data f.sect k v comment

/-- One round of the loop of `FindEntry`, src/library/ini/SimpleIni.h:1517-1636. -/
def roundOf (o : Options) (m : Bytes) (p : Nat) (sect comment : Option Nat) : Outcome Next := do
  let p ← scan isSp m (m.length + 1) p
  let c ← rd m p
  if c = 0 then .ok (.stop ⟨m, p, false, ⟨sect, none, comment⟩⟩)
  else if isComment c then do
    let r ← loadComment true m p
    .ok (.again r.1 r.2.1 sect r.2.2)
  else do
    let r ← if c = 91 then sectionRound m p else keyRound m p sect
    after o comment r

/-- The loop of `FindEntry`. -/
def findEntry (o : Options) : Nat → Bytes → Nat → Option Nat → Option Nat → Outcome Result
  | 0, _, _, _, _ => .ub
  | fuel + 1, m, p, sect, comment => do
    let r ← roundOf o m p sect comment
    match r with
    | .again m p sect comment => findEntry o fuel m p sect comment
    | .stop f => .ok f

/-- A pointer that may be NULL, used as a C string. -/
def cstrOpt (m : Bytes) : Option Nat → Outcome (Option Bytes)
  | none => .ok none
  | some p => do
    let s ← cstr m p
    .ok (some s)

/-- The strings that the pointers stand for. -/
def strings (m : Bytes) (e : Entry) : Outcome IniStore.Found := do
  let s ← cstrOpt m e.sect
  let c ← cstrOpt m e.comment
  match e.keyVal with
  | none => .ok ⟨s.getD [], none, c⟩
  | some (k, v) => do
    let k ← cstr m k
    let v ← cstr m v
    .ok ⟨s.getD [], some (k, v), c⟩

/-- The loop of `LoadData`, src/library/ini/SimpleIni.h:1437-1440: the array when all is parsed, the pointers given to `AddEntry`, and the strings
    they stood for when it was called. -/
def parseLoop (o : Options) : Nat → Bytes → Nat → Option Nat → Outcome (Bytes × List (Entry × IniStore.Found))
  | 0, _, _, _ => .ub
  | fuel + 1, m, p, sect => do
    let f ← findEntry o (m.length + 1) m p sect none
    if f.found then do
      let s ← strings f.mem f.entry
      let r ← parseLoop o fuel f.mem f.data f.entry.sect
      .ok (r.1, (f.entry, s) :: r.2)
    else .ok (f.mem, [])

/-- What a run of `LoadData` leaves: the array when all is parsed, the pointer to the comment of the file and the string that it stood for when it was
    found, and the pointers given to `AddEntry` with the strings that they stood for when it was called. -/
structure Parsed where
  mem : Bytes
  filePtr : Option Nat
  fileSeen : Option Bytes
  entries : List (Entry × IniStore.Found)

/-- `LoadData` for a text that is not empty, src/library/ini/SimpleIni.h:1395-1440; `has` if there is a comment of the file already (1484). -/
def parse (o : Options) (has : Bool) (s : Bytes) : Outcome Parsed :=
  let s := IniStore.dropMark o s
  do
    let c ← if has then .ok (s ++ [0], 0, none) else loadComment false (s ++ [0]) 0
    let t ← cstrOpt c.1 c.2.2
    let r ← parseLoop o (s.length + 2) c.1 c.2.1 none
    .ok ⟨r.1, c.2.2, t, r.2⟩

end Licensecc.IniParse
