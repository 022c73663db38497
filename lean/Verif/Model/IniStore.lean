import Verif.Model.IniMem
/-!
# Model of `CSimpleIniA` as an object that is changed and saved, src/library/ini/SimpleIni.h

Model/Ini and Model/IniMem cover what the library does with the class: load a text and look things up.  Here the whole class is
modelled as the issuer of licences uses it: setting and deleting, comments, several values per key, values of several lines,
saving, loading into an object that has contents already.

Strings are C strings: byte lists without NUL.  Memory (`CopyString`, `DeleteString`, the block of the loaded text) is not
modelled here.  `m_nOrder` is a natural number: overflow of `int` after 2^31 changes is ignored.
-/
namespace Licensecc.IniStore
open Ini

/-- The settings of an object, src/library/ini/SimpleIni.h:1228-1239; `windows` selects `SI_NEWLINE_A`
    (src/library/ini/SimpleIni.h:248-254). -/
structure Options where
  /-- `m_bStoreIsUtf8` -/
  utf8 : Bool := false
  /-- `m_bAllowMultiKey` -/
  multiKey : Bool := false
  /-- `m_bAllowMultiLine` -/
  multiLine : Bool := false
  /-- `m_bSpaces` -/
  spaces : Bool := true
  /-- built for Windows? -/
  windows : Bool := false
  deriving DecidableEq, Repr

/-- An element of `TKeyVal`, src/library/ini/SimpleIni.h:299-302, 348: the `Entry` and the value. -/
structure Key where
  name : Bytes
  comment : Option Bytes
  order : Nat
  value : Bytes
  deriving DecidableEq, Repr

/-- An element of `TSection`, src/library/ini/SimpleIni.h:299-302, 351: the `Entry` and the keys in the order of the multimap. -/
structure Sect where
  name : Bytes
  comment : Option Bytes
  order : Nat
  keys : List Key
  deriving DecidableEq, Repr

/-- `m_pFileComment`, `m_data` in the order of the map, `m_nOrder`, src/library/ini/SimpleIni.h:1217-1244. -/
structure Store where
  fileComment : Option Bytes := none
  sections : List Sect := []
  order : Nat := 0
  deriving DecidableEq, Repr

/-- `std::map::insert` and `std::multimap::insert`: behind all elements whose name is not greater. -/
def insertBy {α : Type} (name : α → Bytes) (x : α) (l : List α) : List α :=
  l.takeWhile (fun e => !IniMem.less (name x) (name e)) ++ x :: l.dropWhile (fun e => !IniMem.less (name x) (name e))

/-- `m_data.find`: the section of that name. On a sorted list the search tree finds the element that is neither less nor greater;
    `sameName` says the same as that (C65_order_same). -/
def findSection (st : Store) (s : Bytes) : Option Sect := st.sections.find? fun e => sameName e.name s

/-- The keys of that name; `multimap::find` gives the first of them (as libstdc++ does; the standard leaves open which). -/
def keysNamed (k : Bytes) (keys : List Key) : List Key := keys.filter fun e => sameName e.name k

/-- The others. -/
def keysNotNamed (k : Bytes) (keys : List Key) : List Key := keys.filter fun e => !sameName e.name k

/-- `iKey->second = a_pValue` for the key found, src/library/ini/SimpleIni.h:1948. -/
def replaceFirst (k v : Bytes) : List Key → List Key
  | [] => []
  | e :: l => if sameName e.name k then { e with value := v } :: l else e :: replaceFirst k v l

/-- The load order and the comment of the entries to be replaced, src/library/ini/SimpleIni.h:1905-1912. -/
def oldest (n : Nat) (l : List Key) : Nat × Option Bytes :=
  l.foldl (fun acc e => if e.order < acc.1 then (e.order, e.comment) else acc) (n, none)

/-- The part of `AddEntry` that sets a key, src/library/ini/SimpleIni.h:1895-1949: has something been inserted, and the keys; `n` is
    the new load order. -/
def setKey (o : Options) (k v : Bytes) (c : Option Bytes) (force : Bool) (n : Nat) (keys : List Key) : Bool × List Key :=
  if keysNamed k keys = [] then (true, insertBy Key.name ⟨k, c, n, v⟩ keys)
  else if o.multiKey && force then
    let old := oldest n (keysNamed k keys)
    (true, insertBy Key.name ⟨k, old.2.or c, old.1, v⟩ (keysNotNamed k keys))
  else if o.multiKey then (true, insertBy Key.name ⟨k, c, n, v⟩ keys)
  else (false, replaceFirst k v keys)

/-- The keys of a section changed in place. -/
def onSection (s : Bytes) (f : List Key → List Key) (l : List Sect) : List Sect :=
  l.map fun e => if sameName e.name s then { e with keys := f e.keys } else e

/-- The part of `AddEntry` that creates the section, src/library/ini/SimpleIni.h:1868-1890. -/
def addSection (s : Bytes) (c : Option Bytes) (st : Store) : Bool × Store :=
  match findSection st s with
  | some _ => (false, st)
  | none => (true, { st with order := st.order + 1, sections := insertBy Sect.name ⟨s, c, st.order + 1, []⟩ st.sections })

/-- `AddEntry`, src/library/ini/SimpleIni.h:1848-1950: was something inserted (`SI_INSERTED` or `SI_UPDATED`), and the object.
    `kv` is `none` if the key or the value is NULL. -/
def addEntry (o : Options) (s : Bytes) (kv : Option (Bytes × Bytes)) (c : Option Bytes) (force : Bool) (st : Store) : Bool × Store :=
  let r := addSection s (if kv.isNone then c else none) st
  match kv with
  | none => r
  | some (k, v) =>
    let keys := ((findSection r.2 s).map (·.keys)).getD []
    let q := setKey o k v c force (r.2.order + 1) keys
    (r.1 || q.1, { r.2 with order := r.2.order + 1, sections := onSection s (fun _ => q.2) r.2.sections })

/-- `Delete`, src/library/ini/SimpleIni.h:2529-2586; `k` is `none` for NULL. -/
def delete (s : Bytes) (k : Option Bytes) (removeEmpty : Bool) (st : Store) : Bool × Store :=
  match findSection st s with
  | none => (false, st)
  | some e =>
    match k with
    | none => (true, { st with sections := st.sections.filter fun e => !sameName e.name s })
    | some k =>
      if keysNamed k e.keys = [] then (false, st)
      else if !removeEmpty || keysNotNamed k e.keys ≠ [] then
        (true, { st with sections := onSection s (keysNotNamed k) st.sections })
      else (true, { st with sections := st.sections.filter fun e => !sameName e.name s })

/-- `GetAllValues`, src/library/ini/SimpleIni.h:2184-2215: the values with their comments and load orders. -/
def getAllValues (o : Options) (st : Store) (s k : Bytes) : List Key :=
  match findSection st s with
  | none => []
  | some e => if o.multiKey then keysNamed k e.keys else (keysNamed k e.keys).take 1

/-- `GetValue`, src/library/ini/SimpleIni.h:1953-1986: the value, and `*a_pHasMultiple`. -/
def getValue (o : Options) (st : Store) (s k : Bytes) : Option Bytes × Bool :=
  match findSection st s with
  | none => (none, false)
  | some e => ((keysNamed k e.keys).head?.map (·.value), o.multiKey && decide (1 < (keysNamed k e.keys).length))

/-- The loop of `GetAllKeys` and `GetSectionSize` over the keys, src/library/ini/SimpleIni.h:2241-2248 and 2299-2306: `last` is `pLastKey`. -/
def firstKeys : Option Bytes → List Key → List Key
  | _, [] => []
  | last, e :: l =>
    if last.all fun n => IniMem.less n e.name then e :: firstKeys (some e.name) l else firstKeys last l

/-- `GetAllKeys`, src/library/ini/SimpleIni.h:2282-2309; `none` if there is no such section. -/
def getAllKeys (st : Store) (s : Bytes) : Option (List Key) := (findSection st s).map fun e => firstKeys none e.keys

/-- `GetSectionSize`, src/library/ini/SimpleIni.h:2219-2250. -/
def getSectionSize (o : Options) (st : Store) (s : Bytes) : Int :=
  match findSection st s with
  | none => -1
  | some e => if !o.multiKey || e.keys = [] then (e.keys.length : Int) else ((firstKeys none e.keys).length : Int)

/-- `GetAllSections`, src/library/ini/SimpleIni.h:2268-2278. -/
def getAllSections (st : Store) : List Sect := st.sections

/-- The decimal digits of a number, least significant first; `fuel` bounds their number. -/
def revDigits (base : Nat) : Nat → Nat → Bytes
  | 0, _ => []
  | fuel + 1, n =>
    let d : UInt8 := UInt8.ofNat (if n % base < 10 then 48 + n % base else 87 + n % base)
    if n / base = 0 then [d] else d :: revDigits base fuel (n / base)

/-- `sprintf(szInput, a_bUseHex ? "0x%lx" : "%ld", a_nValue)`, src/library/ini/SimpleIni.h:2043-2047, `long` of 64 bits. -/
def longText (hex : Bool) (n : Int) : Bytes :=
  if hex then b!"0x" ++ (revDigits 16 16 (n % 2 ^ 64).toNat).reverse
  else if n < 0 then b!"-" ++ (revDigits 10 20 n.natAbs).reverse
  else (revDigits 10 20 n.natAbs).reverse

/-- `SetLongValue`, src/library/ini/SimpleIni.h:2029-2057. -/
def setLongValue (o : Options) (s k : Bytes) (n : Int) (c : Option Bytes) (hex force : Bool) (st : Store) : Bool × Store :=
  addEntry o s (some (k, longText hex n)) c force st

/-- `GetLongValue`, src/library/ini/SimpleIni.h:1990-2025. -/
def getLongValue (o : Options) (st : Store) (s k : Bytes) (dflt : Int) : Int := toLong (getValue o st s k).1 dflt

/-- `SetBoolValue`, src/library/ini/SimpleIni.h:2158-2180. -/
def setBoolValue (o : Options) (s k : Bytes) (b : Bool) (c : Option Bytes) (force : Bool) (st : Store) : Bool × Store :=
  addEntry o s (some (k, if b then b!"true" else b!"false")) c force st

/-- The `switch` of `GetBoolValue`, src/library/ini/SimpleIni.h:2135-2153. -/
def toBool (v : Option Bytes) (dflt : Bool) : Bool :=
  match v with
  | none => dflt
  | some v =>
    match v with
    | [] => dflt
    | a :: r =>
      if a ∈ ([116, 84, 121, 89, 49] : Bytes) then true              -- t T y Y 1
      else if a ∈ ([102, 70, 110, 78, 48] : Bytes) then false        -- f F n N 0
      else if a = 111 ∨ a = 79 then                                  -- o O
        match r with
        | b :: _ => if b = 110 ∨ b = 78 then true else if b = 102 ∨ b = 70 then false else dflt
        | [] => dflt
      else dflt

/-- `GetBoolValue`, src/library/ini/SimpleIni.h:2123-2154. -/
def getBoolValue (o : Options) (st : Store) (s k : Bytes) (dflt : Bool) : Bool := toBool (getValue o st s k).1 dflt

/-! ## Saving -/

/-- `SI_NEWLINE_A`, src/library/ini/SimpleIni.h:248-254. -/
def newline (o : Options) : Bytes := if o.windows then [13, 10] else [10]

/-- `IsMultiLineData`, src/library/ini/SimpleIni.h:1650-1683. -/
def isMultiLineData (v : Bytes) : Bool :=
  match v with
  | [] => false
  | c :: r => isSp c || (c :: r).any isNL || isSp ((c :: r).getLast (by simp))

/-- The loop of `OutputMultiLineText` in the middle of a line, src/library/ini/SimpleIni.h:2508-2522. -/
def outputLines (nl : Bytes) : Bytes → Bytes
  | [] => nl
  | c :: r => if c = 10 then nl ++ outputLines nl r else c :: outputLines nl r

/-- `OutputMultiLineText`, src/library/ini/SimpleIni.h:2500-2525. -/
def outputText (nl : Bytes) (t : Bytes) : Bytes := if t = [] then [] else outputLines nl t

/-- `Entry::LoadOrder`, src/library/ini/SimpleIni.h:336-343: by load order, then by name. -/
def loadOrder {α : Type} (order : α → Nat) (name : α → Bytes) (a b : α) : Bool :=
  if order a ≠ order b then decide (order a < order b) else IniMem.less (name a) (name b)

/-- An element put in front of the first that is not less. -/
def insertSorted {α : Type} (lt : α → α → Bool) (x : α) : List α → List α
  | [] => [x]
  | e :: l => if lt e x then e :: insertSorted lt x l else x :: e :: l

/-- `list::sort(LoadOrder())` (src/library/ini/SimpleIni.h:2388, 2440), which is stable; the algorithm is not modelled. -/
def sortByOrder {α : Type} (order : α → Nat) (name : α → Bytes) (l : List α) : List α :=
  l.foldr (insertSorted (loadOrder order name)) []

/-- One value, src/library/ini/SimpleIni.h:2455-2483. -/
def saveValue (o : Options) (name : Bytes) (e : Key) : Bytes :=
  (match e.comment with
    | none => []
    | some c => newline o ++ outputText (newline o) c)
  ++ name ++ (if o.spaces then b!" = " else b!"=")
  ++ (if o.multiLine && isMultiLineData e.value then
      b!"<<<END_OF_TEXT" ++ newline o ++ outputText (newline o) e.value ++ b!"END_OF_TEXT"
    else e.value)
  ++ newline o

/-- The keys of a section, src/library/ini/SimpleIni.h:2431-2485. -/
def saveKeys (o : Options) (st : Store) (s : Sect) : Bytes :=
  (sortByOrder Key.order Key.name ((getAllKeys st s.name).getD [])).flatMap fun k =>
    (getAllValues o st s.name k.name).flatMap (saveValue o k.name)

/-- One round of the loop over the sections, src/library/ini/SimpleIni.h:2404-2488; `need` is `bNeedNewLine`. -/
def saveSection (o : Options) (st : Store) (need : Bool) (s : Sect) : Bytes :=
  (match s.comment with
    | none => []
    | some c => (if need then newline o ++ newline o else []) ++ outputText (newline o) c)
  ++ (if need && s.comment.isNone then newline o ++ newline o else [])
  ++ (if s.name = [] then [] else b!"[" ++ s.name ++ b!"]" ++ newline o)
  ++ saveKeys o st s

/-- The loop over the sections: `bNeedNewLine` is true from the second round on. -/
def saveSections (o : Options) (st : Store) : Bool → List Sect → Bytes
  | _, [] => []
  | need, s :: l => saveSection o st need s ++ saveSections o st true l

/-- `Save`, src/library/ini/SimpleIni.h:2370-2495: the text written. It never fails: `ConvertToStore` of `SI_ConvertA` does not. -/
def save (o : Options) (addSignature : Bool) (st : Store) : Bytes :=
  (if o.utf8 && addSignature then [0xEF, 0xBB, 0xBF] else [])
  ++ (match st.fileComment with
    | none => []
    | some c => outputText (newline o) c)
  ++ saveSections o st st.fileComment.isSome (sortByOrder Sect.order Sect.name (getAllSections st))
  ++ newline o

/-! ## Loading -/

/-- `LoadMultiLineText` for comments, src/library/ini/SimpleIni.h:1697-1817: the comment and the text that remains. `acc` is the comment so
    far, `fuel` bounds the rounds. -/
def commentText (allowBlank : Bool) : Nat → Bytes → Bytes → Bytes × Bytes
  | 0, acc, t => (acc, t)
  | fuel + 1, acc, t =>
    if startsComment t then
      let line := t.takeWhile (fun c => !isNL c)
      let r := t.dropWhile (fun c => !isNL c)
      if r = [] then (acc ++ line, []) else commentText allowBlank fuel (acc ++ line ++ [10]) (skipNewLine r)
    else if allowBlank then
      let p := t.dropWhile isSp
      if startsComment p then commentText allowBlank fuel (acc ++ List.replicate (breaks (t.takeWhile isSp)) 10) p
      else (acc.dropLast, t)
    else (acc.dropLast, t)
where
  /-- the number of line breaks in white space, src/library/ini/SimpleIni.h:1736-1746 -/
  breaks : Bytes → Nat
    | [] => 0
    | 13 :: 10 :: t => breaks t + 1
    | c :: t => if isNL c then breaks t + 1 else breaks t

/-- `LoadMultiLineText` with a tag, src/library/ini/SimpleIni.h:1697-1817: the value and the text that remains; `none` if the function
    returns false. When the tag is on the first line the NUL is written in front of the value (1805) and the line break behind the tag is put
    back (1811): if there is one, no end of the value is written, here `some (none, …)`, and the value runs on into the text that remains. -/
def taggedText (tag : Bytes) : Nat → Bytes → Bytes → Option (Option Bytes × Bytes)
  | 0, acc, t => some (some acc, t)
  | fuel + 1, acc, t =>
    let line := t.takeWhile (fun c => !isNL c)
    let r := t.dropWhile (fun c => !isNL c)
    if sameName line tag then
      if acc = [] then (if line = [] then none else some (if r = [] then some line else none, skipNewLine r))
      else some (some acc.dropLast, skipNewLine r)
    else if r = [] then some (some (acc ++ line), [])
    else taggedText tag fuel (acc ++ line ++ [10]) (skipNewLine r)

/-- What `FindEntry` gives to `AddEntry`: section, key and value (none for a header), comment. -/
structure Found where
  sect : Bytes
  kv : Option (Bytes × Bytes)
  comment : Option Bytes
  deriving DecidableEq, Repr

/-- All that `FindEntry` finds, src/library/ini/SimpleIni.h:1504-1636 and 1437-1440; it does not look at what is stored. `none` if there is a
    malformed header, `[` without `]` on its line: what follows goes into a section whose name is a piece of the text; and if a value of
    several lines begins with its tag: it has no end of its own (both are in `findEvery`). `fuel` bounds the rounds. -/
def findAll (o : Options) : Nat → Bytes → Option Bytes → Bytes → Option (List Found)
  | 0, _, _, _ => some []
  | fuel + 1, sect, comment, t =>
    let t := t.dropWhile isSp
    if startsComment t then
      let c := commentText true t.length [] t
      findAll o fuel sect (some c.1) c.2
    else match step t with
      | .done => some []
      | .skip r => findAll o fuel sect comment r
      | .badHeader _ => none
      | .header n r => (findAll o fuel n none r).map (⟨n, none, comment⟩ :: ·)
      | .entry k v r =>
        if o.multiLine && (v.take 3 == b!"<<<") then
          match taggedText (v.drop 3) (r.length + 1) [] r with
          | none => some []
          | some (none, _) => none
          | some (some v, r) => (findAll o fuel sect none r).map (⟨sect, some (k, v), comment⟩ :: ·)
        else (findAll o fuel sect none r).map (⟨sect, some (k, v), comment⟩ :: ·)

/-- Where `FindEntry` is: in a section with a name, or behind a malformed header, `[` without `]` on its line; then the name of the section is
    the text from there on, up to the first end of a string that is written into it. -/
inductive Place where
  | named (n : Bytes)
  | broken (start : Bytes)
  deriving DecidableEq, Repr

/-- The name of the section when a string `last` is ended that begins with what remains of the text, `t`. -/
def Place.name (p : Place) (t last : Bytes) : Bytes :=
  match p with
  | .named n => n
  | .broken start => start.take (start.length - t.length) ++ last

/-- A value that runs on: from `start` to the first NUL that is written when the text goes on to be parsed at `t`, src/library/ini/SimpleIni.h:
    1504-1636: at the end of a comment (1527), of the name of a section (1556) or of a key (1588), or at the end of the text. -/
def openEnd (start : Bytes) : Nat → Bytes → Bytes
  | 0, _ => start
  | fuel + 1, t =>
    let t := t.dropWhile isSp
    if startsComment t then start.take (start.length - t.length) ++ (commentText true t.length [] t).1
    else match step t with
      | .done => start
      | .skip r => openEnd start fuel r
      | .badHeader r => openEnd start fuel r
      | .header n _ => start.take (start.length - (t.tail.dropWhile isSp).length) ++ n
      | .entry k _ _ => start.take (start.length - t.length) ++ k

/-- As `findAll`, and for every text, src/library/ini/SimpleIni.h:1504-1636 and 1437-1440. Behind a malformed header
    (1531-1548) the section points to the rest of the text; a comment (1527) or a key (1583-1588) that follows is ended by a NUL and so ends its
    name. A value that runs on is what there is to copy when the strings are copied (`copy`), the rest of the text; else it has its end when all is
    parsed. -/
def findEvery (o : Options) (copy : Bool) : Nat → Place → Option Bytes → Bytes → List Found
  | 0, _, _, _ => []
  | fuel + 1, place, comment, t =>
    let t := t.dropWhile isSp
    if startsComment t then
      let c := commentText true t.length [] t
      findEvery o copy fuel (.named (place.name t c.1)) (some c.1) c.2
    else match step t with
      | .done => []
      | .skip r => findEvery o copy fuel place comment r
      | .badHeader r => findEvery o copy fuel (.broken (t.tail.dropWhile isSp)) comment r
      | .header n r => ⟨n, none, comment⟩ :: findEvery o copy fuel (.named n) none r
      | .entry k v r =>
        let s := place.name t k
        if o.multiLine && (v.take 3 == b!"<<<") then
          match taggedText (v.drop 3) (r.length + 1) [] r with
          | none => []
          | some (none, r') => ⟨s, some (k, if copy then r else openEnd r (r'.length + 1) r'), comment⟩ :: findEvery o copy fuel (.named s) none r'
          | some (some v, r) => ⟨s, some (k, v), comment⟩ :: findEvery o copy fuel (.named s) none r
        else ⟨s, some (k, v), comment⟩ :: findEvery o copy fuel (.named s) none r

/-- The byte order mark, src/library/ini/SimpleIni.h:1395-1401. -/
def dropMark (o : Options) (s : Bytes) : Bytes :=
  if o.utf8 && (s.take 3 == [0xEF, 0xBB, 0xBF]) then s.drop 3 else s

/-- `FindFileComment`, src/library/ini/SimpleIni.h:1478-1501: the comment of the file and the text that remains. -/
def findFileComment (st : Store) (t : Bytes) : Option Bytes × Bytes :=
  match st.fileComment with
  | some c => (some c, t)
  | none => if startsComment t then (some (commentText false t.length [] t).1, (commentText false t.length [] t).2) else (none, t)

/-- `AddEntry` for all that was found, src/library/ini/SimpleIni.h:1437-1440. -/
def addAll (o : Options) (l : List Found) (st : Store) : Store :=
  l.foldl (fun st f => (addEntry o f.sect f.kv f.comment false st).2) st

/-- `LoadData`, src/library/ini/SimpleIni.h:1384-1456, into an object that may have contents; `none` if the text contains a malformed
    header or a value that runs on. -/
def load (o : Options) (s : Bytes) (st : Store) : Option Store :=
  let p := findFileComment st (cut (dropMark o s))
  (findAll o (p.2.length + 1) [] none p.2).map fun l => addAll o l { st with fileComment := p.1 }

/-- `LoadData`, src/library/ini/SimpleIni.h:1384-1456, for every text; `copy` if something was loaded before (1420). -/
def loadEvery (o : Options) (copy : Bool) (s : Bytes) (st : Store) : Store :=
  let p := findFileComment st (cut (dropMark o s))
  addAll o (findEvery o copy (p.2.length + 1) (.named []) none p.2) { st with fileComment := p.1 }

end Licensecc.IniStore
