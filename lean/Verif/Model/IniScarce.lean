import Verif.Model.IniFile
/-!
# Model of `CSimpleIniA` when memory runs out, src/library/ini/SimpleIni.h

`AddEntry`, `LoadData` and `LoadFile` of Model/IniStore and Model/IniFile with the requests for memory they make.  `new` throws
`std::bad_alloc` when a request is refused (the comparisons of its result with NULL, 1363, 1412 and 1837, never hold); nothing in the class catches
it.  So only the first refusal matters: memory is the number of requests that are still granted.  The requests are those made with libstdc++: one for
a string, one for an element of a list, one for an element of a tree.  As in Model/IniStore an object is seen through what its functions give; strings
and blocks that nobody releases any more appear in the events of `loadFile` only.
-/
namespace Licensecc.IniScarce
open Ini hiding getValue setKey load
open IniStore IniFile

/-- `n` requests: what is still granted afterwards, or `none` for `std::bad_alloc`. -/
def request (n budget : Nat) : Option Nat := if n ≤ budget then some (budget - n) else none

/-- `CopyString`, src/library/ini/SimpleIni.h:1820-1844: the copy, and the element of `m_strings`; `yes` if it is called at all. -/
def copies (yes : Bool) (budget : Nat) : Option Nat := request (if yes then 2 else 0) budget

/-- The part of `AddEntry` that creates the section, src/library/ini/SimpleIni.h:1868-1890: `m_nOrder` is increased before the element is
    requested. -/
def addSection (s : Bytes) (c : Option Bytes) (copy : Bool) (budget : Nat) (st : Store) : Option Nat × Store :=
  match findSection st s with
  | some _ => (some budget, st)
  | none =>
    match copies copy budget with
    | none => (none, st)
    | some budget =>
      match request 1 budget with
      | none => (none, { st with order := st.order + 1 })
      | some budget => (some budget, (IniStore.addSection s c st).2)

/-- A new entry, src/library/ini/SimpleIni.h:1923-1948, when `keys` are those that are there: copies of the name and the value, then the element. -/
def insertKey (copy : Bool) (x : Key) (keys : List Key) (budget : Nat) : Option Nat × List Key :=
  match copies copy budget with
  | none => (none, keys)
  | some budget =>
    match copies copy budget with
    | none => (none, keys)
    | some budget =>
      match request 1 budget with
      | none => (none, keys)
      | some budget => (some budget, insertBy Key.name x keys)

/-- The part of `AddEntry` that sets a key, src/library/ini/SimpleIni.h:1895-1949. Where all values are to be replaced, the comment of the oldest is
    copied first (1916), then the values are deleted (1918); the copies and the element are requested after that. -/
def setKey (o : Options) (k v : Bytes) (c : Option Bytes) (force copy : Bool) (n : Nat) (keys : List Key) (budget : Nat) : Option Nat × List Key :=
  if keysNamed k keys = [] then insertKey copy ⟨k, c, n, v⟩ keys budget
  else if o.multiKey && force then
    let old := oldest n (keysNamed k keys)
    match copies old.2.isSome budget with
    | none => (none, keys)
    | some budget => insertKey copy ⟨k, old.2.or c, old.1, v⟩ (keysNotNamed k keys) budget
  else if o.multiKey then insertKey copy ⟨k, c, n, v⟩ keys budget
  else
    match copies copy budget with
    | none => (none, keys)
    | some budget => (some budget, replaceFirst k v keys)

/-- `AddEntry`, src/library/ini/SimpleIni.h:1848-1950: the requests still granted, `none` if it ends with `std::bad_alloc`; the object as it is then. -/
def addEntry (o : Options) (s : Bytes) (kv : Option (Bytes × Bytes)) (c : Option Bytes) (force copy : Bool) (budget : Nat) (st : Store) :
    Option Nat × Store :=
  match copies (copy && c.isSome) budget with
  | none => (none, st)
  | some budget =>
    let r := addSection s (if kv.isNone then c else none) copy budget st
    match r.1 with
    | none => (none, r.2)
    | some budget =>
      match kv with
      | none => (some budget, r.2)
      | some (k, v) =>
        let keys := ((findSection r.2 s).map (·.keys)).getD []
        let q := setKey o k v c force copy (r.2.order + 1) keys budget
        (q.1, { r.2 with order := r.2.order + 1, sections := onSection s (fun _ => q.2) r.2.sections })

/-- `AddEntry` for all that was found, src/library/ini/SimpleIni.h:1437-1440. -/
def addAll (o : Options) (copy : Bool) : List Found → Nat → Store → Option Nat × Store
  | [], budget, st => (some budget, st)
  | f :: l, budget, st =>
    let r := addEntry o f.sect f.kv f.comment false copy budget st
    match r.1 with
    | none => (none, r.2)
    | some budget => addAll o copy l budget r.2

/-- `FindFileComment`, src/library/ini/SimpleIni.h:1478-1501: `m_pFileComment` is set before the comment is copied. -/
def commentCopies (copy : Bool) (st : Store) (p : Option Bytes × Bytes) (budget : Nat) : Option Nat :=
  copies (copy && st.fileComment.isNone && p.1.isSome) budget

/-- `LoadData`, src/library/ini/SimpleIni.h:1384-1456, of data that are not empty: the requests still granted, the object, and what happened to the
    block of the converted text: it is kept (`m_pData`) if nothing is copied. A value that runs on (Model/IniStore) is here what it would be if all
    were parsed. -/
def loadEvery (o : Options) (copy : Bool) (s : Bytes) (budget : Nat) (st : Store) : Option Nat × Store × List Event :=
  let t := dropMark o s
  match request 1 budget with
  | none => (none, st, [])
  | some budget =>
    let p := findFileComment st (cut t)
    match commentCopies copy st p budget with
    | none => (none, { st with fileComment := p.1 }, [.new (t.length + 1)])
    | some budget =>
      let r := addAll o copy (findEvery o copy (p.2.length + 1) (.named []) none p.2) budget { st with fileComment := p.1 }
      (r.1, r.2, .new (t.length + 1) :: if r.1.isSome && copy then [.delete] else [])

/-- `LoadFile(const char *)` and `LoadFile(FILE *)`, src/library/ini/SimpleIni.h:1296-1315 and 1343-1380: the result, `none` for `std::bad_alloc`.
    (`fopen` does not throw: without memory it fails.) -/
def loadFile (o : Options) (copy : Bool) (r : Reading) (budget : Nat) (st : Store) : Option Code × Store × List Event :=
  if !r.opens then (some .file, st, [])
  else if !r.seeks then (some .file, st, [.fopen, .fclose])
  else if r.tell < 0 then (some .file, st, [.fopen, .fclose])
  else if r.tell = 0 then (some .ok, st, [.fopen, .fclose])
  else
    match request 1 budget with
    | none => (none, st, [.fopen])
    | some budget =>
      let data := r.read r.tell.toNat
      if data.length ≠ r.tell.toNat then (some .file, st, [.fopen, .new (r.tell.toNat + 1), .delete, .fclose])
      else
        let x := loadEvery o copy data budget st
        match x.1 with
        | none => (none, x.2.1, [.fopen, .new (r.tell.toNat + 1)] ++ x.2.2)
        | some _ => (some .ok, x.2.1, [.fopen, .new (r.tell.toNat + 1)] ++ x.2.2 ++ [.delete, .fclose])

end Licensecc.IniScarce
