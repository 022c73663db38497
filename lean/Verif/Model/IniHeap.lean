import Verif.Model.IniStore
/-!
# Model of the memory of `CSimpleIniA`, src/library/ini/SimpleIni.h

Model/IniStore with pointers in place of strings: which strings are copied, which are released, and when.  Every access to a string
and every release is checked: an access to a string that has been released, or a second release, is a `Fault`.

Strings do not change once stored: what parsing writes into the block of a text that is being loaded is the subject of Model/IniMem.
Searches in the trees read names one after the other; the trees read some of them.  `new` never fails.
-/
namespace Licensecc.IniHeap
open Ini hiding getValue setKey load
open IniStore (Options)

/-- Addresses of C strings. -/
inductive Ptr where
  /-- a string of the caller's, or a static one, with its text -/
  | caller (text : Bytes)
  /-- a string with that text inside the block of a loaded text; blocks are numbered -/
  | block (b : Nat) (text : Bytes)
  /-- a string made by `CopyString`; they are numbered -/
  | own (n : Nat)
  deriving DecidableEq, Repr

/-- What must not happen. -/
inductive Fault where
  /-- a string is read that has been released -/
  | useAfterFree
  /-- something is released that is not allocated -/
  | badRelease
  deriving DecidableEq, Repr

/-- Memory, and the members of the object that manage it (src/library/ini/SimpleIni.h:1209, 1227). -/
structure Mem where
  /-- the copied strings that are allocated, with their texts -/
  heap : List (Nat × Bytes) := []
  /-- the blocks that are allocated -/
  blocks : List Nat := []
  /-- the next number for a string or a block -/
  next : Nat := 0
  /-- `m_strings` -/
  strings : List Nat := []
  /-- `m_pData` -/
  data : Option Nat := none
  deriving DecidableEq, Repr

/-- The text at an address; `none` if the memory is not allocated. -/
def Mem.text (m : Mem) : Ptr → Option Bytes
  | .caller t => some t
  | .block b t => if b ∈ m.blocks then some t else none
  | .own n => (m.heap.find? fun e => e.1 == n).map (·.2)

/-- An access to a string. -/
def read (m : Mem) (p : Ptr) : Except Fault Bytes :=
  match m.text p with
  | some t => .ok t
  | none => .error .useAfterFree

/-- An element of `TKeyVal`, src/library/ini/SimpleIni.h:299-302, 348. -/
structure Key where
  name : Ptr
  comment : Option Ptr
  order : Nat
  value : Ptr
  deriving DecidableEq, Repr

/-- An element of `TSection`, src/library/ini/SimpleIni.h:299-302, 351. -/
structure Sect where
  name : Ptr
  comment : Option Ptr
  order : Nat
  keys : List Key
  deriving DecidableEq, Repr

/-- The object: `m_pFileComment`, `m_data`, `m_nOrder` and the memory, src/library/ini/SimpleIni.h:1209-1244. -/
structure Obj where
  mem : Mem := {}
  fileComment : Option Ptr := none
  sections : List Sect := []
  order : Nat := 0
  deriving DecidableEq, Repr

/-- `CopyString`, src/library/ini/SimpleIni.h:1820-1844: the new address, and the memory. -/
def copyString (m : Mem) (p : Ptr) : Except Fault (Ptr × Mem) := do
  let t ← read m p
  .ok (.own m.next, { m with heap := m.heap ++ [(m.next, t)], strings := m.strings ++ [m.next], next := m.next + 1 })

/-- `CopyString` if asked for. -/
def copyIf (b : Bool) (m : Mem) (p : Ptr) : Except Fault (Ptr × Mem) := if b then copyString m p else .ok (p, m)

/-- `CopyString` of a string that may be missing. -/
def copyOptIf (b : Bool) (m : Mem) : Option Ptr → Except Fault (Option Ptr × Mem)
  | none => .ok (none, m)
  | some p => do
    let (p, m) ← copyIf b m p
    .ok (some p, m)

/-- `delete[]` of a copied string. -/
def release (m : Mem) (n : Nat) : Except Fault Mem :=
  if n ∈ m.heap.map (·.1) then .ok { m with heap := m.heap.filter fun e => e.1 != n } else .error .badRelease

/-- `DeleteString`, src/library/ini/SimpleIni.h:2588-2606: strings of the block and of others are not in `m_strings`. -/
def deleteString (m : Mem) : Ptr → Except Fault Mem
  | .own n =>
    if n ∈ m.strings then do
      let m ← release m n
      .ok { m with strings := m.strings.erase n }
    else .ok m
  | _ => .ok m

/-- `DeleteString` of a string that may be missing. -/
def deleteStringOpt (m : Mem) : Option Ptr → Except Fault Mem
  | none => .ok m
  | some p => deleteString m p

/-- `lower_bound`: the elements less than a name, and the others. -/
def lower {α : Type} (m : Mem) (name : α → Ptr) (p : Ptr) : List α → Except Fault (List α × List α)
  | [] => .ok ([], [])
  | e :: l => do
    let a ← read m (name e)
    let b ← read m p
    if IniMem.less a b then
      let r ← lower m name p l
      .ok (e :: r.1, r.2)
    else .ok ([], e :: l)

/-- Is the first of the others equal to the name? The second half of `find`. -/
def hit {α : Type} (m : Mem) (name : α → Ptr) (p : Ptr) : List α → Except Fault Bool
  | [] => .ok false
  | e :: _ => do
    let a ← read m p
    let b ← read m (name e)
    .ok !(IniMem.less a b)

/-- `multimap::insert`: behind all elements that are not greater. -/
def insert {α : Type} (m : Mem) (name : α → Ptr) (x : α) : List α → Except Fault (List α)
  | [] => .ok [x]
  | e :: l => do
    let a ← read m (name x)
    let b ← read m (name e)
    if IniMem.less a b then .ok (x :: e :: l)
    else do
      let r ← insert m name x l
      .ok (e :: r)

/-- The loop of `Delete` over the values of a key, src/library/ini/SimpleIni.h:2556-2565, beginning with the first of them: the
    memory, and what remains of the list. -/
def deleteRun (m : Mem) (k : Ptr) : List Key → Except Fault (Mem × List Key)
  | [] => .ok (m, [])
  | e :: l => do
    let m ← deleteString m e.name
    let m ← deleteString m e.value
    let again ← hit m Key.name k l
    if again then deleteRun m k l else .ok (m, l)

/-- The loop of `Delete` over all keys of a section, src/library/ini/SimpleIni.h:2574-2578. -/
def deleteAll (m : Mem) : List Key → Except Fault Mem
  | [] => .ok m
  | e :: l => do
    let m ← deleteString m e.name
    let m ← deleteString m e.value
    deleteAll m l

/-- The deletion of the section itself, src/library/ini/SimpleIni.h:2582-2585, between `before` and `after`. -/
def deleteSection (m : Mem) (before : List Sect) (e : Sect) (after : List Sect) (x : Obj) : Except Fault (Bool × Obj) := do
  let m ← deleteString m e.name
  .ok (true, { x with mem := m, sections := before ++ after })

/-- `Delete`, src/library/ini/SimpleIni.h:2529-2586; `k` is `none` for NULL. -/
def delete (s : Ptr) (k : Option Ptr) (removeEmpty : Bool) (x : Obj) : Except Fault (Bool × Obj) := do
  let r ← lower x.mem Sect.name s x.sections
  let found ← hit x.mem Sect.name s r.2
  match found, r.2 with
  | true, e :: after =>
    match k with
    | none => do
      let m ← deleteAll x.mem e.keys
      deleteSection m r.1 e after x
    | some k => do
      let q ← lower x.mem Key.name k e.keys
      let found ← hit x.mem Key.name k q.2
      if found then do
        let d ← deleteRun x.mem k q.2
        if !removeEmpty || q.1 ++ d.2 ≠ [] then
          .ok (true, { x with mem := d.1, sections := r.1 ++ { e with keys := q.1 ++ d.2 } :: after })
        else deleteSection d.1 r.1 e after x
      else .ok (false, x)
  | _, _ => .ok (false, x)

/-- The load order and the comment of the entries to be replaced, src/library/ini/SimpleIni.h:1905-1912. -/
def oldest (m : Mem) (k : Ptr) (acc : Nat × Option Ptr) : List Key → Except Fault (Nat × Option Ptr)
  | [] => .ok acc
  | e :: l => do
    let same ← hit m Key.name k (e :: l)
    if same then oldest m k (if e.order < acc.1 then (e.order, e.comment) else acc) l else .ok acc

/-- The comment of the entry to be replaced takes the place of the new one, src/library/ini/SimpleIni.h:1913-1917. -/
def keepComment (m : Mem) (c : Option Ptr) : Option Ptr → Except Fault (Option Ptr × Mem)
  | none => .ok (c, m)
  | some old => do
    let m ← deleteStringOpt m c
    let r ← copyString m old
    .ok (some r.1, r.2)

/-- A new entry, src/library/ini/SimpleIni.h:1923-1948: copies if necessary, then `multimap::insert`. -/
def insertKey (k v : Ptr) (c : Option Ptr) (copy : Bool) (n : Nat) (keys : List Key) (m : Mem) : Except Fault (Bool × List Key × Mem) := do
  let (k, m) ← copyIf copy m k
  let (v, m) ← copyIf copy m v
  let keys ← insert m Key.name ⟨k, c, n, v⟩ keys
  .ok (true, keys, m)

/-- The part of `AddEntry` that sets a key, src/library/ini/SimpleIni.h:1895-1949: has something been inserted, the keys, the memory; `n` is
    the new load order. `Delete(a_pSection, a_pKey)` finds the section and the key again. -/
def setKey (o : Options) (s k v : Ptr) (c : Option Ptr) (force copy : Bool) (n : Nat) (keys : List Key) (m : Mem) :
    Except Fault (Bool × List Key × Mem) := do
  let r ← lower m Key.name k keys
  let found ← hit m Key.name k r.2
  if found && o.multiKey && force then do
    let old ← oldest m k (n, none) r.2
    let (c, m) ← keepComment m c old.2
    let _ ← read m s
    let r ← lower m Key.name k keys
    let d ← deleteRun m k r.2
    insertKey k v c copy old.1 (r.1 ++ d.2) d.1
  else if (o.multiKey && !force) || !found then insertKey k v c copy n keys m
  else do
    let (v, m) ← copyIf copy m v
    match r.2 with
    | [] => .ok (false, keys, m)
    | e :: l => .ok (false, r.1 ++ { e with value := v } :: l, m)

/-- `AddEntry` after the comment has been copied, src/library/ini/SimpleIni.h:1867-1949. `map::insert` finds the place again that `find` has
    found. -/
def addEntryRest (o : Options) (s : Ptr) (kv : Option (Ptr × Ptr)) (c : Option Ptr) (force copy : Bool) (x : Obj) :
    Except Fault (Bool × Obj) := do
  let r ← lower x.mem Sect.name s x.sections
  let found ← hit x.mem Sect.name s r.2
  match found, r.2 with
  | true, e :: after =>
    match kv with
    | none => .ok (false, x)
    | some (k, v) => do
      let q ← setKey o s k v c force copy (x.order + 1) e.keys x.mem
      .ok (q.1, { x with mem := q.2.2, order := x.order + 1, sections := r.1 ++ { e with keys := q.2.1 } :: after })
  | _, _ => do
    let (s, m) ← copyIf copy x.mem s
    match kv with
    | none => .ok (true, { x with mem := m, order := x.order + 1, sections := r.1 ++ ⟨s, c, x.order + 1, []⟩ :: r.2 })
    | some (k, v) => do
      let q ← setKey o s k v c force copy (x.order + 2) [] m
      .ok (true, { x with mem := q.2.2, order := x.order + 2, sections := r.1 ++ ⟨s, none, x.order + 1, q.2.1⟩ :: r.2 })

/-- `AddEntry`, src/library/ini/SimpleIni.h:1848-1950: was something inserted (`SI_INSERTED` or `SI_UPDATED`), and the object. `kv` is `none`
    if the key or the value is NULL. -/
def addEntry (o : Options) (s : Ptr) (kv : Option (Ptr × Ptr)) (c : Option Ptr) (force copy : Bool) (x : Obj) :
    Except Fault (Bool × Obj) := do
  let (c, m) ← copyOptIf copy x.mem c
  addEntryRest o s kv c force copy { x with mem := m }

/-- `FindFileComment`, src/library/ini/SimpleIni.h:1478-1501, for a text in block `b`: the object, and the text that remains. -/
def findFileComment (b : Nat) (copy : Bool) (t : Bytes) (x : Obj) : Except Fault (Obj × Bytes) :=
  match x.fileComment with
  | some _ => .ok (x, t)
  | none =>
    if startsComment t then do
      let c := IniStore.commentText false t.length [] t
      let (p, m) ← copyIf copy x.mem (.block b c.1)
      .ok ({ x with mem := m, fileComment := some p }, c.2)
    else .ok (x, t)

/-- `AddEntry` for all that was found, src/library/ini/SimpleIni.h:1437-1440. The name of the section before the first header is a static
    string; here it is taken to be in the block too. -/
def addAll (o : Options) (b : Nat) (copy : Bool) (x : Obj) : List IniStore.Found → Except Fault Obj
  | [] => .ok x
  | f :: l => do
    let r ← addEntry o (.block b f.sect) (f.kv.map fun kv => (.block b kv.1, .block b kv.2)) (f.comment.map (.block b)) false copy x
    addAll o b copy r.2 l

/-- The end of `LoadData`, src/library/ini/SimpleIni.h:1442-1449. -/
def keepBlock (b : Nat) (copy : Bool) (m : Mem) : Except Fault Mem :=
  if copy then (if b ∈ m.blocks then .ok { m with blocks := m.blocks.erase b } else .error .badRelease)
  else .ok { m with data := some b }

/-- `LoadData`, src/library/ini/SimpleIni.h:1384-1456. -/
def load (o : Options) (s : Bytes) (x : Obj) : Except Fault Obj :=
  if s = [] then .ok x
  else
    let b := x.mem.next
    let copy := x.mem.data.isSome
    let t := cut (IniStore.dropMark o s)
    let x := { x with mem := { x.mem with blocks := b :: x.mem.blocks, next := b + 1 } }
    do
      let r ← findFileComment b copy t x
      let y ← addAll o b copy r.1 (IniStore.findEvery o copy (r.2.length + 1) (.named []) none r.2)
      let m ← keepBlock b copy y.mem
      .ok { y with mem := m }

/-- `delete[]` of all copied strings, src/library/ini/SimpleIni.h:1287-1292. -/
def releaseAll (m : Mem) : List Nat → Except Fault Mem
  | [] => .ok m
  | n :: l => do
    let m ← release m n
    releaseAll m l

/-- `delete[] m_pData`, src/library/ini/SimpleIni.h:1278. -/
def releaseData (m : Mem) : Except Fault Mem :=
  match m.data with
  | none => .ok m
  | some b => if b ∈ m.blocks then .ok { m with blocks := m.blocks.erase b } else .error .badRelease

/-- `Reset`, src/library/ini/SimpleIni.h:1275-1294; the destructor does the same (1268-1272). `m_nOrder` stays. -/
def reset (x : Obj) : Except Fault Obj := do
  let m ← releaseData x.mem
  let m ← releaseAll m m.strings
  .ok { mem := { m with strings := [], data := none }, fileComment := none, sections := [], order := x.order }

/-- `GetValue`, src/library/ini/SimpleIni.h:1953-1986: the address returned, `none` for the default. -/
def getValue (x : Obj) (s k : Ptr) : Except Fault (Option Ptr) := do
  let r ← lower x.mem Sect.name s x.sections
  let found ← hit x.mem Sect.name s r.2
  match found, r.2 with
  | true, e :: _ => do
    let q ← lower x.mem Key.name k e.keys
    let found ← hit x.mem Key.name k q.2
    match found, q.2 with
    | true, e :: _ => .ok (some e.value)
    | _, _ => .ok none
  | _, _ => .ok none

end Licensecc.IniHeap
