import Verif.Model.IniStore
/-!
# Model of loading from and saving to files, src/library/ini/SimpleIni.h

`LoadFile`, `SaveFile` and `FileWriter`.  What the C library and the system answer is given from outside: whether a file can be opened, how long it is,
what is read; when the bytes that were given to a stream reach the file, and whether they do.  Not modelled: the functions with wide file names (Windows, and
ICU), failure of `new`.
-/
namespace Licensecc.IniFile
open Licensecc.IniStore

/-- The results, src/library/ini/SimpleIni.h:235-244, as far as they occur here. -/
inductive Code where
  | ok
  | file
  deriving DecidableEq, Repr

/-- Things taken and given back. -/
inductive Event where
  | fopen
  | fclose
  | new (n : Nat)
  | delete
  deriving DecidableEq, Repr

/-- What the C library answers to `LoadFile`. -/
structure Reading where
  /-- `fopen` gives a stream -/
  opens : Bool
  /-- `fseek` to the end is 0 -/
  seeks : Bool
  /-- `ftell` -/
  tell : Int
  /-- what `fread` puts into the buffer when so many bytes are asked for, behind the second `fseek` -/
  read : Nat → Bytes

/-- `LoadFile(FILE *)`, src/library/ini/SimpleIni.h:1343-1380; `copy` as in `loadEvery`. -/
def loadStream (o : Options) (copy : Bool) (r : Reading) (st : Store) : Code × Store × List Event :=
  if !r.seeks then (.file, st, [])
  else if r.tell < 0 then (.file, st, [])
  else if r.tell = 0 then (.ok, st, [])
  else
    let data := r.read r.tell.toNat
    if data.length ≠ r.tell.toNat then (.file, st, [.new (r.tell.toNat + 1), .delete])
    else (.ok, loadEvery o copy data st, [.new (r.tell.toNat + 1), .delete])

/-- `LoadFile(const char *)`, src/library/ini/SimpleIni.h:1296-1315. -/
def loadFile (o : Options) (copy : Bool) (r : Reading) (st : Store) : Code × Store × List Event :=
  if !r.opens then (.file, st, [])
  else
    let x := loadStream o copy r st
    (x.1, x.2.1, [.fopen] ++ x.2.2 ++ [.fclose])

/-- Where `SaveFile` is. -/
inductive Phase where
  | start
  | writing
  | done (c : Code)
  deriving DecidableEq, Repr

/-- `SaveFile` under way: the text still to be given to the stream, the bytes that the stream holds, the file. -/
structure Saving where
  phase : Phase
  left : Bytes
  buffer : Bytes
  file : Option Bytes
  deriving DecidableEq, Repr

/-- What happens next. -/
inductive Act where
  /-- `fopen(.., "wb")` fails -/
  | refuse
  /-- `fopen(.., "wb")`: the file is there and empty -/
  | fopen
  /-- `fputs` takes so many bytes -/
  | put (n : Nat)
  /-- so many bytes of the stream are written to the file -/
  | write (n : Nat)
  /-- writing so many bytes fails: the stream drops them -/
  | fail (n : Nat)
  /-- `fclose`; the stream is empty -/
  | fclose
  deriving DecidableEq, Repr

/-- `SaveFile(const char *)` and `SaveFile(FILE *)`, src/library/ini/SimpleIni.h:2311-2328 and 2357-2365, with `FileWriter`, 372-384: the results of `fputs` and
    `fclose` are not looked at.  `none` if that cannot happen now. -/
def step (s : Saving) : Act → Option Saving
  | .refuse => if s.phase = .start then some { s with phase := .done .file } else none
  | .fopen => if s.phase = .start then some { s with phase := .writing, file := some [] } else none
  | .put n =>
    if s.phase = .writing ∧ n ≤ s.left.length then some { s with left := s.left.drop n, buffer := s.buffer ++ s.left.take n } else none
  | .write n =>
    if s.phase = .writing ∧ n ≤ s.buffer.length then some { s with buffer := s.buffer.drop n, file := s.file.map (· ++ s.buffer.take n) } else none
  | .fail n => if s.phase = .writing ∧ 0 < n ∧ n ≤ s.buffer.length then some { s with buffer := s.buffer.drop n } else none
  | .fclose => if s.phase = .writing ∧ s.left = [] ∧ s.buffer = [] then some { s with phase := .done .ok } else none

/-- Several steps, the first one first. -/
def steps (s : Saving) : List Act → Option Saving
  | [] => some s
  | a :: l => (step s a).bind fun s => steps s l

/-- `SaveFile` before its first step, for an object `st`, where the file is `old`. -/
def begin_ (o : Options) (addSignature : Bool) (st : Store) (old : Option Bytes) : Saving :=
  ⟨.start, save o addSignature st, [], old⟩

end Licensecc.IniFile
