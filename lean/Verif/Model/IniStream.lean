import Verif.Model.IniFile
/-!
# Model of loading from and saving to streams of C++, src/library/ini/SimpleIni.h (with SI_SUPPORT_IOSTREAMS)

A stream that breaks on the way is one that ends there: `get` sets a flag in both cases and throws nothing.
-/
namespace Licensecc.IniStream
open Licensecc.IniStore
open Licensecc.IniFile (Code)

/-- `std::istream`: are no flags set, and what it would still give. -/
structure InStream where
  good : Bool
  rest : Bytes
  deriving DecidableEq, Repr

/-- `istream::get(s, n, '\0')`, called at src/library/ini/SimpleIni.h:1468: at most `n - 1` characters, up to a NUL, which it leaves.  If there are none it
    sets `failbit`, if it meets the end `eofbit`; `peeks` is whether it looks for the end behind the last character that has room (as
    libstdc++ does). -/
def get (peeks : Bool) (n : Nat) (s : InStream) : Bytes × InStream :=
  if s.good then
    let t := (s.rest.takeWhile (· ≠ 0)).take (n - 1)
    let r := s.rest.drop t.length
    (t, ⟨t ≠ [] && !(r = [] && (t.length < n - 1 || peeks)), r⟩)
  else ([], s)

/-- The loop of `LoadData`, src/library/ini/SimpleIni.h:1467-1471. -/
def readLoop (peeks : Bool) : Nat → InStream → Bytes → Bytes
  | 0, _, data => data
  | fuel + 1, s, data =>
    let x := get peeks 512 s
    if x.2.good then readLoop peeks fuel x.2 (data ++ x.1) else data ++ x.1

/-- `LoadData(const char *, size_t)`, src/library/ini/SimpleIni.h:1384-1456: a text of no bytes is left at once (1391-1393). -/
def loadBytes (o : Options) (copy : Bool) (data : Bytes) (st : Store) : Code × Store :=
  if data.length = 0 then (.ok, st) else (.ok, loadEvery o copy data st)

/-- `LoadData(std::istream &)`, src/library/ini/SimpleIni.h:1458-1473. -/
def loadStream (o : Options) (copy : Bool) (peeks : Bool) (s : InStream) (st : Store) : Code × Store :=
  loadBytes o copy (readLoop peeks (s.rest.length + 1) s []) st

/-- `Save(std::ostream &)`, src/library/ini/SimpleIni.h:721-728, with `StreamWriter` (398-409), which does not look at the flags of the stream: it takes
    `room` bytes and then no more.  Simplification: the text is counted as written at once. -/
def saveStream (o : Options) (sig : Bool) (st : Store) (room : Nat) : Code × Bytes := (.ok, (save o sig st).take room)

end Licensecc.IniStream
