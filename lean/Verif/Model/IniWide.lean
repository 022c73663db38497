import Verif.Model.ConvertUtf
/-!
# Model of SI_ConvertW and of the conversions of INI objects of wide characters, src/library/ini/SimpleIni.h

The converter for all platforms (`SI_CONVERT_GENERIC`), for `wchar_t` of four bytes and of two.  A wide string is the list of its units in front of the NUL.
What `mbstowcs` and `wcstombs` do in a locale is given from outside, character by character (no shift states).  Not modelled: the converters that use Windows or ICU; the
parser that works on the converted text (it is a template; for bytes it is Model/IniParse and Model/IniStore).
-/
namespace Licensecc.IniWide
open Licensecc.Utf

/-- What depends on the size of `wchar_t`, src/library/ini/SimpleIni.h:2883-2897 and 2965-2979; both conversions are lenient. -/
structure Wide (α : Type) where
  zero : α
  from8 : Bytes → Nat → Outcome (Result × Bytes × List α)
  to8 : List α → Nat → Outcome (Result × List α × Bytes)

/-- `sizeof(wchar_t) == sizeof(UTF32)`, src/library/ini/SimpleIni.h:2883-2889, 2965-2971. -/
def wide32 : Wide UInt32 := ⟨0, convert8to32 .lenient, convert32to8 .lenient⟩
/-- `sizeof(wchar_t) == sizeof(UTF16)`, src/library/ini/SimpleIni.h:2890-2896, 2972-2978. -/
def wide16 : Wide UInt16 := ⟨0, convert8to16 .lenient, convert16to8 .lenient⟩

/-- What a locale makes of the bytes at a place. -/
inductive Mb (α : Type) where
  /-- no character -/
  | illegal
  /-- the bytes are the beginning of a character; more bytes are looked at -/
  | short
  /-- a character of so many bytes -/
  | char (c : α) (n : Nat)

/-- A locale: `mbrtowc` and `wcrtomb`. -/
structure Locale (α : Type) where
  read : Bytes → Mb α
  write : α → Option Bytes

/-- `mbstowcs(dest, src, room)` (C11 7.22.8.1): `memory` are the bytes from `src` on that may be read, reading behind them is undefined. The characters in front of the NUL,
    or `none` for (size_t)-1. -/
def mbstowcs {α : Type} [DecidableEq α] (zero : α) (read : Bytes → Mb α) : Nat → Bytes → Outcome (Option (List α))
  | 0, _ => .ok (some [])
  | _ + 1, [] => .ub
  | room + 1, b :: memory => match read (b :: memory) with
    | .illegal => .ok none
    | .short => .ub
    | .char c n =>
      if c = zero then .ok (some [])
      else match mbstowcs zero read room ((b :: memory).drop n) with
        | .ok r => .ok (r.map (c :: ·))
        | .ub => .ub
        | .throw e => .throw e

/-- `wcstombs(NULL, s, 0)` (C11 7.22.8.2): all bytes of the string, `none` for (size_t)-1. -/
def wcsBytes {α : Type} (write : α → Option Bytes) : List α → Option Bytes
  | [] => some []
  | c :: s => match write c, wcsBytes write s with
    | some b, some r => some (b ++ r)
    | _, _ => none

/-- `wcstombs(dest, s, room)`: the bytes written; no character is written in part; the NUL is written if there is room. `none` for (size_t)-1. A character that cannot be
    written is reached only while there is room. -/
def wcstombs {α : Type} (write : α → Option Bytes) : Nat → List α → Option Bytes
  | room, [] => some (if room = 0 then [] else [0])
  | room, c :: s => if room = 0 then some [] else match write c with
    | none => none
    | some b => if room < b.length then some [] else (wcstombs write (room - b.length) s).map (b ++ ·)

/-- A converter. -/
structure Settings (α : Type) where
  wide : Wide α
  locale : Locale α
  utf8 : Bool

/-- `SizeFromStore`, src/library/ini/SimpleIni.h:2833-2855: the number of bytes in both cases (`_linux` is no macro of Linux). -/
def sizeFromStore (len : Nat) : Nat := len

/-- `ConvertFromStore`, src/library/ini/SimpleIni.h:2869-2904: success, and the units written to the buffer. `memory` are the bytes that may be read, the first `len` of them
    are to be converted. `mbstowcs` is not told their number. -/
def convertFromStore {α : Type} [DecidableEq α] (c : Settings α) (memory : Bytes) (len room : Nat) : Outcome (Bool × List α) :=
  if c.utf8 then
    match c.wide.from8 (memory.take len) room with
    | .ok (r, _, w) => .ok (r == .conversionOK, w)
    | .ub => .ub
    | .throw e => .throw e
  else
    match mbstowcs c.wide.zero c.locale.read room memory with
    | .ok (some w) => .ok (true, w)
    | .ok none => .ok (false, [])
    | .ub => .ub
    | .throw e => .throw e

/-- `SizeToStore`, src/library/ini/SimpleIni.h:2916-2934; `none` for (size_t)-1. -/
def sizeToStore {α : Type} (c : Settings α) (s : List α) : Option Nat :=
  if c.utf8 then some (6 * s.length + 1) else (wcsBytes c.locale.write s).map (·.length + 1)

/-- `ConvertToStore`, src/library/ini/SimpleIni.h:2949-2988: success, and the bytes written to the buffer. -/
def convertToStore {α : Type} (c : Settings α) (s : List α) (room : Nat) : Outcome (Bool × Bytes) :=
  if c.utf8 then
    match c.wide.to8 (s ++ [c.wide.zero]) room with
    | .ok (r, _, w) => .ok (r == .conversionOK, w)
    | .ub => .ub
    | .throw e => .throw e
  else
    match wcstombs c.locale.write room s with
    | some w => .ok (true, w)
    | none => .ok (false, [])

/-- The loop of `Converter::ConvertToStore`, src/library/ini/SimpleIni.h:431-433: the size of the buffer. `fuel` bounds the rounds. -/
def grow (need : Nat) : Nat → Nat → Nat
  | 0, size => size
  | fuel + 1, size => if size < need then grow need fuel (size * 2) else size

/-- `Converter::ConvertToStore`, src/library/ini/SimpleIni.h:426-438: success and the new contents of the buffer `scratch`, 1024 bytes at first (419). -/
def convert {α : Type} (c : Settings α) (scratch : Bytes) (s : List α) : Outcome (Bool × Bytes) :=
  match sizeToStore c s with
  | none => .ok (false, scratch)
  | some n =>
    let size := grow n n scratch.length
    let scratch := scratch ++ List.replicate (size - scratch.length) 0
    match convertToStore c s size with
    | .ok (ok, w) => .ok (ok, w ++ scratch.drop w.length)
    | .ub => .ub
    | .throw e => .throw e

/-- What is written of the buffer: `Data()` as a C string, src/library/ini/SimpleIni.h:439; `none` if there is no NUL in it. -/
def data (scratch : Bytes) : Option Bytes := if 0 ∈ scratch then some (scratch.takeWhile (· ≠ 0)) else none

/-- The first part of `LoadData`, src/library/ini/SimpleIni.h:1384-1413. -/
inductive Prepared (α : Type) where
  /-- SI_OK, nothing to load -/
  | nothing
  /-- SI_FAIL; the buffer is released -/
  | fail
  /-- the buffer, with its NULs -/
  | text (buffer : List α)
  deriving DecidableEq

/-- The first part of `LoadData`, src/library/ini/SimpleIni.h:1384-1413: mark, size, conversion; `memory` are the bytes that may be read from `a_pData` on. -/
def prepare {α : Type} [DecidableEq α] (c : Settings α) (memory : Bytes) (len : Nat) : Outcome (Prepared α) :=
  if len = 0 then .ok .nothing
  else
    let mark := c.utf8 && decide (3 ≤ len) && (memory.take 3 == [0xEF, 0xBB, 0xBF])
    let memory := if mark then memory.drop 3 else memory
    let len := if mark then len - 3 else len
    let n := sizeFromStore len
    match convertFromStore c memory len n with
    | .ok (true, w) => .ok (.text (w ++ List.replicate (n + 1 - w.length) c.wide.zero))
    | .ok (false, _) => .ok .fail
    | .ub => .ub
    | .throw e => .throw e

end Licensecc.IniWide
