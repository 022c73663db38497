import Verif.Model.ConvertUtf
/-!
# Specification of the Unicode conversions: the three encoding forms of the Unicode standard (chapter 3.9)

Only `Result` and `Flags`, which the caller sees, are taken from the model.
-/
namespace Licensecc.Spec.Utf
open Licensecc.Utf (Result Flags)

/-- Unicode scalar values: the code points that are not surrogates (D76). -/
def Scalar (c : Nat) : Prop := c < 0xD800 ∨ 0xE000 ≤ c ∧ c ≤ 0x10FFFF

instance (c : Nat) : Decidable (Scalar c) := inferInstanceAs (Decidable (_ ∨ _))

/-- UTF-32 (D90). -/
def utf32 (c : Nat) : List UInt32 := [UInt32.ofNat c]

/-- UTF-16 (D91). -/
def utf16 (c : Nat) : List UInt16 :=
  if c < 0x10000 then [UInt16.ofNat c]
  else [UInt16.ofNat (0xD800 + (c - 0x10000) / 0x400), UInt16.ofNat (0xDC00 + (c - 0x10000) % 0x400)]

/-- UTF-8 (D92, table 3-6). The formula is also used for surrogates, where the result is not UTF-8. -/
def utf8 (c : Nat) : Bytes :=
  if c < 0x80 then [UInt8.ofNat c]
  else if c < 0x800 then [UInt8.ofNat (0xC0 + c / 64), UInt8.ofNat (0x80 + c % 64)]
  else if c < 0x10000 then
    [UInt8.ofNat (0xE0 + c / 4096), UInt8.ofNat (0x80 + c / 64 % 64), UInt8.ofNat (0x80 + c % 64)]
  else
    [UInt8.ofNat (0xF0 + c / 262144), UInt8.ofNat (0x80 + c / 4096 % 64), UInt8.ofNat (0x80 + c / 64 % 64),
      UInt8.ofNat (0x80 + c % 64)]

/-- A text in one of the forms. -/
def encode {α : Type} (form : Nat → List α) (text : List Nat) : List α := text.flatMap form

/-- The units of a character in one of the forms. -/
def Writes {α : Type} (form : Nat → List α) (u : List α) (c : Nat) : Prop := Scalar c ∧ u = form c

/-- Two kinds of byte sequences that are not UTF-8 (the second byte is no continuation byte) and the characters they are
    read as. -/
def Misread (u : Bytes) (c : Nat) : Prop :=
  (∃ a x : UInt8, u = [0xED, a, x] ∧ a.toNat < 0x80 ∧ 0x80 ≤ x.toNat ∧ x.toNat ≤ 0xBF
    ∧ c = 0xB000 + a.toNat * 64 + (x.toNat - 0x80))
  ∨ ∃ a x y : UInt8, u = [0xF4, a, x, y] ∧ a.toNat < 0x80 ∧ 0x80 ≤ x.toNat ∧ x.toNat ≤ 0xBF ∧ 0x80 ≤ y.toNat
    ∧ y.toNat ≤ 0xBF ∧ c = 0x80000 + a.toNat * 4096 + (x.toNat - 0x80) * 64 + (y.toNat - 0x80)

/-- What the conversions from UTF-8 read as a character. -/
def Reads8 (u : Bytes) (c : Nat) : Prop := Writes utf8 u c ∨ Misread u c

/-- Nothing that starts with a character. -/
def NoCharacter {α : Type} (reads : List α → Nat → Prop) (s : List α) : Prop := ¬ ∃ u c tail, reads u c ∧ s = u ++ tail

/-- The number of bytes the first byte of a sequence promises (also for bytes that begin no character). -/
def promised (b : UInt8) : Nat :=
  if b.toNat < 0xC0 then 1 else if b.toNat < 0xE0 then 2 else if b.toNat < 0xF0 then 3 else if b.toNat < 0xF8 then 4
  else if b.toNat < 0xFC then 5 else 6

/-- The bytes end before what the first one promises. -/
def Short8 (s : Bytes) : Prop := ∃ b tail, s = b :: tail ∧ s.length < promised b

/-- A high surrogate and nothing more. -/
def Short16 (s : List UInt16) : Prop := ∃ u, s = [u] ∧ 0xD800 ≤ u.toNat ∧ u.toNat ≤ 0xDBFF

/-- A conversion that keeps characters: `items` are the characters read, each with its units; what was consumed are the
    units, what was written are the characters in the target form; `rest` is what the source pointer is left at. The conversion ends at the end of
    the source, or at the first thing that is no character, or at the first character for which there is no room. -/
def Converted {α β : Type} (reads : List α → Nat → Prop) (short : List α → Prop) (target : Nat → List β)
    (s : List α) (room : Nat) (result : Result) (rest : List α) (written : List β) : Prop :=
  ∃ items : List (List α × Nat), (∀ i ∈ items, reads i.1 i.2) ∧ s = items.flatMap (·.1) ++ rest
    ∧ written = encode target (items.map (·.2)) ∧ written.length ≤ room
    ∧ match result with
      | .conversionOK => rest = []
      | .sourceExhausted => NoCharacter reads rest ∧ short rest
      | .sourceIllegal => rest ≠ [] ∧ NoCharacter reads rest ∧ ¬ short rest
      | .targetExhausted => ∃ u c tail, reads u c ∧ rest = u ++ tail ∧ room < written.length + (target c).length

/-- Surrogate code points. -/
def Surrogate (c : Nat) : Prop := 0xD800 ≤ c ∧ c ≤ 0xDFFF
/-- High surrogates. -/
def HighSurrogate (c : Nat) : Prop := 0xD800 ≤ c ∧ c ≤ 0xDBFF
/-- Low surrogates. -/
def LowSurrogate (c : Nat) : Prop := 0xDC00 ≤ c ∧ c ≤ 0xDFFF

/-- What UTF-32 units that are no characters become on the way to UTF-16. -/
def to16 (flags : Flags) (v : UInt32) : List UInt16 :=
  if Scalar v.toNat then utf16 v.toNat
  else if flags = .strict then [] else [0xFFFD]

/-- The same on the way to UTF-8: surrogates are written with the formula of UTF-8, larger values are replaced. -/
def to8 (v : UInt32) : Bytes := if v.toNat ≤ 0x10FFFF then utf8 v.toNat else utf8 0xFFFD

/-- A conversion from UTF-32: `done` are the units consumed. Values beyond 0x10FFFF (`passed`) do not end the conversion,
    surrogates (`refused`) do when it is strict. `roomFirst`: a unit is looked at only if there is room for at least one unit. -/
def Converted32 {β : Type} (target : UInt32 → List β) (refused passed : UInt32 → Prop) (roomFirst : Prop)
    (s : List UInt32) (room : Nat) (result : Result) (rest : List UInt32) (written : List β) : Prop :=
  ∃ done, s = done ++ rest ∧ written = done.flatMap target ∧ written.length ≤ room ∧ (∀ v ∈ done, ¬ refused v)
    ∧ match result with
      | .conversionOK => rest = [] ∧ ∀ v ∈ done, ¬ passed v
      | .sourceExhausted => False
      | .sourceIllegal =>
        (rest = [] ∧ ∃ v ∈ done, passed v) ∨ ∃ v tail, rest = v :: tail ∧ refused v ∧ (roomFirst → written.length < room)
      | .targetExhausted =>
        ∃ v tail, rest = v :: tail ∧ (refused v → roomFirst) ∧ room < written.length + max 1 (target v).length

/-- A lenient reading of UTF-16: code points including surrogates, such that a high surrogate is never followed by a low
    one in the source. -/
def LenientText (text : List Nat) (rest : List UInt16) : Prop :=
  (∀ c ∈ text, c ≤ 0x10FFFF)
  ∧ ∀ t1 h t2 u tail, text = t1 ++ h :: t2 → HighSurrogate h → encode utf16 t2 ++ rest = u :: tail →
      ¬ LowSurrogate u.toNat

/-- A lenient conversion from UTF-16: surrogates on their own are taken as code points. -/
def LenientConverted {β : Type} (target : Nat → List β) (s : List UInt16) (room : Nat) (result : Result) (rest : List UInt16)
    (written : List β) : Prop :=
  ∃ text, LenientText text rest ∧ s = encode utf16 text ++ rest ∧ written = encode target text ∧ written.length ≤ room
    ∧ match result with
      | .conversionOK => rest = []
      | .sourceExhausted => Short16 rest
      | .sourceIllegal => False
      | .targetExhausted => ∃ c tail, LenientText [c] tail ∧ rest = utf16 c ++ tail ∧ room < written.length + (target c).length

end Licensecc.Spec.Utf
