import Verif.Basic
/-!
# Model of src/library/ini/ConvertUTF.cpp

The six conversions and the check `isLegalUTF8Sequence`, which the library compiles and exports with C linkage
(src/library/CMakeLists.txt:10, src/library/ini/ConvertUTF.h:115-145).

A source range is the list of its units, a target range the number of units it has room for.  The six functions have the same
frame: a loop over the source with one character per round.  A round either stops the loop with a result, the source pointer
being set back to the start of the character, or it consumes units, writes units and may change the result without leaving
the loop.  Reading outside the source range and writing outside the target range are undefined behaviour.  Simplification:
forming a pointer behind the end of a range (`source + extraBytesToRead`, `target += bytesToWrite`) without using it is
taken as harmless, as it is on flat memory.
-/
namespace Licensecc.Utf

/-- `ConversionResult`, src/library/ini/ConvertUTF.h:102-107. -/
inductive Result where
  | conversionOK | sourceExhausted | targetExhausted | sourceIllegal
  deriving DecidableEq, Repr

/-- `ConversionFlags`, src/library/ini/ConvertUTF.h:109-112. -/
inductive Flags where
  | strict | lenient
  deriving DecidableEq, Repr

/-- What one round of a loop does. -/
inductive Step (β : Type) where
  /-- `result = r; break;` with the source pointer at the start of the character -/
  | stop (r : Result)
  /-- `n` units consumed, `w` written, `result` set if there is an `r` -/
  | go (n : Nat) (w : List β) (r : Option Result)
  deriving DecidableEq, Repr

/-- Reading the unit `i` places behind the source pointer; `s` is the source range from the pointer on. -/
def unit {α : Type} (s : List α) (i : Nat) : Outcome α :=
  match s[i]? with
  | some x => .ok x
  | none => .ub

/-- The frame of the six functions, e.g. src/library/ini/ConvertUTF.cpp:64-67 and 102-105. `step` gets the room left
    and the source from the pointer on.  The answer is the result, the source that is left and all that was written. A round that consumes
    nothing would go on forever; this does not happen (lemma `loop_ok`) and counts as undefined behaviour. -/
def loop {α β : Type} (step : Nat → List α → Outcome (Step β)) (room : Nat) (source : List α) (written : List β)
    (result : Result) : Outcome (Result × List α × List β) :=
  if source.length = 0 then .ok (result, source, written)
  else
    match step (room - written.length) source with
    | .ub => .ub
    | .throw e => .throw e
    | .ok (.stop r) => .ok (r, source, written)
    | .ok (.go n w r) =>
      if n = 0 ∨ source.length < n ∨ room < written.length + w.length then .ub
      else loop step room (source.drop n) (written ++ w) (r.getD result)
termination_by source.length
decreasing_by simp; omega

/-- `UNI_SUR_HIGH_START` … `UNI_SUR_LOW_END`, src/library/ini/ConvertUTF.cpp:52-55. -/
def isHigh (ch : UInt32) : Bool := 0xD800 ≤ ch && ch ≤ 0xDBFF
/-- See `isHigh`. -/
def isLow (ch : UInt32) : Bool := 0xDC00 ≤ ch && ch ≤ 0xDFFF
/-- `ch >= UNI_SUR_HIGH_START && ch <= UNI_SUR_LOW_END`, e.g. src/library/ini/ConvertUTF.cpp:75. -/
def isSurrogate (ch : UInt32) : Bool := 0xD800 ≤ ch && ch ≤ 0xDFFF

/-- `UNI_REPLACEMENT_CHAR`, src/library/ini/ConvertUTF.h:96. -/
def replacement : UInt32 := 0xFFFD

/-- The two surrogates of a character beyond 0xFFFF, src/library/ini/ConvertUTF.cpp:98-100 and 397-399. -/
def surrogates (ch : UInt32) : List UInt16 :=
  let ch := ch - 0x10000
  [((ch >>> 10) + 0xD800).toUInt16, ((ch &&& 0x3FF) + 0xDC00).toUInt16]

/-- One round of `ConvertUTF32toUTF16`, src/library/ini/ConvertUTF.cpp:68-101.  A value that is too large does not end the loop
    when the conversion is strict: there is no `break` behind line 88. -/
def step32to16 (flags : Flags) (room : Nat) (s : List UInt32) : Outcome (Step UInt16) := do
  if room = 0 then return .stop .targetExhausted
  let ch ← unit s 0
  if ch ≤ 0xFFFF then
    if isSurrogate ch then
      if flags = .strict then return .stop .sourceIllegal
      else return .go 1 [replacement.toUInt16] none
    else return .go 1 [ch.toUInt16] none
  else if 0x10FFFF < ch then
    if flags = .strict then return .go 1 [] (some .sourceIllegal)
    else return .go 1 [replacement.toUInt16] none
  else if room < 2 then return .stop .targetExhausted
  else return .go 1 (surrogates ch) none

/-- `ConvertUTF32toUTF16`, src/library/ini/ConvertUTF.cpp:61-106. -/
def convert32to16 (flags : Flags) (source : List UInt32) (room : Nat) : Outcome (Result × List UInt32 × List UInt16) :=
  loop (step32to16 flags) room source [] .conversionOK

/-- The character read from UTF-16, src/library/ini/ConvertUTF.cpp:119-147 and 226-254: with the number of units, or the reason to stop. -/
def read16 (flags : Flags) (s : List UInt16) : Outcome (Result ⊕ (UInt32 × Nat)) := do
  let ch := (← unit s 0).toUInt32
  if isHigh ch then
    if 1 < s.length then
      let ch2 := (← unit s 1).toUInt32
      if isLow ch2 then return .inr (((ch - 0xD800) <<< 10) + (ch2 - 0xDC00) + 0x10000, 2)
      else if flags = .strict then return .inl .sourceIllegal
      else return .inr (ch, 1)
    else return .inl .sourceExhausted
  else if flags = .strict then
    if isLow ch then return .inl .sourceIllegal
    else return .inr (ch, 1)
  else return .inr (ch, 1)

/-- One round of `ConvertUTF16toUTF32`, src/library/ini/ConvertUTF.cpp:118-152. -/
def step16to32 (flags : Flags) (room : Nat) (s : List UInt16) : Outcome (Step UInt32) := do
  match ← read16 flags s with
  | .inl r => return .stop r
  | .inr (ch, n) =>
    if room = 0 then return .stop .targetExhausted
    else return .go n [ch] none

/-- `ConvertUTF16toUTF32`, src/library/ini/ConvertUTF.cpp:110-163. -/
def convert16to32 (flags : Flags) (source : List UInt16) (room : Nat) : Outcome (Result × List UInt16 × List UInt32) :=
  loop (step16to32 flags) room source [] .conversionOK

/-- `trailingBytesForUTF8`, src/library/ini/ConvertUTF.cpp:174-183: the 256 entries by rows of equal value. -/
def trailing (b : UInt8) : Nat :=
  if b < 0xC0 then 0 else if b < 0xE0 then 1 else if b < 0xF0 then 2 else if b < 0xF8 then 3 else if b < 0xFC then 4 else 5

/-- `offsetsFromUTF8`, src/library/ini/ConvertUTF.cpp:190-191. -/
def offsets : Nat → UInt32
  | 0 => 0 | 1 => 0x3080 | 2 => 0xE2080 | 3 => 0x3C82080 | 4 => 0xFA082080 | _ => 0x82082080

/-- `firstByteMark`, src/library/ini/ConvertUTF.cpp:200. -/
def firstByteMark : Nat → UInt32
  | 2 => 0xC0 | 3 => 0xE0 | 4 => 0xF0 | _ => 0

/-- `(UTF8)((ch | byteMark) & byteMask)`, src/library/ini/ConvertUTF.cpp:270-272 and 448-450. -/
def follow (ch : UInt32) : UInt8 := ((ch ||| 0x80) &&& 0xBF).toUInt8

/-- The bytes written for a character, src/library/ini/ConvertUTF.cpp:269-274 and 447-452. The `switch` fills the buffer from its end. -/
def bytesOf (ch : UInt32) : Nat → Bytes
  | 1 => [(ch ||| firstByteMark 1).toUInt8]
  | 2 => [((ch >>> 6) ||| firstByteMark 2).toUInt8, follow ch]
  | 3 => [((ch >>> 6 >>> 6) ||| firstByteMark 3).toUInt8, follow (ch >>> 6), follow ch]
  | 4 => [((ch >>> 6 >>> 6 >>> 6) ||| firstByteMark 4).toUInt8, follow (ch >>> 6 >>> 6), follow (ch >>> 6), follow ch]
  | _ => []

/-- One round of `ConvertUTF16toUTF8`, src/library/ini/ConvertUTF.cpp:221-275. -/
def step16to8 (flags : Flags) (room : Nat) (s : List UInt16) : Outcome (Step UInt8) := do
  match ← read16 flags s with
  | .inl r => return .stop r
  | .inr (ch, n) =>
    let (ch, bytes) :=
      if ch < 0x80 then (ch, 1) else if ch < 0x800 then (ch, 2) else if ch < 0x10000 then (ch, 3)
      else if ch < 0x110000 then (ch, 4) else (replacement, 3)
    if room < bytes then return .stop .targetExhausted
    else return .go n (bytesOf ch bytes) none

/-- `ConvertUTF16toUTF8`, src/library/ini/ConvertUTF.cpp:214-280. -/
def convert16to8 (flags : Flags) (source : List UInt16) (room : Nat) : Outcome (Result × List UInt16 × Bytes) :=
  loop (step16to8 flags) room source [] .conversionOK

/-- `case 1` and what follows in `isLegalUTF8`, src/library/ini/ConvertUTF.cpp:314-317. -/
def legal1 (s : Bytes) : Outcome Bool := do
  let b ← unit s 0
  if 0x80 ≤ b && b < 0xC2 then return false
  if 0xF4 < b then return false
  return true

/-- `case 2` of `isLegalUTF8`, src/library/ini/ConvertUTF.cpp:303-312. -/
def legal2 (s : Bytes) : Outcome Bool := do
  let a ← unit s 1
  if 0xBF < a then return false
  let b ← unit s 0
  if b = 0xE0 then (if a < 0xA0 then return false else legal1 s)
  else if b = 0xED then (if 0x9F < a then return false else legal1 s)
  else if b = 0xF0 then (if a < 0x90 then return false else legal1 s)
  else if b = 0xF4 then (if 0x8F < a then return false else legal1 s)
  else (if a < 0x80 then return false else legal1 s)

/-- `case 3` of `isLegalUTF8`, src/library/ini/ConvertUTF.cpp:302. -/
def legal3 (s : Bytes) : Outcome Bool := do
  let a ← unit s 2
  if a < 0x80 || 0xBF < a then return false
  legal2 s

/-- `case 4` of `isLegalUTF8`, src/library/ini/ConvertUTF.cpp:301. -/
def legal4 (s : Bytes) : Outcome Bool := do
  let a ← unit s 3
  if a < 0x80 || 0xBF < a then return false
  legal3 s

/-- `isLegalUTF8`, src/library/ini/ConvertUTF.cpp:295-318. -/
def isLegal (s : Bytes) : Nat → Outcome Bool
  | 1 => legal1 s
  | 2 => legal2 s
  | 3 => legal3 s
  | 4 => legal4 s
  | _ => .ok false

/-- `isLegalUTF8Sequence`, src/library/ini/ConvertUTF.cpp:326-332; `s` is the memory between the two pointers. The first byte is
    read before the end is looked at. -/
def isLegalSequence (s : Bytes) : Outcome Bool := do
  let length := trailing (← unit s 0) + 1
  if s.length < length then return false
  isLegal s length

/-- The `switch` that puts the bytes of a character together, entered with `k` bytes to come behind the next one,
    src/library/ini/ConvertUTF.cpp:356-363 and 482-489. -/
def gather (s : Bytes) (i : Nat) : Nat → UInt32 → Outcome UInt32
  | 0, ch => do return ch + (← unit s i).toUInt32
  | k + 1, ch => do gather s (i + 1) k ((ch + (← unit s i).toUInt32) <<< 6)

/-- The beginning of a round of the two functions that read UTF-8, src/library/ini/ConvertUTF.cpp:343-364 and 469-490: the character and the
    number of its bytes, or the reason to stop. -/
def read8 (s : Bytes) : Outcome (Result ⊕ (UInt32 × Nat)) := do
  let extra := trailing (← unit s 0)
  if s.length ≤ extra then return .inl .sourceExhausted
  if !(← isLegal s (extra + 1)) then return .inl .sourceIllegal
  return .inr ((← gather s 0 extra 0) - offsets extra, extra + 1)

/-- One round of `ConvertUTF8toUTF16`, src/library/ini/ConvertUTF.cpp:343-400. -/
def step8to16 (flags : Flags) (room : Nat) (s : Bytes) : Outcome (Step UInt16) := do
  match ← read8 s with
  | .inl r => return .stop r
  | .inr (ch, n) =>
    if room = 0 then return .stop .targetExhausted
    else if ch ≤ 0xFFFF then
      if isSurrogate ch then
        if flags = .strict then return .stop .sourceIllegal
        else return .go n [replacement.toUInt16] none
      else return .go n [ch.toUInt16] none
    else if 0x10FFFF < ch then
      if flags = .strict then return .stop .sourceIllegal
      else return .go n [replacement.toUInt16] none
    else if room < 2 then return .stop .targetExhausted
    else return .go n (surrogates ch) none

/-- `ConvertUTF8toUTF16`, src/library/ini/ConvertUTF.cpp:336-405. -/
def convert8to16 (flags : Flags) (source : Bytes) (room : Nat) : Outcome (Result × Bytes × List UInt16) :=
  loop (step8to16 flags) room source [] .conversionOK

/-- One round of `ConvertUTF32toUTF8`, src/library/ini/ConvertUTF.cpp:416-453. -/
def step32to8 (flags : Flags) (room : Nat) (s : List UInt32) : Outcome (Step UInt8) := do
  let ch ← unit s 0
  if flags = .strict && isSurrogate ch then return .stop .sourceIllegal
  else
    let (ch, bytes, r) :=
      if ch < 0x80 then (ch, 1, none) else if ch < 0x800 then (ch, 2, none) else if ch < 0x10000 then (ch, 3, none)
      else if ch ≤ 0x10FFFF then (ch, 4, none) else (replacement, 3, some Result.sourceIllegal)
    if room < bytes then return .stop .targetExhausted
    else return .go 1 (bytesOf ch bytes) r

/-- `ConvertUTF32toUTF8`, src/library/ini/ConvertUTF.cpp:409-458. -/
def convert32to8 (flags : Flags) (source : List UInt32) (room : Nat) : Outcome (Result × List UInt32 × Bytes) :=
  loop (step32to8 flags) room source [] .conversionOK

/-- One round of `ConvertUTF8toUTF32`, src/library/ini/ConvertUTF.cpp:469-515. -/
def step8to32 (flags : Flags) (room : Nat) (s : Bytes) : Outcome (Step UInt32) := do
  match ← read8 s with
  | .inl r => return .stop r
  | .inr (ch, n) =>
    if room = 0 then return .stop .targetExhausted
    else if ch ≤ 0x10FFFF then
      if isSurrogate ch then
        if flags = .strict then return .stop .sourceIllegal
        else return .go n [replacement] none
      else return .go n [ch] none
    else return .go n [replacement] (some .sourceIllegal)

/-- `ConvertUTF8toUTF32`, src/library/ini/ConvertUTF.cpp:462-520. -/
def convert8to32 (flags : Flags) (source : Bytes) (room : Nat) : Outcome (Result × Bytes × List UInt32) :=
  loop (step8to32 flags) room source [] .conversionOK

end Licensecc.Utf
