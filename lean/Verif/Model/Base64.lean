import Verif.Basic
/-!
# Model of src/library/base/base64.cpp
-/
namespace Licensecc

/-- The encoding alphabet `b64`, src/library/base/base64.cpp:9. -/
def b64Alphabet : Bytes := b!"ABCDEFGHIJKLMNOPQRSTUVWXYZabcdefghijklmnopqrstuvwxyz0123456789+/"

/-- `b64[i]`, src/library/base/base64.cpp:9. The indices used are below 64 (lemma `b64Char_index`);
    the default is never reached. -/
def b64Char (i : Nat) : UInt8 := b64Alphabet.getD i 0

/-- The decoding table `unb64`, src/library/base/base64.cpp:12-39, transcribed entry by entry: 256
    entries, 0 outside the alphabet. -/
def unb64Table : List Nat := [
  0, 0, 0, 0, 0, 0, 0, 0, 0, 0, 0, 0, 0, 0, 0, 0, 0, 0, 0, 0,
  0, 0, 0, 0, 0, 0, 0, 0, 0, 0, 0, 0, 0, 0, 0, 0, 0, 0, 0, 0,
  0, 0, 0, 62, 0, 0, 0, 63, 52, 53, 54, 55, 56, 57, 58, 59, 60, 61, 0, 0,
  0, 0, 0, 0, 0, 0, 1, 2, 3, 4, 5, 6, 7, 8, 9, 10, 11, 12, 13, 14,
  15, 16, 17, 18, 19, 20, 21, 22, 23, 24, 25, 0, 0, 0, 0, 0, 0, 26, 27, 28,
  29, 30, 31, 32, 33, 34, 35, 36, 37, 38, 39, 40, 41, 42, 43, 44, 45, 46, 47, 48,
  49, 50, 51, 0, 0, 0, 0, 0, 0, 0, 0, 0, 0, 0, 0, 0, 0, 0, 0, 0,
  0, 0, 0, 0, 0, 0, 0, 0, 0, 0, 0, 0, 0, 0, 0, 0, 0, 0, 0, 0,
  0, 0, 0, 0, 0, 0, 0, 0, 0, 0, 0, 0, 0, 0, 0, 0, 0, 0, 0, 0,
  0, 0, 0, 0, 0, 0, 0, 0, 0, 0, 0, 0, 0, 0, 0, 0, 0, 0, 0, 0,
  0, 0, 0, 0, 0, 0, 0, 0, 0, 0, 0, 0, 0, 0, 0, 0, 0, 0, 0, 0,
  0, 0, 0, 0, 0, 0, 0, 0, 0, 0, 0, 0, 0, 0, 0, 0, 0, 0, 0, 0,
  0, 0, 0, 0, 0, 0, 0, 0, 0, 0, 0, 0, 0, 0, 0, 0]

/-- `unb64[b]`, src/library/base/base64.cpp:12-39. The table has an entry for every byte (lemma
    `unb64Table_length`), so the default is never used. -/
def unb64 (b : UInt8) : Nat := unb64Table.getD b.toNat 0

/-- `add_CR_if_needed`, src/library/base/base64.cpp:42-46, followed by appending `c`. -/
def putChar (lineLen : Int) (buf : Bytes) (c : UInt8) : Bytes :=
  (if 0 < lineLen ∧ ((buf.length + 1 : Nat) : Int) % lineLen = 0 then buf ++ [10] else buf) ++ [c]

/-- Loop and padding of `base64`, src/library/base/base64.cpp:67-100.  The loop bound `len - 3` is
    evaluated in `size_t`; here the caller guarantees `3 ≤ len` initially, so a group of three is
    encoded as long as three bytes are left. -/
def encodeLoop (lineLen : Int) (buf : Bytes) : Bytes → Bytes
  | a :: b :: c :: rest =>
      let a' := a.toNat; let b' := b.toNat; let c' := c.toNat
      let buf := putChar lineLen buf (b64Char (a' / 4))
      let buf := putChar lineLen buf (b64Char ((a' % 4) * 16 + b' / 16))
      let buf := putChar lineLen buf (b64Char ((b' % 16) * 4 + c' / 64))
      let buf := putChar lineLen buf (b64Char (c' % 64))
      encodeLoop lineLen buf rest
  | [a, b] =>                                   -- pad == 1, lines 90-99
      let a' := a.toNat; let b' := b.toNat
      let buf := putChar lineLen buf (b64Char (a' / 4))
      let buf := putChar lineLen buf (b64Char ((a' % 4) * 16 + b' / 16))
      let buf := putChar lineLen buf (b64Char ((b' % 16) * 4))
      putChar lineLen buf 61
  | [a] =>                                      -- pad == 2, lines 81-89
      let a' := a.toNat
      let buf := putChar lineLen buf (b64Char (a' / 4))
      let buf := putChar lineLen buf (b64Char ((a' % 4) * 16))
      let buf := putChar lineLen buf 61
      putChar lineLen buf 61
  | [] => buf

/-- `base64`, src/library/base/base64.cpp:48-104.  For `len < 3` the unsigned bound `len - 3` wraps
    around to at least `2^64 - 3` and the loop reads `bin[0..2]` and beyond: undefined behaviour.
    Simplification: `unsigned int byteNo` does not wrap (buffers below 4 GiB). -/
def base64 (bin : Bytes) (lineLen : Int) : Outcome Bytes :=
  if bin.length < 3 then .ub
  else
    let buf := encodeLoop lineLen [] bin
    -- lines 101-103
    .ok (if lineLen ≠ 0 ∧ buf.getLast? ≠ some 10 then buf ++ [10] else buf)

/-- The three output bytes of one quadruple, src/library/base/base64.cpp:128-135 (`push_back` keeps the
    low 8 bits of the `int`). -/
def decode3 (A B C D : Nat) : Bytes :=
  [UInt8.ofNat (A * 4 ||| B / 16), UInt8.ofNat (B * 16 ||| C / 4), UInt8.ofNat (C * 64 ||| D)]

/-- Loop of `unbase64`, src/library/base/base64.cpp:127-136.  `bound` is the value of the unsigned
    expression `len - 4 - pad` (possibly wrapped), `charNo` the position, and the list is the remaining
    memory from `charNo` on, including the terminating NUL of `c_str()`. Returns decoded bytes and the
    remaining memory; reading past the memory is undefined behaviour. -/
def decodeLoop (bound : Nat) : Nat → Bytes → Outcome (Bytes × Bytes)
  | charNo, a :: b :: c :: d :: rest =>
      if charNo ≤ bound then
        match decodeLoop bound (charNo + 4) rest with
        | .ok (out, r) => .ok (decode3 (unb64 a) (unb64 b) (unb64 c) (unb64 d) ++ out, r)
        | .throw e => .throw e
        | .ub => .ub
      else .ok ([], a :: b :: c :: d :: rest)
  | charNo, mem => if charNo ≤ bound then .ub else .ok ([], mem)

/-- `unbase64`, src/library/base/base64.cpp:106-151.  `size_t` arithmetic is modulo `2^64`; `pad` is
    an `int` converted to `size_t`.  Line 124: where `3 * len / 4 - pad` wraps around, `reserve` (line 125) is asked for more than a
    vector can hold and throws `std::length_error`.  Simplification: `unsigned int charNo` does not wrap (texts below
    4 GiB). -/
def unbase64 (s : Bytes) : Outcome Bytes :=
  let t := s.filter (fun b => !(b == 10))
  let len := t.length
  if len < 2 then .ok []
  else
    let pad := (if t.getD (len - 1) 0 == 61 then 1 else 0) + (if t.getD (len - 2) 0 == 61 then 1 else 0)
    let bound := (len + 2 ^ 64 - 4 - pad) % 2 ^ 64
    if 3 * len / 4 < pad then .throw .lengthError else
    match decodeLoop bound 0 (t ++ [0]) with
    | .ub => .ub
    | .throw e => .throw e
    | .ok (out, mem) =>
      if pad = 1 then
        match mem with
        | a :: b :: c :: _ =>
            .ok (out ++ [UInt8.ofNat (unb64 a * 4 ||| unb64 b / 16), UInt8.ofNat (unb64 b * 16 ||| unb64 c / 4)])
        | _ => .ub
      else if pad = 2 then
        match mem with
        | a :: b :: _ => .ok (out ++ [UInt8.ofNat (unb64 a * 4 ||| unb64 b / 16)])
        | _ => .ub
      else .ok out

end Licensecc
