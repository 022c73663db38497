import Verif.Model.WinSignature
import Verif.Spec.Der
import Verif.Props.Base64
import Verif.Lemmas.Base64
import Verif.Props.OpenSsl
/-!
# C60: the signature check on Windows
-/
namespace Licensecc.Win
open Licensecc.Spec.Der

theorem ofNat_toNat {n : Nat} (h : n < 256) : (UInt8.ofNat n).toNat = n := by simp; omega

theorem short_byte (b : UInt8) : (b &&& 0x80 > 0 ↔ 128 ≤ b.toNat) :=
  forall_uint8 (P := fun b => (b &&& 0x80 > 0 ↔ 128 ≤ b.toNat)) (by decide +kernel) b

theorem low_bits (b : UInt8) : (b &&& 0x7F).toNat = b.toNat % 128 :=
  forall_uint8 (P := fun b => (b &&& 0x7F).toNat = b.toNat % 128) (by decide +kernel) b

/-- What `read_length` makes of DER length octets: right below 256, the two bytes swapped from there on. -/
theorem readLength_octets (n : Nat) (hn : n < 65536) (r : Bytes) :
    readLength (lengthOctets n ++ r) = .ok (if n < 256 then n else n % 256 * 256 + n / 256, r) := by
  unfold lengthOctets readLength
  by_cases h1 : n < 128
  · rw [if_pos h1, if_pos (by omega)]
    have hb := ofNat_toNat (n := n) (by omega)
    have : ¬ (UInt8.ofNat n &&& 0x80 > 0) := by rw [short_byte, hb]; omega
    simp only [List.cons_append, List.nil_append, next, Outcome.ok_bind, if_neg this, hb]
  · rw [if_neg h1]
    by_cases h2 : n < 256
    · rw [if_pos h2, if_pos h2]
      have hb := ofNat_toNat (n := n) h2
      simp only [List.cons_append, List.nil_append, next, Outcome.ok_bind]
      rw [if_pos (by decide), show ((0x81 : UInt8) &&& 0x7F).toNat = 1 by decide]
      simp only [lengthLoop, next, shifted, Outcome.ok_bind, hb]
      simp
      omega
    · rw [if_neg h2, if_neg h2]
      have hb : (UInt8.ofNat n).toNat = n % 256 := by simp
      have hc := ofNat_toNat (n := n / 256) (by omega)
      simp only [List.cons_append, List.nil_append, next, Outcome.ok_bind]
      rw [if_pos (by decide), show ((0x82 : UInt8) &&& 0x7F).toNat = 2 by decide]
      simp only [lengthLoop, next, shifted, Outcome.ok_bind, hb, hc]
      simp
      omega

theorem copyBytes_append (l r : Bytes) : copyBytes l.length (l ++ r) = .ok (l, r) := by
  induction l with
  | nil => rfl
  | cons a l ih => simp [copyBytes, next, ih]

theorem integer_short {n location : Bytes} (hm : Minimal n) (hl : n.length ≤ location.length) (hsmall : location.length < 255)
    (r : Bytes) : readInteger (integer n ++ r) location = .ok (n ++ location.drop n.length, r) := by
  unfold integer readInteger
  simp only [List.cons_append, next, Outcome.ok_bind]
  rw [if_neg (by decide)]
  have hc : (intContent n).length ≤ n.length + 1 := by unfold intContent; split <;> simp
  rw [List.append_assoc, readLength_octets _ (by omega), if_pos (by omega)]
  simp only [Outcome.ok_bind]
  cases n with
  | nil => simp [Minimal] at hm
  | cons a n =>
    simp only [Minimal, List.headD_cons] at hm
    have ha : a ≠ 0 := by rintro rfl; simp at hm
    by_cases h : 128 ≤ a.toNat
    · rw [show intContent (a :: n) = 0 :: a :: n from if_pos h]
      simp only [List.cons_append, next, Outcome.ok_bind, if_true, List.length_cons]
      have h2 : decrement (n.length + 1 + 1) = (a :: n).length := rfl
      rw [h2, if_neg (by omega), ← List.cons_append, copyBytes_append]
      rfl
    · rw [show intContent (a :: n) = a :: n from if_neg h]
      simp only [List.cons_append, next, Outcome.ok_bind, if_neg ha]
      rw [if_neg (by omega), ← List.cons_append, copyBytes_append]
      rfl

theorem integer_length (n : Bytes) : (integer n).length ≤ n.length + 5 := by
  unfold integer lengthOctets intContent
  repeat' split
  all_goals simp <;> omega

theorem readSequence_key (m e : Bytes) (hm : m.length + e.length < 65000) :
    readSequence (publicKey m e) = .ok (integer m ++ integer e) := by
  unfold publicKey readSequence
  simp only [List.cons_append, next, Outcome.ok_bind]
  rw [if_neg (by decide)]
  have h1 := integer_length m
  have h2 := integer_length e
  rw [readLength_octets _ (by simp only [List.length_append]; omega)]
  rfl

/-- **C60**: a compiled-in key with up to 1024 bits and an exponent of up to three bytes is read; what is missing to 128 and
    three bytes is whatever happened to be in memory. -/
theorem C60_key_read {m e oldM oldE : Bytes} (hm : Minimal m) (he : Minimal e) (hml : m.length ≤ 128) (hel : e.length ≤ 3)
    (h1 : oldM.length = 128) (h2 : oldE.length = 3) :
    readKey (publicKey m e) oldM oldE = .ok (m ++ oldM.drop m.length, e ++ oldE.drop e.length) := by
  unfold readKey
  rw [readSequence_key _ _ (by omega)]
  simp only [Outcome.ok_bind]
  rw [integer_short hm (by omega) (by omega)]
  simp only [Outcome.ok_bind]
  have := integer_short (n := e) (location := oldE) he (by omega) (by omega) []
  rw [List.append_nil] at this
  rw [this]
  rfl

/-- **C60**: a key of exactly 1024 bits with a three byte exponent (such as 65537) is read exactly, whatever was in memory. -/
theorem C60_key_1024 {m e oldM oldE : Bytes} (hm : Bytewide m 128) (he : Minimal e) (hel : e.length = 3)
    (h1 : oldM.length = 128) (h2 : oldE.length = 3) : readKey (publicKey m e) oldM oldE = .ok (m, e) := by
  rw [C60_key_read (by unfold Minimal; have := hm.2; omega) he (by have := hm.1; omega) (by omega) h1 h2,
    List.drop_of_length_le (by have := hm.1; omega), List.drop_of_length_le (by omega)]
  simp

/-- **C60** (the property "the compiled-in key is the one that counts" fails): of a key of more than 1024 bits, such as 1536, 2048,
    3072 or 4096, nothing is read: the key that is used is whatever happened to be in memory. -/
theorem C60_longer_key_unread {m e oldM oldE : Bytes} (hm : Longer m)
    (hlen : m.length + e.length < 65000) (h1 : oldM.length = 128) :
    readKey (publicKey m e) oldM oldE = .ok (oldM, oldE) := by
  obtain ⟨hml, hmt, hmod⟩ := hm
  unfold readKey
  rw [readSequence_key _ _ hlen]
  simp only [Outcome.ok_bind]
  have hr : readInteger (integer m ++ integer e) oldM = .ok (oldM, m ++ integer e) := by
    unfold integer readInteger
    simp only [List.cons_append, next, Outcome.ok_bind]
    rw [if_neg (by decide)]
    have hc : (intContent m).length = m.length + 1 := by unfold intContent; rw [if_pos hmt]; simp
    rw [List.append_assoc, hc, readLength_octets _ (by omega)]
    simp only [Outcome.ok_bind]
    rw [show intContent m = 0 :: m from if_pos hmt]
    simp only [List.cons_append, next, Outcome.ok_bind, if_true]
    by_cases h255 : m.length = 255
    · rw [show (decrement (if m.length + 1 < 256 then m.length + 1 else (m.length + 1) % 256 * 256 + (m.length + 1) / 256)) = 0 by
          rw [h255]; rfl, if_neg (by omega)]
      simp [copyBytes]
    · have h4 : ∀ x, 129 < x → 128 < decrement x := by
        intro x hx
        rw [show decrement x = x - 1 from if_neg (by omega)]; omega
      rw [if_pos (by rw [h1]; apply h4; split <;> omega)]
  rw [hr]
  simp only [Outcome.ok_bind]
  cases m with
  | nil => simp only [List.length_nil] at hml; omega
  | cons a m =>
    simp only [List.headD_cons] at hmt
    have ha : a ≠ 2 := by rintro rfl; simp at hmt
    unfold readInteger
    simp only [List.cons_append, next, Outcome.ok_bind]
    rw [if_pos ha]
    rfl

/-! ## The check -/

/-- **C60**: with a key of 1024 bits and a three byte exponent the check accepts exactly when Windows does every step and
    confirms the signature for this key, the hash of the data and the decoded signature. -/
theorem C60_accepts_iff {b : Bcrypt} (hb : b.Sized) {m e : Bytes} (hm : Bytewide m 128) (he : Minimal e) (hel : e.length = 3)
    (hk : b.publicKey = publicKey m e) (data sig : Bytes) : b.verify data sig = .ok true ↔
      b.hashProvider = true ∧ b.properties = true ∧ b.allocated = true ∧ b.hashCreated = true ∧ b.rsaProvider = true
      ∧ b.imports m e = true
      ∧ ∃ h d, b.hash data = some h ∧ unbase64 sig = .ok d ∧ d ≠ [] ∧ b.verifies m e h d = true := by
  have hkey := C60_key_1024 hm he hel hb.1 hb.2
  unfold Bcrypt.verify Bcrypt.verifyHash
  rw [hk, hkey]
  simp only [Outcome.ok_bind]
  cases h1 : b.hashProvider <;> cases h2 : b.properties <;> cases h3 : b.allocated <;> cases h4 : b.hashCreated <;>
    cases h5 : b.hash data <;> cases h6 : unbase64 sig <;> cases h7 : b.rsaProvider <;> cases h8 : b.imports m e <;> simp
  all_goals (split <;> simp_all)

/-- **C60**: with a longer key the verdict does not depend on the key. -/
theorem C60_longer_key_ignored {b b' : Bcrypt} (hb : b.Sized) {m e m' e' : Bytes}
    (hm : Longer m) (hm' : Longer m') (hlen : m.length + e.length < 65000)
    (hlen' : m'.length + e'.length < 65000) (h : b.publicKey = publicKey m e)
    (h' : b' = { b with publicKey := publicKey m' e' }) (data sig : Bytes) : b.verify data sig = b'.verify data sig := by
  subst h'
  unfold Bcrypt.verify Bcrypt.verifyHash
  simp only [h]
  rw [C60_longer_key_unread hm hlen hb.1, C60_longer_key_unread hm' hlen' hb.1]

theorem next_no_throw (p : Bytes) (x : Exn) : next p ≠ .throw x := by
  cases p <;> simp [next]

theorem lengthLoop_no_throw : ∀ (n i acc : Nat) (p : Bytes) (x : Exn), lengthLoop n i acc p ≠ .throw x := by
  intro n
  induction n with
  | zero => intro i acc p x; simp [lengthLoop]
  | succ n ih =>
    intro i acc p x
    unfold lengthLoop
    cases p with
    | nil => simp [next]
    | cons b p =>
      simp only [next, Outcome.ok_bind, shifted]
      split
      · simp
      · simp only [Outcome.ok_bind]; exact ih _ _ _ _

theorem readLength_no_throw (p : Bytes) (x : Exn) : readLength p ≠ .throw x := by
  unfold readLength
  cases p with
  | nil => simp [next]
  | cons b p =>
    simp only [next, Outcome.ok_bind]
    split
    · exact lengthLoop_no_throw _ _ _ _ _
    · simp

theorem copyBytes_no_throw : ∀ (n : Nat) (p : Bytes) (x : Exn), copyBytes n p ≠ .throw x := by
  intro n
  induction n with
  | zero => intro p x; simp [copyBytes]
  | succ n ih =>
    intro p x
    unfold copyBytes
    cases p with
    | nil => simp [next]
    | cons b p =>
      simp only [next, Outcome.ok_bind]
      cases h : copyBytes n p with
      | throw y => exact absurd h (ih p y)
      | ub => simp
      | ok y => simp

theorem readInteger_no_throw (p loc : Bytes) (x : Exn) : readInteger p loc ≠ .throw x := by
  unfold readInteger
  cases p with
  | nil => simp [next]
  | cons b p =>
    simp only [next, Outcome.ok_bind]
    split
    · simp
    · cases h : readLength p with
      | throw y => exact absurd h (readLength_no_throw p y)
      | ub => simp
      | ok y =>
        obtain ⟨n, q⟩ := y
        simp only [Outcome.ok_bind]
        cases q with
        | nil => simp
        | cons c q =>
          simp only [Outcome.ok_bind]
          have key : ∀ (k : Nat) (q : Bytes), (if loc.length < k then Outcome.ok (loc, q)
              else do let (bs, p) ← copyBytes k q; Outcome.ok (bs ++ loc.drop k, p)) ≠ .throw x := by
            intro k q
            split
            · simp
            · cases hc : copyBytes k q with
              | throw y => exact absurd hc (copyBytes_no_throw _ _ y)
              | ub => simp
              | ok y => simp
          split
          · exact key _ _
          · exact key _ _

theorem readKey_no_throw (key m e : Bytes) (x : Exn) : readKey key m e ≠ .throw x := by
  unfold readKey
  have hs : ∀ y, readSequence key ≠ .throw y := by
    intro y
    unfold readSequence
    cases key with
    | nil => simp [next]
    | cons b p =>
      simp only [next, Outcome.ok_bind]
      split
      · simp
      · cases h : readLength p with
        | throw z => exact absurd h (readLength_no_throw p z)
        | ub => simp
        | ok z => simp
  cases h : readSequence key with
  | throw y => exact absurd h (hs y)
  | ub => simp
  | ok p =>
    simp only [Outcome.ok_bind]
    cases h1 : readInteger p m with
    | throw y => exact absurd h1 (readInteger_no_throw _ _ y)
    | ub => simp
    | ok y =>
      simp only [Outcome.ok_bind]
      cases h2 : readInteger y.2 e with
      | throw z => exact absurd h2 (readInteger_no_throw _ _ z)
      | ub => simp
      | ok z => simp

/-- **C60**: whatever key is compiled in, the check throws exactly when there is no provider for the hash, a `logic_error`, or when the data could be hashed and the
    signature text is `==`, a `length_error`. -/
theorem C60_throws_iff (b : Bcrypt) (data sig : Bytes) (x : Exn) :
    b.verify data sig = .throw x ↔ b.hashProvider = false ∧ x = .logicError
      ∨ (b.hashProvider = true ∧ b.properties = true ∧ b.allocated = true ∧ b.hashCreated = true ∧ b.hash data ≠ none)
        ∧ sig.filter (· ≠ 10) = b!"==" ∧ x = .lengthError := by
  have hkey := readKey_no_throw b.publicKey b.oldModulus b.oldExponent
  unfold Bcrypt.verify Bcrypt.verifyHash
  have hun := C23_unbase64_throws sig x
  cases h6 : unbase64 sig with
  | throw y =>
    rw [h6] at hun
    rw [← hun]
    simp only [Outcome.throw_bind]
    cases h1 : b.hashProvider <;> cases h2 : b.properties <;> cases h3 : b.allocated <;> cases h4 : b.hashCreated <;>
      cases h5 : b.hash data <;> simp
    all_goals exact eq_comm
  | ub =>
    rw [h6] at hun
    simp only [reduceCtorEq, false_iff] at hun
    cases h1 : b.hashProvider <;> cases h2 : b.properties <;> cases h3 : b.allocated <;> cases h4 : b.hashCreated <;>
      cases h5 : b.hash data <;> simp <;> first | exact eq_comm | (simpa using hun)
  | ok d =>
    rw [h6] at hun
    simp only [reduceCtorEq, false_iff] at hun
    simp only [Outcome.ok_bind]
    cases h7 : readKey b.publicKey b.oldModulus b.oldExponent with
    | throw y => exact absurd h7 (hkey y)
    | ub =>
      simp only [Outcome.ub_bind]
      cases h1 : b.hashProvider <;> cases h2 : b.properties <;> cases h3 : b.allocated <;> cases h4 : b.hashCreated <;>
        cases h5 : b.hash data <;> simp
      all_goals first
        | exact eq_comm
        | ((repeat' split) <;> simp <;> simpa using hun)
    | ok y =>
      simp only [Outcome.ok_bind]
      cases h1 : b.hashProvider <;> cases h2 : b.properties <;> cases h3 : b.allocated <;> cases h4 : b.hashCreated <;>
        cases h5 : b.hash data <;> simp
      all_goals first
        | exact eq_comm
        | ((repeat' split) <;> simp <;> simpa using hun)

/-- **C60**: a signature text that decodes to nothing - an empty `sig` for example - is undefined behaviour. -/
theorem C60_empty_signature {b : Bcrypt} (h1 : b.hashProvider = true) (h2 : b.properties = true) (h3 : b.allocated = true)
    (h4 : b.hashCreated = true) {data h : Bytes} (h5 : b.hash data = some h) {sig : Bytes} (hs : unbase64 sig = .ok []) :
    b.verify data sig = .ub := by
  unfold Bcrypt.verify Bcrypt.verifyHash
  simp [h1, h2, h3, h4, h5, hs]

example : unbase64 [] = .ok [] := by decide

/-- **C60**: with such a key the check is undefined behaviour exactly when the data could be hashed and the signature text, but for
    newlines, has fewer than two characters or is one on which the decoder runs out of bounds (C23). -/
theorem C60_crash_iff {b : Bcrypt} (hb : b.Sized) {m e : Bytes}
    (hm : Bytewide m 128 ∧ Minimal e ∧ e.length = 3 ∨ Longer m ∧ m.length + e.length < 65000) (hk : b.publicKey = publicKey m e)
    (data sig t : Bytes) (ht : t = sig.filter (fun b => b ≠ 10)) (hbig : t.length < 2 ^ 63) :
    b.verify data sig = .ub ↔
      (b.hashProvider = true ∧ b.properties = true ∧ b.allocated = true ∧ b.hashCreated = true ∧ b.hash data ≠ none)
      ∧ (t.length < 2 ∨ t ≠ b!"==" ∧ (t.length < 4 + padCount t ∨ padCount t = 1 ∧ t.length % 4 = 1)) := by
  have hkey : ∃ x, readKey b.publicKey b.oldModulus b.oldExponent = .ok x := by
    rcases hm with ⟨h1, h2, h3⟩ | ⟨h1, h2⟩
    · exact ⟨_, hk ▸ C60_key_1024 h1 h2 h3 hb.1 hb.2⟩
    · exact ⟨_, hk ▸ C60_longer_key_unread h1 h2 hb.1⟩
  obtain ⟨x, hx⟩ := hkey
  have hhash : ∀ h, b.verifyHash h sig = .ub ↔
      (t.length < 2 ∨ t ≠ b!"==" ∧ (t.length < 4 + padCount t ∨ padCount t = 1 ∧ t.length % 4 = 1)) := by
    intro h
    unfold Bcrypt.verifyHash
    rw [hx]
    rcases C23_unbase64_outcome sig t ht hbig with ⟨h1, h2⟩ | ⟨h1, h2⟩ | ⟨h1, h2, h3, h4⟩ | ⟨o, h1, h2, h3, h4, h5⟩
    · simp [h1, h2]
    · have : padCount t = 2 := by rw [h2]; decide
      simp [h1, h2]
    · simp only [h1, Outcome.ub_bind, true_iff]
      exact .inr ⟨h2, h4⟩
    · have ho : o.length ≠ 0 := by rw [h5]; omega
      simp only [h1, Outcome.ok_bind, if_neg ho]
      constructor
      · intro hh
        repeat' split at hh
        all_goals simp at hh
      · rintro (h6 | ⟨_, h6 | h6⟩)
        · omega
        · omega
        · exact absurd h6 h4
  unfold Bcrypt.verify
  cases h1 : b.hashProvider <;> cases h2 : b.properties <;> cases h3 : b.allocated <;> cases h4 : b.hashCreated <;>
    cases h5 : b.hash data <;> simp [hhash]

/-- **C60** in a call: without a provider for the hash, or with a `sig` that decodes to nothing or is `==`, a call that finds a complete
    licence for the feature does not return a verdict. -/
theorem C60_never_returns {cfg : Config} {w : World} {caller : Option Caller} {hint : Option LicenseLocation} {b : Bcrypt}
    (hw : w.verify = b.verify) {out : Option LicInfo} {f text : Bytes} (hc : Spec.Candidate cfg w caller hint f text)
    (hbad : b.hashProvider = false ∨ (b.properties = true ∧ b.allocated = true ∧ b.hashCreated = true
      ∧ (∀ d, (b.hash d).isSome) ∧ ∃ s, Spec.lastValue (b!"sig") (Spec.entriesFor f text) = some s
        ∧ (unbase64 s = .ok [] ∨ s.filter (· ≠ 10) = b!"==")))
    (res : AcquireResult) : acquire cfg w caller hint out ≠ .ok res := by
  intro h
  obtain ⟨s, data, g, h1, _, h3⟩ := acquire_checks h hc
  rw [hw] at h3
  cases hp : b.hashProvider with
  | false => simp [Bcrypt.verify, hp] at h3
  | true =>
    rcases hbad with hbad | ⟨h4, h5, h6, h7, s', h8, h9⟩
    · rw [hp] at hbad; simp at hbad
    · rw [h1] at h8
      simp only [Option.some.injEq] at h8
      subst h8
      obtain ⟨x, hx⟩ := Option.isSome_iff_exists.mp (h7 data)
      rcases h9 with h9 | h9
      · rw [C60_empty_signature hp h4 h5 h6 hx h9] at h3
        simp at h3
      · have := (C23_unbase64_throws s .lengthError).mpr ⟨h9, rfl⟩
        simp [Bcrypt.verify, Bcrypt.verifyHash, hp, h4, h5, h6, hx, this] at h3

/-! ### Concrete cases -/

/-- A modulus of 128 bytes. -/
def sampleModulus : Bytes := 0xC5 :: List.replicate 126 7 ++ [0x0B]

example : Bytewide sampleModulus 128 ∧ Minimal [1, 0, 1] :=
  ⟨⟨by decide +kernel, by decide +kernel⟩, by unfold Minimal; decide⟩

/-- Its encoding with the exponent 65537 begins as real keys do. -/
example : (publicKey sampleModulus [1, 0, 1]).take 7 = [0x30, 0x81, 0x89, 0x02, 0x81, 0x81, 0x00] := by decide +kernel

/-- A modulus of 256 bytes (RSA 2048). -/
def sampleModulus2048 : Bytes := 0xC5 :: List.replicate 254 7 ++ [0x0B]

example : Longer sampleModulus2048 := Longer.of_multiple (k := 2) (by decide) ⟨by decide +kernel, by decide +kernel⟩

example : (publicKey sampleModulus2048 [1, 0, 1]).take 9 = [0x30, 0x82, 0x01, 0x0A, 0x02, 0x82, 0x01, 0x01, 0x00] := by
  decide +kernel

/-- A Windows that accepts a signature if it equals the hash and the key is `sampleModulus`, 65537. -/
def sampleBcrypt : Bcrypt where
  publicKey := publicKey sampleModulus [1, 0, 1]
  oldModulus := List.replicate 128 0xCC
  oldExponent := List.replicate 3 0xCC
  hashProvider := true
  properties := true
  allocated := true
  hashCreated := true
  hash := fun d => some (d.take 32)
  rsaProvider := true
  imports := fun _ _ => true
  verifies := fun m e h s => m = sampleModulus && e = [1, 0, 1] && h = s

example : sampleBcrypt.Sized := ⟨by decide +kernel, by decide +kernel⟩
example : sampleBcrypt.verify (b!"ABC") (b!"QUJD") = .ok true ∧ sampleBcrypt.verify (b!"ABD") (b!"QUJD") = .ok false
    ∧ sampleBcrypt.verify (b!"ABC") [] = .ub := by decide +kernel

/-- A licence with an empty signature text. -/
example : acquire ⟨b!"TEST", false, false, 5⟩ { sampleWorld sampleNow with verify := sampleBcrypt.verify } (some sampleCaller)
      (some ⟨1, b!"[TEST]\nlic_ver=200\nsig=\n" ++ [0]⟩) none = .ub
    ∧ acquire ⟨b!"TEST", false, false, 5⟩
      { sampleWorld sampleNow with verify := { sampleBcrypt with hashProvider := false }.verify } (some sampleCaller)
      (some ⟨1, b!"[TEST]\nlic_ver=200\nsig=AAAA\n" ++ [0]⟩) none = .throw .logicError := by decide +kernel

end Licensecc.Win
