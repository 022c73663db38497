import Verif.Lemmas.Base64
import Verif.Spec.Base64
/-!
# Properties of base64 / unbase64 (C21, C22, C23)
-/
namespace Licensecc

/-! ## C21 round trip -/

/-- The encoder's text without line breaks is `encodeChars`. -/
theorem base64_filter (bs : Bytes) (ll : Int) (s : Bytes) (h : base64 bs ll = .ok s) :
    3 ≤ bs.length ∧ s.filter notNL = encodeChars bs := by
  unfold base64 at h
  split at h
  · simp at h
  · refine ⟨by omega, ?_⟩
    injection h with h
    subst h
    split
    · rw [List.filter_append, filter_encodeLoop]; simp [notNL]
    · rw [filter_encodeLoop]; simp

/-- **C21**: whatever the line length setting, decoding an encoding returns the data (buffers below
    2^61 bytes). -/
theorem C21_base64_round_trip (bs : Bytes) (lineLen : Int) (s : Bytes) (hbig : bs.length < 2 ^ 61)
    (h : base64 bs lineLen = .ok s) : unbase64 s = .ok bs := by
  obtain ⟨h3, hf⟩ := base64_filter bs lineLen s h
  exact unbase64_of_filter s bs h3 hbig hf

/-- The hypotheses are met: five bytes, line length 5. -/
example : ∃ s, base64 [1, 2, 3, 250, 255] 5 = .ok s ∧ unbase64 s = .ok [1, 2, 3, 250, 255] :=
  ⟨b!"AQID\n+v8=\n", by decide, by decide⟩

/-- **C21**: different data never have the same encoding. -/
theorem C21_base64_injective (xs ys : Bytes) (l1 l2 : Int) (s : Bytes) (hx : xs.length < 2 ^ 61)
    (hy : ys.length < 2 ^ 61) (h1 : base64 xs l1 = .ok s) (h2 : base64 ys l2 = .ok s) : xs = ys := by
  have a := C21_base64_round_trip xs l1 s hx h1
  have b := C21_base64_round_trip ys l2 s hy h2
  rw [a] at b; injection b

example : base64 [1, 2, 3] 0 = .ok b!"AQID" ∧ base64 [1, 2, 4] 0 = .ok b!"AQIE" := by decide

theorem putChar_zero (buf : Bytes) (c : UInt8) : putChar 0 buf c = buf ++ [c] := by simp [putChar]

theorem encodeLoop_zero (bs : Bytes) : ∀ buf, encodeLoop 0 buf bs = buf ++ encodeChars bs := by
  fun_induction encodeChars bs <;> intro buf <;> simp_all [encodeLoop, putChar_zero]

theorem grp1 (a : UInt8) : a.toNat / 4 = 32 * (a.toNat / 128 % 2) + 16 * (a.toNat / 64 % 2)
    + 8 * (a.toNat / 32 % 2) + 4 * (a.toNat / 16 % 2) + 2 * (a.toNat / 8 % 2) + a.toNat / 4 % 2 := by
  have := a.toNat_lt; omega
theorem grp2 (a b : UInt8) : a.toNat % 4 * 16 + b.toNat / 16 = 32 * (a.toNat / 2 % 2) + 16 * (a.toNat % 2)
    + 8 * (b.toNat / 128 % 2) + 4 * (b.toNat / 64 % 2) + 2 * (b.toNat / 32 % 2) + b.toNat / 16 % 2 := by
  have := b.toNat_lt; omega
theorem grp3 (b c : UInt8) : b.toNat % 16 * 4 + c.toNat / 64 = 32 * (b.toNat / 8 % 2) + 16 * (b.toNat / 4 % 2)
    + 8 * (b.toNat / 2 % 2) + 4 * (b.toNat % 2) + 2 * (c.toNat / 128 % 2) + c.toNat / 64 % 2 := by
  have := c.toNat_lt; omega
theorem grp4 (c : UInt8) : c.toNat % 64 = 32 * (c.toNat / 32 % 2) + 16 * (c.toNat / 16 % 2)
    + 8 * (c.toNat / 8 % 2) + 4 * (c.toNat / 4 % 2) + 2 * (c.toNat / 2 % 2) + c.toNat % 2 := by omega

open Spec in
theorem encodeChars_groups (bs : Bytes) :
    encodeChars bs = Spec.rfc4648 bs := by
  have key : ∀ bs : Bytes, ∃ k, (sixBitGroups (bs.flatMap byteBits)).length = 4 * k + (if bs.length % 3 = 0 then 0 else bs.length % 3 + 1)
      ∧ encodeChars bs = (sixBitGroups (bs.flatMap byteBits)).map (fun i => alphabet.getD i 0)
        ++ List.replicate ((3 - bs.length % 3) % 3) 61 := by
    intro bs
    fun_induction encodeChars bs with
    | case1 a b c rest ih =>
      obtain ⟨k, ih1, ih2⟩ := ih
      have ha := a.toNat_lt; have hb := b.toNat_lt; have hc := c.toNat_lt
      refine ⟨k + 1, ?_, ?_⟩
      · simp only [List.flatMap_cons, byteBits, List.cons_append, List.nil_append, sixBitGroups, List.length_cons] at ih1 ⊢
        rw [ih1]
        have : (rest.length + 1 + 1 + 1) % 3 = rest.length % 3 := by omega
        rw [this]; omega
      · simp only [List.flatMap_cons, byteBits, List.cons_append, List.nil_append, sixBitGroups, List.length_cons,
          List.map_cons] at ih2 ⊢
        have e : (rest.length + 1 + 1 + 1) % 3 = rest.length % 3 := by omega
        rw [e, ih2]
        rw [← grp1 a, ← grp2 a b, ← grp3 b c, ← grp4 c]
        rfl
    | case2 a b =>
      have ha := a.toNat_lt; have hb := b.toNat_lt
      refine ⟨0, by simp [byteBits, sixBitGroups], ?_⟩
      show _ = [_, _, _, _]
      rw [← grp1 a, ← grp2 a b, show b.toNat % 16 * 4 = 32 * (b.toNat / 8 % 2) + 16 * (b.toNat / 4 % 2)
        + 8 * (b.toNat / 2 % 2) + 4 * (b.toNat % 2) by omega]
      rfl
    | case3 a =>
      have ha := a.toNat_lt
      refine ⟨0, by simp [byteBits, sixBitGroups], ?_⟩
      show _ = [_, _, _, _]
      rw [← grp1 a, show a.toNat % 4 * 16 = 32 * (a.toNat / 2 % 2) + 16 * (a.toNat % 2) by omega]
      rfl
    | case4 => exact ⟨0, by simp [sixBitGroups], by simp [sixBitGroups]⟩
  obtain ⟨k, h1, h2⟩ := key bs
  rw [h2]
  simp only [rfc4648, List.length_map, h1]
  congr 2
  split <;> omega

/-- **C21**: with no line length the output is exactly the RFC 4648 encoding. -/
theorem C21_base64_is_rfc4648 (bs : Bytes) (h : 3 ≤ bs.length) : base64 bs 0 = .ok (Spec.rfc4648 bs) := by
  unfold base64
  rw [if_neg (by omega), encodeLoop_zero]
  simp [encodeChars_groups]

example : Spec.rfc4648 b!"foobar!" = b!"Zm9vYmFyIQ==" := by decide

/-- **C21**: with a line length, removing the line breaks gives exactly the RFC 4648 encoding. -/
theorem C21_base64_lines_are_rfc4648 (bs : Bytes) (ll : Int) (s : Bytes) (h : base64 bs ll = .ok s) :
    s.filter (fun b => b ≠ 10) = Spec.rfc4648 bs := by
  obtain ⟨_, hf⟩ := base64_filter bs ll s h
  rw [← encodeChars_groups, ← hf]
  congr 1; funext b; simp only [notNL, ne_eq]; by_cases h : b = 10 <;> simp [h]

example : base64 b!"foobar!" 5 = .ok b!"Zm9v\nYmFy\nIQ==\n" := by decide

/-! ## C22 memory safety of the encoder -/

/-- **C22**: the encoder is memory safe exactly for buffers of at least three bytes, and never throws. -/
theorem C22_base64_safe_iff (bs : Bytes) (ll : Int) : (∃ s, base64 bs ll = .ok s) ↔ 3 ≤ bs.length := by
  unfold base64; split
  · simp; omega
  · simp; omega

/-- **C22** (negation of "the encoder is memory safe"): the one-byte buffer is read out of bounds. -/
theorem C22_base64_short_is_ub : ∃ bs : Bytes, bs.length = 1 ∧ ∀ ll, base64 bs ll = .ub :=
  ⟨[65], rfl, fun _ => rfl⟩

/-! ## C23 memory safety of the decoder -/

/-- Number of `=` among the last two characters. -/
def padCount (t : Bytes) : Nat :=
  (if t.getLast? = some 61 then 1 else 0) + (if t.dropLast.getLast? = some 61 then 1 else 0)

theorem getD_last (t : Bytes) (h : 2 ≤ t.length) :
    ((t.getD (t.length - 1) 0 == 61) = true ↔ t.getLast? = some 61)
    ∧ ((t.getD (t.length - 2) 0 == 61) = true ↔ t.dropLast.getLast? = some 61) := by
  constructor
  · rw [List.getLast?_eq_getElem?, List.getD, List.getElem?_eq_getElem (by omega)]
    simp
  · rw [List.getLast?_eq_getElem?, List.getD]
    have : t.dropLast.length - 1 = t.length - 2 := by simp; omega
    rw [this, List.getElem?_dropLast, if_pos (by omega), List.getElem?_eq_getElem (by omega)]
    simp

theorem lengthError_iff (t : Bytes) (h : 2 ≤ t.length) : 3 * t.length / 4 < padCount t ↔ t = b!"==" := by
  constructor
  · intro hl
    match t, h, hl with
    | [a, b], _, hl =>
      unfold padCount at hl
      by_cases ha : a = 61 <;> by_cases hb : b = 61 <;> simp_all
    | a :: b :: c :: t, _, hl =>
      have hpc : padCount (a :: b :: c :: t) ≤ 2 := by unfold padCount; split <;> split <;> omega
      simp only [List.length_cons] at hl
      omega
  · rintro rfl; decide

/-- **C23**: exact characterisation of the inputs on which the decoder stays in bounds, and the size of
    what it returns. `t` is the text without newlines. -/
theorem C23_unbase64_outcome (s t : Bytes) (ht : t = s.filter (fun b => b ≠ 10)) (hbig : t.length < 2 ^ 63) :
    unbase64 s = .ok [] ∧ t.length < 2
    ∨ unbase64 s = .throw .lengthError ∧ t = b!"=="
    ∨ unbase64 s = .ub ∧ t ≠ b!"==" ∧ 2 ≤ t.length ∧ (t.length < 4 + padCount t ∨ (padCount t = 1 ∧ t.length % 4 = 1))
    ∨ (∃ out, unbase64 s = .ok out ∧ 2 ≤ t.length ∧ 4 + padCount t ≤ t.length
        ∧ ¬ (padCount t = 1 ∧ t.length % 4 = 1)
        ∧ out.length = 3 * ((t.length - padCount t) / 4) + (3 - padCount t) % 3) := by
  have ht' : s.filter (fun b => !(b == 10)) = t := by
    rw [ht]; congr 1; funext b; by_cases h : b = 10 <;> simp [h]
  unfold unbase64
  rw [ht']
  dsimp only
  by_cases h2 : t.length < 2
  · left; simp [h2]
  right
  rw [if_neg h2]
  obtain ⟨g1, g2⟩ := getD_last t (by omega)
  have hp : ((if (t.getD (t.length - 1) 0 == 61) = true then 1 else 0)
      + (if (t.getD (t.length - 2) 0 == 61) = true then 1 else 0)) = padCount t := by
    unfold padCount
    by_cases a1 : t.getLast? = some 61 <;> by_cases a2 : t.dropLast.getLast? = some 61 <;>
      simp only [g1, g2, a1, a2, if_true, if_false]
  rw [hp]
  have hpc : padCount t ≤ 2 := by unfold padCount; split <;> split <;> omega
  have heq := lengthError_iff t (by omega)
  by_cases hle : 3 * t.length / 4 < padCount t
  · left; rw [if_pos hle]; exact ⟨rfl, heq.mp hle⟩
  have hne : t ≠ b!"==" := fun h => hle (heq.mpr h)
  rw [if_neg hle]
  right
  generalize padCount t = pad at *
  by_cases hs : t.length < 4 + pad
  · left
    have hb : (t.length + 2 ^ 64 - 4 - pad) % 2 ^ 64 = t.length + 2 ^ 64 - 4 - pad := by omega
    rw [hb, decodeLoop_ub _ _ 0 (by simp; omega)]
    exact ⟨rfl, hne, by omega, .inl hs⟩
  · have hb : (t.length + 2 ^ 64 - 4 - pad) % 2 ^ 64 = t.length - 4 - pad := by omega
    rw [hb]
    obtain ⟨out, ho, hl⟩ := decodeLoop_ok (t.length - 4 - pad) (t ++ [0]) 0 (by simp; omega) (by omega) (by omega)
    rw [ho]
    have hq : (t.length - 4 - pad + 4 - 0) / 4 = (t.length - pad) / 4 := by omega
    rw [hq] at hl ⊢
    dsimp only
    have hdl : ((t ++ [0]).drop (4 * ((t.length - pad) / 4))).length = t.length + 1 - 4 * ((t.length - pad) / 4) := by simp
    rcases (by omega : pad = 0 ∨ pad = 1 ∨ pad = 2) with rfl | rfl | rfl
    · right; simp; exact ⟨by omega, by omega, by omega⟩
    · simp only [if_true]
      by_cases hm : t.length % 4 = 1
      · left
        split
        · rename_i heq
          rw [heq] at hdl; simp only [List.length_cons] at hdl; omega
        · exact ⟨rfl, hne, by omega, .inr ⟨by simp, hm⟩⟩
      · right
        split
        · refine ⟨_, rfl, by omega, by omega, by simpa using hm, ?_⟩
          simp [hl]
        · rename_i hno
          exfalso
          generalize (t ++ [0]).drop (4 * ((t.length - 1) / 4)) = m at *
          match m, hno, hdl with
          | [], _, hdl | [_], _, hdl | [_, _], _, hdl => simp at hdl; omega
          | a :: b :: c :: r, hno, _ => exact hno a b c r rfl
    · right
      rw [if_neg (show ¬ (2 : Nat) = 1 by decide), if_pos rfl]
      split
      · refine ⟨_, rfl, by omega, by omega, by simp, ?_⟩
        simp [hl]
      · rename_i hno
        exfalso
        generalize (t ++ [0]).drop (4 * ((t.length - 2) / 4)) = m at *
        match m, hno, hdl with
        | [], _, hdl | [_], _, hdl => simp at hdl; omega
        | a :: b :: r, hno, _ => exact hno a b r rfl

/-- **C23** corollary: a text of full quadruples, at least 8 characters, is always decoded safely,
    whatever its characters. -/
theorem C23_unbase64_safe_quadruples (s t : Bytes) (ht : t = s.filter (fun b => b ≠ 10)) (hbig : t.length < 2 ^ 63)
    (h4 : t.length % 4 = 0) (h8 : 8 ≤ t.length) : ∃ out, unbase64 s = .ok out := by
  have hpc : padCount t ≤ 2 := by unfold padCount; split <;> split <;> omega
  rcases C23_unbase64_outcome s t ht hbig with ⟨h, _⟩ | ⟨_, h⟩ | ⟨_, _, _, h | ⟨_, h⟩⟩ | ⟨o, h, _⟩
  · exact ⟨_, h⟩
  · rw [h] at h8; simp at h8
  · omega
  · omega
  · exact ⟨o, h⟩

example : ∃ out, unbase64 b!"QUJDREVG" = .ok out := ⟨b!"ABCDEF", by decide⟩

/-- **C23** (negation of "the decoder is memory safe"): the valid base64 text of two bytes "AB". -/
theorem C23_unbase64_short_is_ub : unbase64 b!"QUI=" = .ub := by decide
/-- **C23** (negation): 13 characters ending in one `=` read past the terminator. -/
theorem C23_unbase64_13_is_ub : unbase64 b!"QUJDREVGQUJDR=" ≠ .ub ∧ unbase64 b!"QUJDREVGQUJD=" = .ub := by decide

/-- **C23** (negation of "the decoder never throws"): it throws for two `=` signs and nothing else, whatever newlines are around
    them, and what it throws is `std::length_error`. -/
theorem C23_unbase64_throws (s : Bytes) (e : Exn) :
    unbase64 s = .throw e ↔ s.filter (fun b => b ≠ 10) = b!"==" ∧ e = .lengthError := by
  constructor
  · intro h
    have hn := decodeLoop_no_throw
    have ht' : s.filter (fun b => !(b == 10)) = s.filter (fun b => b ≠ 10) := by
      congr 1; funext b; by_cases h : b = 10 <;> simp [h]
    unfold unbase64 at h
    rw [ht'] at h
    generalize s.filter (fun b => b ≠ 10) = t at h
    dsimp only at h
    split at h
    · simp at h
    rename_i h2
    obtain ⟨g1, g2⟩ := getD_last t (by omega)
    have hp : ((if (t.getD (t.length - 1) 0 == 61) = true then 1 else 0)
        + (if (t.getD (t.length - 2) 0 == 61) = true then 1 else 0)) = padCount t := by
      unfold padCount
      by_cases a1 : t.getLast? = some 61 <;> by_cases a2 : t.dropLast.getLast? = some 61 <;>
        simp only [g1, g2, a1, a2, if_true, if_false]
    rw [hp] at h
    split at h
    · rename_i hl
      exact ⟨(lengthError_iff t (by omega)).mp hl, by simpa using h.symm⟩
    · repeat' split at h
      all_goals first | (rename_i hh; exact absurd hh (hn _ _ _ _)) | (exact absurd h (by simp))
  · rintro ⟨h, rfl⟩
    rcases C23_unbase64_outcome s _ rfl (by rw [h]; decide) with ⟨_, h2⟩ | ⟨h1, _⟩ | ⟨_, h2, _⟩ | ⟨_, _, _, h2, _⟩
    · rw [h] at h2; simp at h2
    · exact h1
    · exact absurd h h2
    · rw [h] at h2; exact absurd h2 (by decide)

example : unbase64 b!"=\n=" = .throw .lengthError := by decide

theorem unbase64_throws {s : Bytes} {e : Exn} (h : unbase64 s = .throw e) : e = .lengthError := ((C23_unbase64_throws s e).mp h).2

/-! ## C23 what the decoder returns -/

theorem charValue_eq (c : UInt8) : Spec.charValue c = unb64 c := by
  revert c; apply forall_uint8; decide +kernel

theorem bits4 (A B C D : Nat) (hA : A < 64) (hB : B < 64) (hC : C < 64) (hD : D < 64) (rest : List Nat) :
    Spec.eightBitGroups (Spec.sixBits A ++ (Spec.sixBits B ++ (Spec.sixBits C ++ (Spec.sixBits D ++ rest))))
      = decode3 A B C D ++ Spec.eightBitGroups rest := by
  simp only [Spec.sixBits, List.cons_append, List.nil_append]
  rw [Spec.eightBitGroups, List.drop_succ_cons, List.drop_succ_cons, List.drop_succ_cons, List.drop_succ_cons,
    List.drop_succ_cons, List.drop_succ_cons, List.drop_succ_cons, List.drop_zero,
    Spec.eightBitGroups, List.drop_succ_cons, List.drop_succ_cons, List.drop_succ_cons, List.drop_succ_cons,
    List.drop_succ_cons, List.drop_succ_cons, List.drop_succ_cons, List.drop_zero,
    Spec.eightBitGroups, List.drop_succ_cons, List.drop_succ_cons, List.drop_succ_cons, List.drop_succ_cons,
    List.drop_succ_cons, List.drop_succ_cons, List.drop_succ_cons, List.drop_zero]
  have h1 := or_add_shift A (B / 16) 2 (by omega)
  have h2 := or_add_shift B (C / 4) 4 (by omega)
  have h3 := or_add_shift C D 6 (by omega)
  simp only [show (2 : Nat) ^ 2 = 4 from rfl, show (2 : Nat) ^ 4 = 16 from rfl, show (2 : Nat) ^ 6 = 64 from rfl] at h1 h2 h3
  simp only [decode3, h1, h2, h3, List.getD_cons_zero, List.getD_cons_succ, List.cons_append, List.nil_append]
  congr 1
  · apply UInt8.toNat_inj.mp; simp only [UInt8.toNat_ofNat']; omega
  congr 1
  · apply UInt8.toNat_inj.mp; simp only [UInt8.toNat_ofNat']; omega
  congr 1
  · apply UInt8.toNat_inj.mp; simp only [UInt8.toNat_ofNat']; omega

theorem decodeLoop_reads (bound : Nat) (mem : Bytes) : ∀ pos out r, decodeLoop bound pos mem = .ok (out, r) →
    ∃ pre, mem = pre ++ r ∧ ∀ rest : List Nat,
      Spec.eightBitGroups (pre.flatMap (fun c => Spec.sixBits (Spec.charValue c)) ++ rest)
        = out ++ Spec.eightBitGroups rest := by
  intro pos
  fun_induction decodeLoop bound pos mem with
  | case1 pos a b c d rest h out r hr ih =>
    intro out' r' e
    cases e
    obtain ⟨pre, rfl, hp⟩ := ih _ _ hr
    refine ⟨a :: b :: c :: d :: pre, by simp, ?_⟩
    intro x
    simp only [List.flatMap_cons, List.append_assoc, charValue_eq]
    rw [bits4 _ _ _ _ (unb64_lt a) (unb64_lt b) (unb64_lt c) (unb64_lt d)]
    have := hp x
    simp only [charValue_eq] at this
    rw [this]
  | case2 | case3 | case5 => intro _ _ e; simp at e
  | case4 | case6 => intro out r e; cases e; exact ⟨[], by simp, by simp⟩

theorem two_of_three (A B C : Nat) (hA : A < 64) (hB : B < 64) (hC : C < 64) (rest : List Nat) :
    [UInt8.ofNat (A * 4 ||| B / 16), UInt8.ofNat (B * 16 ||| C / 4)]
      <+: Spec.eightBitGroups (Spec.sixBits A ++ (Spec.sixBits B ++ (Spec.sixBits C ++ rest))) := by
  simp only [Spec.sixBits, List.cons_append, List.nil_append]
  rw [Spec.eightBitGroups, List.drop_succ_cons, List.drop_succ_cons, List.drop_succ_cons, List.drop_succ_cons,
    List.drop_succ_cons, List.drop_succ_cons, List.drop_succ_cons, List.drop_zero,
    Spec.eightBitGroups, List.drop_succ_cons, List.drop_succ_cons, List.drop_succ_cons, List.drop_succ_cons,
    List.drop_succ_cons, List.drop_succ_cons, List.drop_succ_cons, List.drop_zero]
  have h1 := or_add_shift A (B / 16) 2 (by omega)
  have h2 := or_add_shift B (C / 4) 4 (by omega)
  simp only [show (2 : Nat) ^ 2 = 4 from rfl, show (2 : Nat) ^ 4 = 16 from rfl] at h1 h2
  simp only [h1, h2, List.getD_cons_zero, List.getD_cons_succ, List.cons_prefix_cons]
  refine ⟨?_, ?_, List.nil_prefix⟩ <;> (apply UInt8.toNat_inj.mp; simp only [UInt8.toNat_ofNat']; omega)

theorem two_of_two (A B : Nat) (hA : A < 64) (hB : B < 64) :
    [UInt8.ofNat (A * 4 ||| B / 16), UInt8.ofNat (B * 16 ||| 0)]
      <+: Spec.eightBitGroups (Spec.sixBits A ++ Spec.sixBits B) := by
  simp only [Spec.sixBits, List.cons_append, List.nil_append]
  rw [Spec.eightBitGroups, List.drop_succ_cons, List.drop_succ_cons, List.drop_succ_cons, List.drop_succ_cons,
    List.drop_succ_cons, List.drop_succ_cons, List.drop_succ_cons, List.drop_zero, Spec.eightBitGroups]
  have h1 := or_add_shift A (B / 16) 2 (by omega)
  simp only [show (2 : Nat) ^ 2 = 4 from rfl] at h1
  simp only [h1, Nat.or_zero, List.getD_cons_zero, List.getD_cons_succ, List.getD_nil, List.cons_prefix_cons]
  refine ⟨?_, ?_, List.nil_prefix⟩ <;> (apply UInt8.toNat_inj.mp; simp only [UInt8.toNat_ofNat']; omega)

theorem one_of_two (A B : Nat) (hA : A < 64) (hB : B < 64) (rest : List Nat) :
    [UInt8.ofNat (A * 4 ||| B / 16)] <+: Spec.eightBitGroups (Spec.sixBits A ++ (Spec.sixBits B ++ rest)) := by
  simp only [Spec.sixBits, List.cons_append, List.nil_append]
  rw [Spec.eightBitGroups, List.drop_succ_cons, List.drop_succ_cons, List.drop_succ_cons, List.drop_succ_cons,
    List.drop_succ_cons, List.drop_succ_cons, List.drop_succ_cons, List.drop_zero]
  have h1 := or_add_shift A (B / 16) 2 (by omega)
  simp only [show (2 : Nat) ^ 2 = 4 from rfl] at h1
  simp only [h1, List.getD_cons_zero, List.getD_cons_succ, List.cons_prefix_cons]
  refine ⟨?_, List.nil_prefix⟩
  apply UInt8.toNat_inj.mp; simp only [UInt8.toNat_ofNat']; omega

theorem one_of_one (A : Nat) (hA : A < 64) : [UInt8.ofNat (A * 4 ||| 0)] <+: Spec.eightBitGroups (Spec.sixBits A) := by
  simp only [Spec.sixBits]
  rw [Spec.eightBitGroups]
  simp only [Nat.or_zero, List.getD_cons_zero, List.getD_cons_succ, List.getD_nil, List.cons_prefix_cons]
  refine ⟨?_, List.nil_prefix⟩
  apply UInt8.toNat_inj.mp; simp only [UInt8.toNat_ofNat']; omega

/-- The text is what comes before the terminator. -/
theorem before_terminator (t pre mem : Bytes) (h : t ++ [0] = pre ++ mem) (hm : mem ≠ []) :
    t = pre ++ mem.dropLast ∧ mem.getLast? = some 0 := by
  have hm' : mem = mem.dropLast ++ [mem.getLast hm] := (List.dropLast_concat_getLast hm).symm
  have h' : t ++ [0] = (pre ++ mem.dropLast) ++ [mem.getLast hm] := by
    rw [h, List.append_assoc, ← hm']
  obtain ⟨h1, h2⟩ := List.append_inj' h' rfl
  exact ⟨h1, by rw [List.getLast?_eq_some_getLast hm]; simp at h2; rw [h2]⟩

/-- What the decoder returns is the beginning of what the text says. -/
theorem unbase64_prefix (s t : Bytes) (ht : t = s.filter (fun b => b ≠ 10)) (hbig : t.length < 2 ^ 63)
    (out : Bytes) (h : unbase64 s = .ok out) : out <+: Spec.bytesWritten t := by
  have ht' : s.filter (fun b => !(b == 10)) = t := by
    rw [ht]; congr 1; funext b; by_cases h : b = 10 <;> simp [h]
  unfold unbase64 at h
  rw [ht'] at h
  dsimp only at h
  split at h
  · cases h; exact List.nil_prefix
  have hpad : (if (t.getD (t.length - 1) 0 == 61) = true then 1 else 0)
      + (if (t.getD (t.length - 2) 0 == 61) = true then 1 else 0) ≤ 2 := by split <;> split <;> omega
  generalize (if (t.getD (t.length - 1) 0 == 61) = true then 1 else 0)
      + (if (t.getD (t.length - 2) 0 == 61) = true then 1 else 0) = pad at h hpad
  split at h
  · exact absurd h (by simp)
  split at h
  · exact absurd h (by simp)
  · exact absurd h (by simp)
  rename_i o mem he
  obtain ⟨pre, hpre, hg⟩ := decodeLoop_reads _ _ _ _ _ he
  unfold Spec.bytesWritten
  split at h
  · split at h
    · rename_i a b c m
      cases h
      obtain ⟨rfl, hl⟩ := before_terminator t pre _ hpre (by simp)
      rw [List.flatMap_append, hg]
      apply (List.prefix_append_right_inj _).mpr
      cases m with
      | nil =>
        simp only [List.getLast?_cons_cons, List.getLast?_singleton, Option.some.injEq] at hl
        subst hl
        have := two_of_two (unb64 a) (unb64 b) (unb64_lt a) (unb64_lt b)
        simpa [List.dropLast, charValue_eq, show unb64 0 = 0 by decide] using this
      | cons d m =>
        have := two_of_three (unb64 a) (unb64 b) (unb64 c) (unb64_lt a) (unb64_lt b) (unb64_lt c)
          ((d :: m).dropLast.flatMap fun c => Spec.sixBits (Spec.charValue c))
        simpa [List.dropLast, charValue_eq] using this
    · exact absurd h (by simp)
  split at h
  · split at h
    · rename_i a b m
      cases h
      obtain ⟨rfl, hl⟩ := before_terminator t pre _ hpre (by simp)
      rw [List.flatMap_append, hg]
      apply (List.prefix_append_right_inj _).mpr
      cases m with
      | nil =>
        simp only [List.getLast?_cons_cons, List.getLast?_singleton, Option.some.injEq] at hl
        subst hl
        have := one_of_one (unb64 a) (unb64_lt a)
        simpa [List.dropLast, charValue_eq, show unb64 0 = 0 by decide] using this
      | cons d m =>
        have := one_of_two (unb64 a) (unb64 b) (unb64_lt a) (unb64_lt b)
          ((d :: m).dropLast.flatMap fun c => Spec.sixBits (Spec.charValue c))
        simpa [List.dropLast, charValue_eq] using this
    · exact absurd h (by simp)
  · cases h
    rename_i h2 p1 p2
    have hm : mem ≠ [] := by
      intro hm
      subst hm
      by_cases hs : t.length < 4 + pad
      · have hb : (t.length + 2 ^ 64 - 4 - pad) % 2 ^ 64 = t.length + 2 ^ 64 - 4 - pad := by omega
        rw [hb, decodeLoop_ub _ _ 0 (by simp; omega)] at he
        exact absurd he (by simp)
      · have hb : (t.length + 2 ^ 64 - 4 - pad) % 2 ^ 64 = t.length - 4 - pad := by omega
        rw [hb] at he
        obtain ⟨out, ho, hl⟩ := decodeLoop_ok (t.length - 4 - pad) (t ++ [0]) 0 (by simp; omega) (by omega) (by omega)
        rw [ho] at he
        injection he with he; injection he with _ he
        have := congrArg List.length he
        simp at this
        omega
    obtain ⟨rfl, hl⟩ := before_terminator t pre _ hpre hm
    rw [List.flatMap_append, hg]
    exact List.prefix_append _ _

/-- **C23**: what the decoder returns, for every text: the bits of its characters cut in bytes, as many of them as the
    length of the text and the `=` signs at its end call for. A character outside the alphabet counts as six zeros,
    wherever it stands. `t` is the text without newlines. -/
theorem C23_unbase64_returns (s t : Bytes) (ht : t = s.filter (fun b => b ≠ 10)) (hbig : t.length < 2 ^ 63)
    (out : Bytes) (h : unbase64 s = .ok out) :
    out = (Spec.bytesWritten t).take
      (if t.length < 2 then 0 else 3 * ((t.length - padCount t) / 4) + (3 - padCount t) % 3) := by
  have hp := List.prefix_iff_eq_take.mp (unbase64_prefix s t ht hbig out h)
  rcases C23_unbase64_outcome s t ht hbig with ⟨h', h2⟩ | ⟨h', _⟩ | ⟨h', _⟩ | ⟨o, h', h2, _, _, hl⟩
  · rw [h'] at h; cases h; simp [h2]
  · rw [h'] at h; cases h
  · rw [h'] at h; cases h
  · rw [h'] at h; cases h
    rw [if_neg (by omega), ← hl]; exact hp

example : unbase64 b!"QUJD\nREVG" = .ok b!"ABCDEF" ∧ Spec.bytesWritten b!"QUJDREVG" = b!"ABCDEF" := by
  constructor <;> decide +kernel

/-- **C23** (negation of "only the text of an encoding is accepted as such"): a foreign character is read as an `A`, so
    texts that differ only there give the same bytes, and so does a text with bits behind the last byte. -/
theorem C23_texts_are_malleable :
    unbase64 b!"QUJDAEVG" = .ok [65, 66, 67, 0, 69, 70] ∧ unbase64 b!"QUJD-EVG" = .ok [65, 66, 67, 0, 69, 70]
    ∧ unbase64 b!"QUJDQUI=" = unbase64 b!"QUJDQUJ=" := by decide +kernel

/-- The text with every foreign character replaced by an `A`; newlines and `=` signs stay. -/
def foreignAsA (s : Bytes) : Bytes := s.map fun c => if c ∈ Spec.alphabet ∨ c = 10 ∨ c = 61 then c else 65

/-- **C23**: replacing every character that is not of the alphabet by an `A` changes nothing. -/
theorem C23_foreign_counts_as_A (s : Bytes) (hbig : s.length < 2 ^ 63) : unbase64 (foreignAsA s) = unbase64 s := by
  have hval : ∀ c : UInt8, Spec.charValue (if c ∈ Spec.alphabet ∨ c = 10 ∨ c = 61 then c else 65) = Spec.charValue c := by
    apply forall_uint8; decide +kernel
  have h10 : ∀ c : UInt8, ((if c ∈ Spec.alphabet ∨ c = 10 ∨ c = 61 then c else 65) ≠ 10) ↔ c ≠ 10 := by
    apply forall_uint8; decide +kernel
  have h61 : ∀ c : UInt8, ((if c ∈ Spec.alphabet ∨ c = 10 ∨ c = 61 then c else 65) = 61) ↔ c = 61 := by
    apply forall_uint8; decide +kernel
  have hf : (foreignAsA s).filter (fun b => b ≠ 10) = foreignAsA (s.filter fun b => b ≠ 10) := by
    unfold foreignAsA
    rw [List.filter_map]
    congr 1
    apply List.filter_congr
    intro c _
    simp only [Function.comp_apply, h10]
  have hlast : ∀ t : Bytes, (foreignAsA t).getLast? = some 61 ↔ t.getLast? = some 61 := by
    intro t
    unfold foreignAsA
    rw [List.getLast?_map, Option.map_eq_some_iff]
    constructor
    · rintro ⟨c, hc, h⟩; rw [hc, (h61 c).mp h]
    · intro h; exact ⟨61, h, by decide⟩
  have hdrop : ∀ t : Bytes, (foreignAsA t).dropLast = foreignAsA t.dropLast := by
    intro t; unfold foreignAsA; rw [List.map_dropLast]
  have hpad : ∀ t : Bytes, padCount (foreignAsA t) = padCount t := by
    intro t; unfold padCount; simp only [hdrop, hlast]
  have hlen : ∀ t : Bytes, (foreignAsA t).length = t.length := by intro t; simp [foreignAsA]
  have hw : ∀ t : Bytes, Spec.bytesWritten (foreignAsA t) = Spec.bytesWritten t := by
    intro t; unfold Spec.bytesWritten foreignAsA; rw [List.flatMap_map]; simp only [hval]
  have ht : (s.filter fun b => b ≠ 10).length < 2 ^ 63 := Nat.lt_of_le_of_lt (List.length_filter_le _ _) hbig
  have ha := C23_unbase64_outcome s _ rfl ht
  have hb := C23_unbase64_outcome (foreignAsA s) _ rfl (by rw [hf, hlen]; exact ht)
  have ra := C23_unbase64_returns s _ rfl ht
  have rb := C23_unbase64_returns (foreignAsA s) _ rfl (by rw [hf, hlen]; exact ht)
  rw [hf] at hb rb
  have he : ∀ t : Bytes, t = b!"==" ↔ 2 ≤ t.length ∧ 3 * t.length / 4 < padCount t := fun t =>
    ⟨fun h => ⟨by rw [h]; decide, (lengthError_iff t (by rw [h]; decide)).mpr h⟩, fun h => (lengthError_iff t h.1).mp h.2⟩
  have hpc : padCount (s.filter fun b => b ≠ 10) ≤ 2 := by unfold padCount; split <;> split <;> omega
  simp only [ne_eq, he] at ha hb hpc
  simp only [hlen, hpad, hw] at hb rb
  rcases ha with ⟨h1, h2⟩ | ⟨h1, h2⟩ | ⟨h1, h2⟩ | ⟨o, h1, h2, h3⟩ <;> rcases hb with ⟨k1, k2⟩ | ⟨k1, k2⟩ | ⟨k1, k2⟩ | ⟨o', k1, k2, k3⟩
  all_goals first
    | (rw [h1, k1]; done)
    | (exfalso; omega)
    | (rw [h1, k1, ra _ h1, rb _ k1])

example : foreignAsA b!"QUJD-EVG" = b!"QUJDAEVG" := by decide +kernel

end Licensecc
