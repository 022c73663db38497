import Verif.Spec.ConvertUtf
import Verif.Lemmas.Base64
/-!
# Lemmas about the Unicode conversions
-/
namespace Licensecc.Utf
open Licensecc.Spec.Utf

/-! ## The loop -/

/-- The common frame: if every round either stops for a known reason or converts one item, then the loop converts a
    list of items and stops for a known reason or at the end. -/
theorem loop_ok {α β ι : Type} (step : Nat → List α → Outcome (Step β)) (src : ι → List α) (dst : ι → List β)
    (mark : ι → Option Result) (Good : ι → List α → Prop) (Stop : Result → Nat → List α → Prop)
    (hstep : ∀ room s, s ≠ [] →
      (∃ i tail, Good i tail ∧ s = src i ++ tail ∧ src i ≠ [] ∧ (dst i).length ≤ room
        ∧ step room s = .ok (.go (src i).length (dst i) (mark i)))
      ∨ ∃ r, Stop r room s ∧ step room s = .ok (.stop r)) (room : Nat) :
    ∀ (n : Nat) (s : List α) (w : List β) (res : Result), s.length = n → w.length ≤ room →
    ∃ items rest res', loop step room s w res = .ok (res', rest, w ++ items.flatMap dst)
      ∧ s = items.flatMap src ++ rest ∧ (w ++ items.flatMap dst).length ≤ room
      ∧ (∀ t1 i t2, items = t1 ++ i :: t2 → Good i (t2.flatMap src ++ rest))
      ∧ (rest = [] ∧ res' = items.foldl (fun r i => (mark i).getD r) res
        ∨ rest ≠ [] ∧ Stop res' (room - (w ++ items.flatMap dst).length) rest) := by
  intro n
  induction n using Nat.strongRecOn with
  | _ n ih =>
  intro s w res hn hw
  rw [loop]
  by_cases hs : s.length = 0
  · rw [if_pos hs]
    have : s = [] := List.length_eq_zero_iff.mp hs
    subst this
    exact ⟨[], [], res, by simp, by simp, by simpa using hw, by simp, .inl ⟨rfl, rfl⟩⟩
  · rw [if_neg hs]
    have hne : s ≠ [] := by intro h; simp [h] at hs
    rcases hstep (room - w.length) s hne with ⟨i, tail, hg, he, hi, hl, h⟩ | ⟨r, hst, h⟩
    · rw [h]
      dsimp only
      have hpos : 0 < (src i).length := List.length_pos_iff.mpr hi
      have hsl : s.length = (src i).length + tail.length := by rw [he]; simp
      rw [if_neg (by omega)]
      have hd : s.drop (src i).length = tail := by rw [he]; simp
      rw [hd]
      obtain ⟨items, rest, res', h1, h2, h3, h4, h5⟩ := ih tail.length (by omega) tail (w ++ dst i) ((mark i).getD res) rfl
        (by simp; omega)
      refine ⟨i :: items, rest, res', by rw [h1]; simp, by rw [he, h2]; simp, by simpa using h3, ?_, by simpa using h5⟩
      intro t1 j t2 ht
      cases t1 with
      | nil => simp at ht; obtain ⟨rfl, rfl⟩ := ht; rw [← h2]; exact hg
      | cons a t1 => simp at ht; exact h4 t1 j t2 ht.2
    · rw [h]
      exact ⟨[], s, r, by simp, by simp, by simpa using hw, by simp, .inr ⟨hne, by simpa using hst⟩⟩

/-! ## Writing UTF-8 -/

theorem follow_eq (ch : UInt32) : follow ch = UInt8.ofNat (0x80 + ch.toNat % 64) := by
  unfold follow
  have h : ((ch ||| 0x80) &&& 0xBF).toUInt8 = (ch.toUInt8 ||| 0x80) &&& 0xBF := by simp
  have hb : ∀ b : UInt8, (b ||| 0x80) &&& 0xBF = UInt8.ofNat (0x80 + b.toNat % 64) := by
    apply forall_uint8; decide +kernel
  rw [h, hb]
  congr 2
  simp

theorem first2 (ch : UInt32) (h : ch.toNat < 0x800) :
    ((ch >>> 6) ||| firstByteMark 2).toUInt8 = UInt8.ofNat (0xC0 + ch.toNat / 64) := by
  have hb : ∀ b : UInt8, b.toNat < 32 → b ||| 0xC0 = UInt8.ofNat (0xC0 + b.toNat) := by
    apply forall_uint8; decide +kernel
  have e : ((ch >>> 6) ||| firstByteMark 2).toUInt8 = (ch >>> 6).toUInt8 ||| 0xC0 := by simp [firstByteMark]
  have hn : (ch >>> 6).toUInt8.toNat = ch.toNat / 64 := by
    simp [Nat.shiftRight_eq_div_pow]; omega
  rw [e, hb _ (by omega), hn]

theorem first3 (ch : UInt32) (h : ch.toNat < 0x10000) :
    ((ch >>> 6 >>> 6) ||| firstByteMark 3).toUInt8 = UInt8.ofNat (0xE0 + ch.toNat / 4096) := by
  have hb : ∀ b : UInt8, b.toNat < 16 → b ||| 0xE0 = UInt8.ofNat (0xE0 + b.toNat) := by
    apply forall_uint8; decide +kernel
  have e : ((ch >>> 6 >>> 6) ||| firstByteMark 3).toUInt8 = (ch >>> 6 >>> 6).toUInt8 ||| 0xE0 := by simp [firstByteMark]
  have hn : (ch >>> 6 >>> 6).toUInt8.toNat = ch.toNat / 4096 := by
    simp [Nat.shiftRight_eq_div_pow]; omega
  rw [e, hb _ (by omega), hn]

theorem first4 (ch : UInt32) (h : ch.toNat ≤ 0x10FFFF) :
    ((ch >>> 6 >>> 6 >>> 6) ||| firstByteMark 4).toUInt8 = UInt8.ofNat (0xF0 + ch.toNat / 262144) := by
  have hb : ∀ b : UInt8, b.toNat < 8 → b ||| 0xF0 = UInt8.ofNat (0xF0 + b.toNat) := by
    apply forall_uint8; decide +kernel
  have e : ((ch >>> 6 >>> 6 >>> 6) ||| firstByteMark 4).toUInt8 = (ch >>> 6 >>> 6 >>> 6).toUInt8 ||| 0xF0 := by simp [firstByteMark]
  have hn : (ch >>> 6 >>> 6 >>> 6).toUInt8.toNat = ch.toNat / 262144 := by
    simp [Nat.shiftRight_eq_div_pow]; omega
  rw [e, hb _ (by omega), hn]

theorem shift6 (ch : UInt32) : (ch >>> 6).toNat = ch.toNat / 64 := by
  simp [Nat.shiftRight_eq_div_pow]

/-- How many bytes a character takes. -/
def sizeOf8 (c : Nat) : Nat := if c < 0x80 then 1 else if c < 0x800 then 2 else if c < 0x10000 then 3 else 4

theorem utf8_length (c : Nat) : (utf8 c).length = sizeOf8 c := by
  unfold utf8 sizeOf8; repeat' split
  all_goals rfl

theorem bytesOf_eq (ch : UInt32) (h : ch.toNat ≤ 0x10FFFF) : bytesOf ch (sizeOf8 ch.toNat) = utf8 ch.toNat := by
  unfold sizeOf8 utf8
  by_cases h1 : ch.toNat < 0x80
  · simp only [if_pos h1, bytesOf]
    congr 1
    apply UInt8.toNat_inj.mp
    simp [firstByteMark]
  · simp only [if_neg h1]
    by_cases h2 : ch.toNat < 0x800
    · simp only [if_pos h2, bytesOf, first2 ch h2, follow_eq]
    · simp only [if_neg h2]
      by_cases h3 : ch.toNat < 0x10000
      · simp only [if_pos h3, bytesOf, first3 ch h3, follow_eq, shift6]
      · simp only [if_neg h3, bytesOf, first4 ch h, follow_eq, shift6, Nat.div_div_eq_div_mul]

/-! ## Writing UTF-16 -/

theorem surrogates_eq (ch : UInt32) (h1 : 0x10000 ≤ ch.toNat) (h2 : ch.toNat ≤ 0x10FFFF) :
    surrogates ch = utf16 ch.toNat := by
  unfold surrogates utf16
  rw [if_neg (by omega)]
  have hs : (ch - 0x10000).toNat = ch.toNat - 0x10000 := by
    rw [UInt32.toNat_sub_of_le]
    · rfl
    · exact UInt32.le_iff_toNat_le.mpr (by simpa using h1)
  dsimp only
  have hm : ∀ x : UInt32, (x &&& 0x3FF).toNat = x.toNat % 0x400 := by
    intro x
    rw [UInt32.toNat_and]
    exact Nat.and_two_pow_sub_one_eq_mod x.toNat 10
  have e1 : (((ch - 0x10000) >>> 10) + 0xD800).toUInt16 = UInt16.ofNat (0xD800 + (ch.toNat - 0x10000) / 0x400) := by
    apply UInt16.toNat_inj.mp
    simp only [UInt32.toNat_toUInt16, UInt32.toNat_add, UInt32.toNat_shiftRight, hs, UInt16.toNat_ofNat', Nat.shiftRight_eq_div_pow,
      UInt32.toNat_ofNat]
    simp; omega
  have e2 : (((ch - 0x10000) &&& 0x3FF) + 0xDC00).toUInt16 = UInt16.ofNat (0xDC00 + (ch.toNat - 0x10000) % 0x400) := by
    apply UInt16.toNat_inj.mp
    simp only [UInt32.toNat_toUInt16, UInt32.toNat_add, hm, hs, UInt16.toNat_ofNat', UInt32.toNat_ofNat]
    omega
  rw [e1, e2]

theorem toUInt16_eq (ch : UInt32) (h : ch.toNat < 0x10000) : [ch.toUInt16] = utf16 ch.toNat := by
  unfold utf16
  rw [if_pos h]
  have : ch.toUInt16 = UInt16.ofNat ch.toNat := by
    apply UInt16.toNat_inj.mp
    simp
  rw [this]

/-! ## Reading UTF-16 -/

theorem isHigh_iff (ch : UInt32) : isHigh ch = true ↔ HighSurrogate ch.toNat := by
  simp [isHigh, HighSurrogate, UInt32.le_iff_toNat_le]

theorem isLow_iff (ch : UInt32) : isLow ch = true ↔ LowSurrogate ch.toNat := by
  simp [isLow, LowSurrogate, UInt32.le_iff_toNat_le]

theorem isSurrogate_iff (ch : UInt32) : isSurrogate ch = true ↔ Surrogate ch.toNat := by
  simp [isSurrogate, Surrogate, UInt32.le_iff_toNat_le]

theorem unit_zero {α : Type} (x : α) (s : List α) : unit (x :: s) 0 = .ok x := rfl
theorem unit_one {α : Type} (x y : α) (s : List α) : unit (x :: y :: s) 1 = .ok y := rfl
theorem unit_two {α : Type} (x y z : α) (s : List α) : unit (x :: y :: z :: s) 2 = .ok z := rfl
theorem unit_three {α : Type} (x y z w : α) (s : List α) : unit (x :: y :: z :: w :: s) 3 = .ok w := rfl

theorem utf16_length (c : Nat) : (utf16 c).length = if c < 0x10000 then 1 else 2 := by
  unfold utf16; split <;> rfl

theorem pair_value (u v : UInt16) (hu : HighSurrogate u.toNat) (hv : LowSurrogate v.toNat) :
    ((u.toUInt32 - 0xD800) <<< 10) + (v.toUInt32 - 0xDC00) + 0x10000
      = UInt32.ofNat (0x10000 + (u.toNat - 0xD800) * 0x400 + (v.toNat - 0xDC00)) := by
  unfold HighSurrogate at hu
  unfold LowSurrogate at hv
  have h1 : (u.toUInt32 - 0xD800).toNat = u.toNat - 0xD800 := by
    rw [UInt32.toNat_sub_of_le]
    · simp
    · exact UInt32.le_iff_toNat_le.mpr (by simpa using hu.1)
  have h2 : (v.toUInt32 - 0xDC00).toNat = v.toNat - 0xDC00 := by
    rw [UInt32.toNat_sub_of_le]
    · simp
    · exact UInt32.le_iff_toNat_le.mpr (by simpa using hv.1)
  apply UInt32.toNat_inj.mp
  simp only [UInt32.toNat_add, UInt32.toNat_shiftLeft, h1, h2, UInt32.toNat_ofNat', UInt32.toNat_ofNat, Nat.shiftLeft_eq]
  simp; omega

theorem utf16_pair (u v : UInt16) (hu : HighSurrogate u.toNat) (hv : LowSurrogate v.toNat) :
    utf16 (0x10000 + (u.toNat - 0xD800) * 0x400 + (v.toNat - 0xDC00)) = [u, v] := by
  unfold HighSurrogate at hu
  unfold LowSurrogate at hv
  unfold utf16
  rw [if_neg (by omega)]
  have e1 : UInt16.ofNat (0xD800 + (0x10000 + (u.toNat - 0xD800) * 0x400 + (v.toNat - 0xDC00) - 0x10000) / 0x400) = u := by
    apply UInt16.toNat_inj.mp; simp only [UInt16.toNat_ofNat']; omega
  have e2 : UInt16.ofNat (0xDC00 + (0x10000 + (u.toNat - 0xD800) * 0x400 + (v.toNat - 0xDC00) - 0x10000) % 0x400) = v := by
    apply UInt16.toNat_inj.mp; simp only [UInt16.toNat_ofNat']; omega
  rw [e1, e2]

theorem utf16_single (u : UInt16) : utf16 u.toNat = [u] := by
  unfold utf16
  have := u.toNat_lt
  rw [if_pos (by omega)]
  simp

theorem toUInt32_eq (u : UInt16) : u.toUInt32 = UInt32.ofNat u.toNat := by
  apply UInt32.toNat_inj.mp; simp

theorem read16_pair (flags : Flags) (u v : UInt16) (H : HighSurrogate u.toNat) (L : LowSurrogate v.toNat) (tail : List UInt16) :
    read16 flags (u :: v :: tail)
      = .ok (.inr (UInt32.ofNat (0x10000 + (u.toNat - 0xD800) * 0x400 + (v.toNat - 0xDC00)), 2)) := by
  have bh : isHigh u.toUInt32 = true := by rw [isHigh_iff, UInt16.toNat_toUInt32]; exact H
  have bl : isLow v.toUInt32 = true := by rw [isLow_iff, UInt16.toNat_toUInt32]; exact L
  rw [← pair_value u v H L]
  unfold read16
  simp [unit_zero, unit_one, bh, bl]

theorem read16_plain (flags : Flags) (u : UInt16) (h : ¬ HighSurrogate u.toNat ∧ ¬ LowSurrogate u.toNat) (tail : List UInt16) :
    read16 flags (u :: tail) = .ok (.inr (UInt32.ofNat u.toNat, 1)) := by
  have bh : ¬ isHigh u.toUInt32 = true := by rw [isHigh_iff, UInt16.toNat_toUInt32]; exact h.1
  have bl : ¬ isLow u.toUInt32 = true := by rw [isLow_iff, UInt16.toNat_toUInt32]; exact h.2
  rw [← toUInt32_eq]
  unfold read16
  by_cases hf : flags = .strict <;> simp [unit_zero, bh, bl, hf]

theorem utf16_cases (c : Nat) (hc : Scalar c) :
    (∃ u : UInt16, utf16 c = [u] ∧ u.toNat = c ∧ ¬ HighSurrogate u.toNat ∧ ¬ LowSurrogate u.toNat)
    ∨ ∃ u v : UInt16, utf16 c = [u, v] ∧ HighSurrogate u.toNat ∧ LowSurrogate v.toNat
        ∧ 0x10000 + (u.toNat - 0xD800) * 0x400 + (v.toNat - 0xDC00) = c := by
  unfold Scalar at hc
  unfold utf16
  split
  · left
    have hn : (UInt16.ofNat c).toNat = c := by simp only [UInt16.toNat_ofNat']; omega
    refine ⟨_, rfl, hn, ?_, ?_⟩
    · rw [hn]; unfold HighSurrogate; omega
    · rw [hn]; unfold LowSurrogate; omega
  · right
    have hu : (UInt16.ofNat (0xD800 + (c - 0x10000) / 0x400)).toNat = 0xD800 + (c - 0x10000) / 0x400 := by
      simp only [UInt16.toNat_ofNat']; omega
    have hv : (UInt16.ofNat (0xDC00 + (c - 0x10000) % 0x400)).toNat = 0xDC00 + (c - 0x10000) % 0x400 := by
      simp only [UInt16.toNat_ofNat']; omega
    refine ⟨_, _, rfl, ?_, ?_, ?_⟩
    · rw [hu]; unfold HighSurrogate; omega
    · rw [hv]; unfold LowSurrogate; omega
    · rw [hu, hv]; omega

/-- Reading a character of well-formed UTF-16. -/
theorem read16_enc (flags : Flags) (c : Nat) (hc : Scalar c) (tail : List UInt16) :
    read16 flags (utf16 c ++ tail) = .ok (.inr (UInt32.ofNat c, (utf16 c).length)) := by
  rcases utf16_cases c hc with ⟨u, he, hu, h⟩ | ⟨u, v, he, H, L, hv⟩
  · rw [he]
    have := read16_plain flags u h tail
    rw [hu] at this
    exact this
  · rw [he]
    have := read16_pair flags u v H L tail
    rw [hv] at this
    exact this

/-- Strict reading of UTF-16. -/
theorem read16_strict (s : List UInt16) (hs : s ≠ []) :
    (∃ c tail, Scalar c ∧ s = utf16 c ++ tail ∧ read16 .strict s = .ok (.inr (UInt32.ofNat c, (utf16 c).length)))
    ∨ (NoCharacter (Writes utf16) s ∧ Short16 s ∧ read16 .strict s = .ok (.inl .sourceExhausted))
    ∨ (NoCharacter (Writes utf16) s ∧ ¬ Short16 s ∧ read16 .strict s = .ok (.inl .sourceIllegal)) := by
  by_cases hc : ∃ c tail, Scalar c ∧ s = utf16 c ++ tail
  · left
    obtain ⟨c, tail, h1, rfl⟩ := hc
    exact ⟨c, tail, h1, rfl, read16_enc _ c h1 tail⟩
  · right
    have hno : NoCharacter (Writes utf16) s := by
      rintro ⟨u, c, tail, ⟨h1, rfl⟩, h2⟩; exact hc ⟨c, tail, h1, h2⟩
    obtain ⟨u, tl, rfl⟩ := List.exists_cons_of_ne_nil hs
    by_cases hh : isHigh u.toUInt32 = true
    · have H := (isHigh_iff _).mp hh
      rw [UInt16.toNat_toUInt32] at H
      cases tl with
      | nil =>
        left
        refine ⟨hno, ⟨u, rfl, H⟩, ?_⟩
        unfold read16
        simp [unit_zero, hh]
      | cons v tl =>
        right
        refine ⟨hno, by rintro ⟨x, hx, _⟩; simp at hx, ?_⟩
        have hl : ¬ isLow v.toUInt32 = true := by
          intro hl
          have L := (isLow_iff _).mp hl
          rw [UInt16.toNat_toUInt32] at L
          apply hc
          refine ⟨_, tl, ?_, by rw [utf16_pair u v H L]; rfl⟩
          unfold HighSurrogate at H; unfold LowSurrogate at L; unfold Scalar; omega
        unfold read16
        simp [unit_zero, unit_one, hh, hl]
    · right
      have hl : isLow u.toUInt32 = true := by
        rw [isLow_iff]
        apply Classical.byContradiction
        intro hl
        rw [isHigh_iff] at hh
        rw [UInt16.toNat_toUInt32] at hh hl
        apply hc
        refine ⟨u.toNat, tl, ?_, by rw [utf16_single]; rfl⟩
        unfold HighSurrogate at hh; unfold LowSurrogate at hl; unfold Scalar
        have := u.toNat_lt
        omega
      refine ⟨hno, ?_, ?_⟩
      · rintro ⟨x, hx, h1⟩
        simp at hx
        obtain ⟨rfl, rfl⟩ := hx
        apply hh
        rw [isHigh_iff, UInt16.toNat_toUInt32]
        exact h1
      · unfold read16
        simp [unit_zero, hh, hl]

/-- Lenient reading of UTF-16. -/
theorem read16_lenient (s : List UInt16) (hs : s ≠ []) :
    (∃ c tail, (c ≤ 0x10FFFF ∧ (HighSurrogate c → tail ≠ [] ∧ ∀ u t, tail = u :: t → ¬ LowSurrogate u.toNat))
      ∧ s = utf16 c ++ tail ∧ read16 .lenient s = .ok (.inr (UInt32.ofNat c, (utf16 c).length)))
    ∨ (Short16 s ∧ read16 .lenient s = .ok (.inl .sourceExhausted)) := by
  obtain ⟨u, tl, rfl⟩ := List.exists_cons_of_ne_nil hs
  have hlt := u.toNat_lt
  by_cases hh : isHigh u.toUInt32 = true
  · have H := (isHigh_iff _).mp hh
    rw [UInt16.toNat_toUInt32] at H
    cases tl with
    | nil =>
      right
      refine ⟨⟨u, rfl, H⟩, ?_⟩
      unfold read16
      simp [unit_zero, hh]
    | cons v tl =>
      left
      by_cases hl : isLow v.toUInt32 = true
      · have L := (isLow_iff _).mp hl
        rw [UInt16.toNat_toUInt32] at L
        have hp := utf16_pair u v H L
        have hr : Scalar (0x10000 + (u.toNat - 0xD800) * 0x400 + (v.toNat - 0xDC00)) := by
          unfold HighSurrogate at H; unfold LowSurrogate at L; unfold Scalar; omega
        refine ⟨_, tl, ⟨?_, ?_⟩, by rw [hp]; rfl, ?_⟩
        · unfold HighSurrogate at H; unfold LowSurrogate at L; omega
        · intro h; exfalso; unfold HighSurrogate at H h; unfold LowSurrogate at L; omega
        · have := read16_enc .lenient _ hr tl
          rw [hp] at this ⊢
          exact this
      · refine ⟨u.toNat, v :: tl, ⟨by omega, ?_⟩, by rw [utf16_single]; rfl, ?_⟩
        · intro _
          refine ⟨by simp, ?_⟩
          rintro x t ht
          simp at ht
          rw [← ht.1]
          rw [isLow_iff, UInt16.toNat_toUInt32] at hl
          exact hl
        · unfold read16
          simp [unit_zero, unit_one, hh, hl, utf16_single]
  · left
    refine ⟨u.toNat, tl, ⟨by omega, ?_⟩, by rw [utf16_single]; rfl, ?_⟩
    · intro h; exfalso; apply hh; rw [isHigh_iff, UInt16.toNat_toUInt32]; exact h
    · unfold read16
      simp [unit_zero, hh, utf16_single]

/-! ## Reading UTF-8 -/

theorem byte_toNat (b : UInt8) : b.toUInt32.toNat = b.toNat := by simp

theorem gather1 (b : UInt8) (tl : Bytes) : gather (b :: tl) 0 0 0 = .ok (UInt32.ofNat b.toNat) := by
  simp only [gather, unit_zero, Outcome.ok_bind, Outcome.pure_eq]
  refine congrArg Outcome.ok ?_
  apply UInt32.toNat_inj.mp
  simp

theorem value2 (b a : UInt8) (h : 0x3080 ≤ b.toNat * 64 + a.toNat) (tl : Bytes) :
    (gather (b :: a :: tl) 0 1 0 >>= fun x => (.ok (x - offsets 1) : Outcome UInt32))
      = .ok (UInt32.ofNat (b.toNat * 64 + a.toNat - 0x3080)) := by
  have h1 := b.toNat_lt
  have h2 := a.toNat_lt
  simp only [gather, unit_zero, unit_one, Outcome.ok_bind, Outcome.pure_eq]
  refine congrArg Outcome.ok ?_
  apply UInt32.toNat_inj.mp
  have e : ((0 + b.toUInt32) <<< 6 + a.toUInt32).toNat = b.toNat * 64 + a.toNat := by
    simp only [UInt32.toNat_add, UInt32.toNat_shiftLeft, byte_toNat, Nat.shiftLeft_eq, UInt32.toNat_ofNat]
    simp; omega
  rw [UInt32.toNat_sub_of_le]
  · rw [e]; simp only [offsets, UInt32.toNat_ofNat', UInt32.toNat_ofNat]; omega
  · rw [UInt32.le_iff_toNat_le, e]; simp only [offsets, UInt32.toNat_ofNat]; omega

theorem value3 (b a c : UInt8) (h : 0xE2080 ≤ b.toNat * 4096 + a.toNat * 64 + c.toNat) (tl : Bytes) :
    (gather (b :: a :: c :: tl) 0 2 0 >>= fun x => (.ok (x - offsets 2) : Outcome UInt32))
      = .ok (UInt32.ofNat (b.toNat * 4096 + a.toNat * 64 + c.toNat - 0xE2080)) := by
  have h1 := b.toNat_lt
  have h2 := a.toNat_lt
  have h3 := c.toNat_lt
  simp only [gather, unit_zero, unit_one, unit_two, Outcome.ok_bind, Outcome.pure_eq]
  refine congrArg Outcome.ok ?_
  apply UInt32.toNat_inj.mp
  have e : (((0 + b.toUInt32) <<< 6 + a.toUInt32) <<< 6 + c.toUInt32).toNat = b.toNat * 4096 + a.toNat * 64 + c.toNat := by
    simp only [UInt32.toNat_add, UInt32.toNat_shiftLeft, byte_toNat, Nat.shiftLeft_eq, UInt32.toNat_ofNat]
    simp; omega
  rw [UInt32.toNat_sub_of_le]
  · rw [e]; simp only [offsets, UInt32.toNat_ofNat', UInt32.toNat_ofNat]; omega
  · rw [UInt32.le_iff_toNat_le, e]; simp only [offsets, UInt32.toNat_ofNat]; omega

theorem value4 (b a c d : UInt8) (h : 0x3C82080 ≤ b.toNat * 262144 + a.toNat * 4096 + c.toNat * 64 + d.toNat) (tl : Bytes) :
    (gather (b :: a :: c :: d :: tl) 0 3 0 >>= fun x => (.ok (x - offsets 3) : Outcome UInt32))
      = .ok (UInt32.ofNat (b.toNat * 262144 + a.toNat * 4096 + c.toNat * 64 + d.toNat - 0x3C82080)) := by
  have h1 := b.toNat_lt
  have h2 := a.toNat_lt
  have h3 := c.toNat_lt
  have h4 := d.toNat_lt
  simp only [gather, unit_zero, unit_one, unit_two, unit_three, Outcome.ok_bind, Outcome.pure_eq]
  refine congrArg Outcome.ok ?_
  apply UInt32.toNat_inj.mp
  have e : ((((0 + b.toUInt32) <<< 6 + a.toUInt32) <<< 6 + c.toUInt32) <<< 6 + d.toUInt32).toNat
      = b.toNat * 262144 + a.toNat * 4096 + c.toNat * 64 + d.toNat := by
    simp only [UInt32.toNat_add, UInt32.toNat_shiftLeft, byte_toNat, Nat.shiftLeft_eq, UInt32.toNat_ofNat]
    simp; omega
  rw [UInt32.toNat_sub_of_le]
  · rw [e]; simp only [offsets, UInt32.toNat_ofNat', UInt32.toNat_ofNat]; omega
  · rw [UInt32.le_iff_toNat_le, e]; simp only [offsets, UInt32.toNat_ofNat]; omega

/-- The second bytes that are let through. -/
def Second (b a : Nat) : Prop :=
  a ≤ 0xBF ∧ (b ≠ 0xED → b ≠ 0xF4 → 0x80 ≤ a)
    ∧ (b = 0xE0 → 0xA0 ≤ a) ∧ (b = 0xED → a ≤ 0x9F) ∧ (b = 0xF0 → 0x90 ≤ a) ∧ (b = 0xF4 → a ≤ 0x8F)

instance (b a : Nat) : Decidable (Second b a) := by unfold Second; infer_instance

theorem legal1_eq (b : UInt8) (tl : Bytes) :
    legal1 (b :: tl) = .ok (decide (b.toNat < 0x80 ∨ 0xC2 ≤ b.toNat ∧ b.toNat ≤ 0xF4)) := by
  unfold legal1
  simp only [unit_zero, Outcome.ok_bind, Outcome.pure_eq, UInt8.le_iff_toNat_le, UInt8.lt_iff_toNat_lt, UInt8.toNat_ofNat,
    Bool.and_eq_true, decide_eq_true_eq]
  by_cases h1 : 0x80 ≤ b.toNat ∧ b.toNat < 0xC2
  · simp [h1]; omega
  · by_cases h2 : 0xF4 < b.toNat
    · simp [h1, h2]; omega
    · simp [h1, h2]; omega

theorem legal2_eq (b a : UInt8) (tl : Bytes) :
    legal2 (b :: a :: tl)
      = .ok (decide (Second b.toNat a.toNat ∧ (b.toNat < 0x80 ∨ 0xC2 ≤ b.toNat ∧ b.toNat ≤ 0xF4))) := by
  unfold legal2
  have hn : ∀ k : UInt8, b = k ↔ b.toNat = k.toNat := fun k => UInt8.toNat_inj.symm
  simp only [unit_zero, unit_one, Outcome.ok_bind, Outcome.pure_eq, UInt8.lt_iff_toNat_lt, UInt8.toNat_ofNat, hn, legal1_eq]
  unfold Second
  repeat' split
  all_goals
    refine congrArg Outcome.ok ?_
    first | (symm; rw [decide_eq_false_iff_not]; omega) | (rw [decide_eq_decide]; omega)

theorem legal3_eq (b a c : UInt8) (tl : Bytes) :
    legal3 (b :: a :: c :: tl)
      = .ok (decide ((0x80 ≤ c.toNat ∧ c.toNat ≤ 0xBF) ∧ Second b.toNat a.toNat ∧ (b.toNat < 0x80 ∨ 0xC2 ≤ b.toNat ∧ b.toNat ≤ 0xF4))) := by
  unfold legal3
  simp only [unit_two, Outcome.ok_bind, Outcome.pure_eq, UInt8.lt_iff_toNat_lt, UInt8.toNat_ofNat, legal2_eq, Bool.or_eq_true,
    decide_eq_true_eq]
  split
  · refine congrArg Outcome.ok ?_; symm; rw [decide_eq_false_iff_not]; omega
  · refine congrArg Outcome.ok ?_; rw [decide_eq_decide]; constructor
    · intro h; exact ⟨by omega, h⟩
    · exact fun h => h.2

theorem legal4_eq (b a c d : UInt8) (tl : Bytes) :
    legal4 (b :: a :: c :: d :: tl)
      = .ok (decide ((0x80 ≤ d.toNat ∧ d.toNat ≤ 0xBF) ∧ (0x80 ≤ c.toNat ∧ c.toNat ≤ 0xBF) ∧ Second b.toNat a.toNat
          ∧ (b.toNat < 0x80 ∨ 0xC2 ≤ b.toNat ∧ b.toNat ≤ 0xF4))) := by
  unfold legal4
  simp only [unit_three, Outcome.ok_bind, Outcome.pure_eq, UInt8.lt_iff_toNat_lt, UInt8.toNat_ofNat, legal3_eq, Bool.or_eq_true,
    decide_eq_true_eq]
  split
  · refine congrArg Outcome.ok ?_; symm; rw [decide_eq_false_iff_not]; omega
  · refine congrArg Outcome.ok ?_; rw [decide_eq_decide]; constructor
    · intro h; exact ⟨by omega, h⟩
    · exact fun h => h.2

theorem trailing_eq (b : UInt8) : trailing b + 1 = promised b := by
  unfold trailing promised
  simp only [UInt8.lt_iff_toNat_lt, UInt8.toNat_ofNat]
  repeat' split
  all_goals rfl

theorem trailing_of (b : UInt8) : 
    (b.toNat < 0xC0 ∧ trailing b = 0) ∨ (0xC0 ≤ b.toNat ∧ b.toNat < 0xE0 ∧ trailing b = 1)
    ∨ (0xE0 ≤ b.toNat ∧ b.toNat < 0xF0 ∧ trailing b = 2) ∨ (0xF0 ≤ b.toNat ∧ b.toNat < 0xF8 ∧ trailing b = 3)
    ∨ (0xF8 ≤ b.toNat ∧ 4 ≤ trailing b) := by
  unfold trailing
  simp only [UInt8.lt_iff_toNat_lt, UInt8.toNat_ofNat]
  repeat' split
  all_goals omega

theorem read8_one (b : UInt8) (h : b.toNat < 0x80) (tl : Bytes) :
    read8 (b :: tl) = .ok (.inr (UInt32.ofNat b.toNat, 1)) := by
  have ht : trailing b = 0 := by have := trailing_of b; omega
  unfold read8
  simp only [unit_zero, Outcome.ok_bind, ht, isLegal, legal1_eq, gather1, Outcome.pure_eq, offsets]
  simp [h]

theorem read8_two (b a : UInt8) (hb : 0xC2 ≤ b.toNat ∧ b.toNat < 0xE0) (ha : 0x80 ≤ a.toNat ∧ a.toNat ≤ 0xBF) (tl : Bytes) :
    read8 (b :: a :: tl) = .ok (.inr (UInt32.ofNat (b.toNat * 64 + a.toNat - 0x3080), 2)) := by
  have ht : trailing b = 1 := by have := trailing_of b; omega
  have hv := value2 b a (by omega) tl
  obtain ⟨x, hx, hx'⟩ := Outcome.bind_eq_ok.mp hv
  have hl : Second b.toNat a.toNat ∧ (b.toNat < 0x80 ∨ 0xC2 ≤ b.toNat ∧ b.toNat ≤ 0xF4) := by unfold Second; omega
  unfold read8
  simp only [unit_zero, Outcome.ok_bind, ht, isLegal, legal2_eq, hx, Outcome.pure_eq, decide_eq_true hl]
  simp only [Outcome.ok.injEq] at hx'
  simp [hx']

theorem read8_three (b a c : UInt8) (hb : 0xE0 ≤ b.toNat ∧ b.toNat < 0xF0) (ha : Second b.toNat a.toNat)
    (hc : 0x80 ≤ c.toNat ∧ c.toNat ≤ 0xBF) (tl : Bytes) :
    read8 (b :: a :: c :: tl) = .ok (.inr (UInt32.ofNat (b.toNat * 4096 + a.toNat * 64 + c.toNat - 0xE2080), 3)) := by
  have ht : trailing b = 2 := by have := trailing_of b; omega
  have hv := value3 b a c (by unfold Second at ha; omega) tl
  obtain ⟨x, hx, hx'⟩ := Outcome.bind_eq_ok.mp hv
  have hl : (0x80 ≤ c.toNat ∧ c.toNat ≤ 0xBF) ∧ Second b.toNat a.toNat
      ∧ (b.toNat < 0x80 ∨ 0xC2 ≤ b.toNat ∧ b.toNat ≤ 0xF4) := ⟨hc, ha, by omega⟩
  unfold read8
  simp only [unit_zero, Outcome.ok_bind, ht, isLegal, legal3_eq, hx, Outcome.pure_eq, decide_eq_true hl]
  simp only [Outcome.ok.injEq] at hx'
  simp [hx']

theorem read8_four (b a c d : UInt8) (hb : 0xF0 ≤ b.toNat ∧ b.toNat ≤ 0xF4) (ha : Second b.toNat a.toNat)
    (hc : 0x80 ≤ c.toNat ∧ c.toNat ≤ 0xBF) (hd : 0x80 ≤ d.toNat ∧ d.toNat ≤ 0xBF) (tl : Bytes) :
    read8 (b :: a :: c :: d :: tl)
      = .ok (.inr (UInt32.ofNat (b.toNat * 262144 + a.toNat * 4096 + c.toNat * 64 + d.toNat - 0x3C82080), 4)) := by
  have ht : trailing b = 3 := by have := trailing_of b; omega
  have hv := value4 b a c d (by unfold Second at ha; omega) tl
  obtain ⟨x, hx, hx'⟩ := Outcome.bind_eq_ok.mp hv
  have hl : (0x80 ≤ d.toNat ∧ d.toNat ≤ 0xBF) ∧ (0x80 ≤ c.toNat ∧ c.toNat ≤ 0xBF) ∧ Second b.toNat a.toNat
      ∧ (b.toNat < 0x80 ∨ 0xC2 ≤ b.toNat ∧ b.toNat ≤ 0xF4) := ⟨hd, hc, ha, by omega⟩
  unfold read8
  simp only [unit_zero, Outcome.ok_bind, ht, isLegal, legal4_eq, hx, Outcome.pure_eq, decide_eq_true hl]
  simp only [Outcome.ok.injEq] at hx'
  simp [hx']

theorem ofNat_small (n : Nat) (h : n < 256) : (UInt8.ofNat n).toNat = n := by
  simp only [UInt8.toNat_ofNat']; omega

/-- Reading what counts as a character. -/
theorem read8_reads (u : Bytes) (c : Nat) (h : Reads8 u c) (tail : Bytes) :
    read8 (u ++ tail) = .ok (.inr (UInt32.ofNat c, u.length)) := by
  rcases h with ⟨hc, rfl⟩ | ⟨a, x, rfl, ha, hx, hx', hc⟩ | ⟨a, x, y, rfl, ha, hx, hx', hy, hy', hc⟩
  · unfold Scalar at hc
    unfold utf8
    by_cases h1 : c < 0x80
    · rw [if_pos h1]
      have := read8_one (UInt8.ofNat c) (by rw [ofNat_small _ (by omega)]; exact h1) tail
      rw [ofNat_small _ (by omega)] at this
      exact this
    rw [if_neg h1]
    by_cases h2 : c < 0x800
    · rw [if_pos h2]
      have := read8_two (UInt8.ofNat (0xC0 + c / 64)) (UInt8.ofNat (0x80 + c % 64))
        (by rw [ofNat_small _ (by omega)]; omega) (by rw [ofNat_small _ (by omega)]; omega) tail
      rw [ofNat_small _ (by omega), ofNat_small _ (by omega),
        show (0xC0 + c / 64) * 64 + (0x80 + c % 64) - 0x3080 = c by omega] at this
      exact this
    rw [if_neg h2]
    by_cases h3 : c < 0x10000
    · rw [if_pos h3]
      have := read8_three (UInt8.ofNat (0xE0 + c / 4096)) (UInt8.ofNat (0x80 + c / 64 % 64)) (UInt8.ofNat (0x80 + c % 64))
        (by rw [ofNat_small _ (by omega)]; omega)
        (by rw [ofNat_small _ (by omega), ofNat_small _ (by omega)]; unfold Second; omega)
        (by rw [ofNat_small _ (by omega)]; omega) tail
      rw [ofNat_small _ (by omega), ofNat_small _ (by omega), ofNat_small _ (by omega),
        show (0xE0 + c / 4096) * 4096 + (0x80 + c / 64 % 64) * 64 + (0x80 + c % 64) - 0xE2080 = c by omega] at this
      exact this
    · rw [if_neg h3]
      have := read8_four (UInt8.ofNat (0xF0 + c / 262144)) (UInt8.ofNat (0x80 + c / 4096 % 64)) (UInt8.ofNat (0x80 + c / 64 % 64))
        (UInt8.ofNat (0x80 + c % 64))
        (by rw [ofNat_small _ (by omega)]; omega)
        (by rw [ofNat_small _ (by omega), ofNat_small _ (by omega)]; unfold Second; omega)
        (by rw [ofNat_small _ (by omega)]; omega) (by rw [ofNat_small _ (by omega)]; omega) tail
      rw [ofNat_small _ (by omega), ofNat_small _ (by omega), ofNat_small _ (by omega), ofNat_small _ (by omega),
        show (0xF0 + c / 262144) * 262144 + (0x80 + c / 4096 % 64) * 4096 + (0x80 + c / 64 % 64) * 64 + (0x80 + c % 64)
          - 0x3C82080 = c by omega] at this
      exact this
  · have := read8_three 0xED a x (by simp) (by simp only [UInt8.toNat_ofNat]; unfold Second; omega) ⟨hx, hx'⟩ tail
    simp only [UInt8.toNat_ofNat] at this
    rw [show 237 % 2 ^ 8 * 4096 + a.toNat * 64 + x.toNat - 0xE2080 = c by omega] at this
    exact this
  · have := read8_four 0xF4 a x y (by simp) (by simp only [UInt8.toNat_ofNat]; unfold Second; omega) ⟨hx, hx'⟩ ⟨hy, hy'⟩ tail
    simp only [UInt8.toNat_ofNat] at this
    rw [show 244 % 2 ^ 8 * 262144 + a.toNat * 4096 + x.toNat * 64 + y.toNat - 0x3C82080
      = c by omega] at this
    exact this

theorem eq_ofNat (b : UInt8) (n : Nat) (h : n = b.toNat) : UInt8.ofNat n = b := by
  apply UInt8.toNat_inj.mp
  have := b.toNat_lt
  simp only [UInt8.toNat_ofNat']; omega

theorem reads_one (b : UInt8) (h : b.toNat < 0x80) : ∃ c, Reads8 [b] c := by
  refine ⟨b.toNat, .inl ⟨by unfold Scalar; omega, ?_⟩⟩
  unfold utf8
  rw [if_pos h, eq_ofNat b _ rfl]

theorem reads_two (b a : UInt8) (hb : 0xC2 ≤ b.toNat ∧ b.toNat < 0xE0) (ha : 0x80 ≤ a.toNat ∧ a.toNat ≤ 0xBF) :
    ∃ c, Reads8 [b, a] c := by
  refine ⟨(b.toNat - 0xC0) * 64 + (a.toNat - 0x80), .inl ⟨by unfold Scalar; omega, ?_⟩⟩
  unfold utf8
  rw [if_neg (by omega), if_pos (by omega), eq_ofNat b _ (by omega), eq_ofNat a _ (by omega)]

theorem reads_three (b a x : UInt8) (hb : 0xE0 ≤ b.toNat ∧ b.toNat < 0xF0) (ha : Second b.toNat a.toNat)
    (hx : 0x80 ≤ x.toNat ∧ x.toNat ≤ 0xBF) : ∃ c, Reads8 [b, a, x] c := by
  by_cases hm : a.toNat < 0x80
  · have hbe : b = 0xED := by
      apply UInt8.toNat_inj.mp; unfold Second at ha; simp only [UInt8.toNat_ofNat]; omega
    subst hbe
    exact ⟨_, .inr (.inl ⟨a, x, rfl, hm, hx.1, hx.2, rfl⟩)⟩
  · unfold Second at ha
    refine ⟨(b.toNat - 0xE0) * 4096 + (a.toNat - 0x80) * 64 + (x.toNat - 0x80), .inl ⟨by unfold Scalar; omega, ?_⟩⟩
    unfold utf8
    rw [if_neg (by omega), if_neg (by omega), if_pos (by omega), eq_ofNat b _ (by omega), eq_ofNat a _ (by omega),
      eq_ofNat x _ (by omega)]

theorem reads_four (b a x y : UInt8) (hb : 0xF0 ≤ b.toNat ∧ b.toNat ≤ 0xF4) (ha : Second b.toNat a.toNat)
    (hx : 0x80 ≤ x.toNat ∧ x.toNat ≤ 0xBF) (hy : 0x80 ≤ y.toNat ∧ y.toNat ≤ 0xBF) : ∃ c, Reads8 [b, a, x, y] c := by
  by_cases hm : a.toNat < 0x80
  · have hbe : b = 0xF4 := by
      apply UInt8.toNat_inj.mp; unfold Second at ha; simp only [UInt8.toNat_ofNat]; omega
    subst hbe
    exact ⟨_, .inr (.inr ⟨a, x, y, rfl, hm, hx.1, hx.2, hy.1, hy.2, rfl⟩)⟩
  · unfold Second at ha
    refine ⟨(b.toNat - 0xF0) * 262144 + (a.toNat - 0x80) * 4096 + (x.toNat - 0x80) * 64 + (y.toNat - 0x80),
      .inl ⟨by unfold Scalar; omega, ?_⟩⟩
    unfold utf8
    rw [if_neg (by omega), if_neg (by omega), if_neg (by omega), eq_ofNat b _ (by omega), eq_ofNat a _ (by omega),
      eq_ofNat x _ (by omega), eq_ofNat y _ (by omega)]

theorem isLegal_large (s : Bytes) (n : Nat) (h : 5 ≤ n) : isLegal s n = .ok false := by
  match n, h with
  | n + 5, _ => rfl

/-- Whether a byte sequence is let through. -/
theorem isLegal_iff (b : UInt8) (tl : Bytes) (hl : trailing b < (b :: tl).length) :
    ∃ v, isLegal (b :: tl) (trailing b + 1) = .ok v ∧ (v = true → ∃ u c tail, Reads8 u c ∧ b :: tl = u ++ tail) := by
  rcases trailing_of b with ⟨h, ht⟩ | ⟨h, h', ht⟩ | ⟨h, h', ht⟩ | ⟨h, h', ht⟩ | ⟨h, ht⟩
  · rw [ht]
    refine ⟨_, legal1_eq b tl, ?_⟩
    intro hv
    rw [decide_eq_true_eq] at hv
    obtain ⟨c, hc⟩ := reads_one b (by omega)
    exact ⟨_, c, tl, hc, rfl⟩
  · rw [ht] at hl ⊢
    match tl, hl with
    | a :: tl, _ =>
      refine ⟨_, legal2_eq b a tl, ?_⟩
      intro hv
      rw [decide_eq_true_eq] at hv
      obtain ⟨c, hc⟩ := reads_two b a (by omega) (by unfold Second at hv; omega)
      exact ⟨_, c, tl, hc, rfl⟩
  · rw [ht] at hl ⊢
    match tl, hl with
    | a :: x :: tl, _ =>
      refine ⟨_, legal3_eq b a x tl, ?_⟩
      intro hv
      rw [decide_eq_true_eq] at hv
      obtain ⟨c, hc⟩ := reads_three b a x (by omega) hv.2.1 hv.1
      exact ⟨_, c, tl, hc, rfl⟩
    | [_], hl => simp at hl
  · rw [ht] at hl ⊢
    match tl, hl with
    | a :: x :: y :: tl, _ =>
      refine ⟨_, legal4_eq b a x y tl, ?_⟩
      intro hv
      rw [decide_eq_true_eq] at hv
      obtain ⟨c, hc⟩ := reads_four b a x y (by omega) hv.2.2.1 hv.2.1 hv.1
      exact ⟨_, c, tl, hc, rfl⟩
    | [_], hl | [_, _], hl => simp at hl
  · exact ⟨false, isLegal_large _ _ (by omega), by simp⟩

/-- Reading UTF-8. -/
theorem read8_total (s : Bytes) (hs : s ≠ []) :
    (∃ u c tail, Reads8 u c ∧ s = u ++ tail ∧ read8 s = .ok (.inr (UInt32.ofNat c, u.length)))
    ∨ (NoCharacter Reads8 s ∧ Short8 s ∧ read8 s = .ok (.inl .sourceExhausted))
    ∨ (NoCharacter Reads8 s ∧ ¬ Short8 s ∧ read8 s = .ok (.inl .sourceIllegal)) := by
  by_cases hc : ∃ u c tail, Reads8 u c ∧ s = u ++ tail
  · left
    obtain ⟨u, c, tail, h1, rfl⟩ := hc
    exact ⟨u, c, tail, h1, rfl, read8_reads u c h1 tail⟩
  · right
    obtain ⟨b, tl, rfl⟩ := List.exists_cons_of_ne_nil hs
    by_cases hl : (b :: tl).length ≤ trailing b
    · left
      refine ⟨hc, ⟨b, tl, rfl, by rw [← trailing_eq]; omega⟩, ?_⟩
      unfold read8
      simp only [unit_zero, Outcome.ok_bind, if_pos hl, Outcome.pure_eq]
    · right
      obtain ⟨v, h1, h2⟩ := isLegal_iff b tl (by omega)
      have hv : v = false := by
        cases v with
        | false => rfl
        | true => exact absurd (h2 rfl) hc
      subst hv
      refine ⟨hc, ?_, ?_⟩
      · rintro ⟨b', tl', he, h⟩
        injection he with e1 e2
        subst e1 e2
        rw [← trailing_eq] at h; omega
      · unfold read8
        simp only [unit_zero, Outcome.ok_bind, if_neg hl, h1]
        rfl

theorem reads_scalar (u : Bytes) (c : Nat) (h : Reads8 u c) : Scalar c ∧ u ≠ [] := by
  rcases h with ⟨h, rfl⟩ | ⟨a, x, rfl, ha, hx, hx', hc⟩ | ⟨a, x, y, rfl, ha, hx, hx', hy, hy', hc⟩
  · refine ⟨h, ?_⟩
    intro he
    have := congrArg List.length he
    rw [utf8_length] at this
    unfold sizeOf8 at this
    simp at this
    repeat' split at this
    all_goals simp at this
  · exact ⟨by unfold Scalar; omega, by simp⟩
  · exact ⟨by unfold Scalar; omega, by simp⟩

end Licensecc.Utf
