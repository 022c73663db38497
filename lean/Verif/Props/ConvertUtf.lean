import Verif.Lemmas.ConvertUtf
/-!
# C73: the Unicode conversions

`Spec/ConvertUtf` has the three encoding forms and the statement `Converted`.
-/
namespace Licensecc.Utf
open Licensecc.Spec.Utf

/-! ## From UTF-8 and UTF-16, one character after the other -/

/-- Why a conversion that keeps characters stops before the end of the source. -/
def StopsFor {α β : Type} (reads : List α → Nat → Prop) (short : List α → Prop) (target : Nat → List β) (r : Result)
    (room : Nat) (s : List α) : Prop :=
  match r with
  | .conversionOK => False
  | .sourceExhausted => NoCharacter reads s ∧ short s
  | .sourceIllegal => NoCharacter reads s ∧ ¬ short s
  | .targetExhausted => ∃ u c tail, reads u c ∧ s = u ++ tail ∧ room < (target c).length

theorem converted_of_steps {α β : Type} (step : Nat → List α → Outcome (Step β)) (reads : List α → Nat → Prop)
    (short : List α → Prop) (target : Nat → List β)
    (hstep : ∀ room s, s ≠ [] →
      (∃ u c tail, reads u c ∧ s = u ++ tail ∧ u ≠ [] ∧ (target c).length ≤ room
        ∧ step room s = .ok (.go u.length (target c) none))
      ∨ ∃ r, StopsFor reads short target r room s ∧ step room s = .ok (.stop r)) (s : List α) (room : Nat) :
    ∃ result rest written, loop step room s [] .conversionOK = .ok (result, rest, written)
      ∧ Converted reads short target s room result rest written := by
  obtain ⟨items, rest, res, h1, h2, h3, h4, h5⟩ := loop_ok (ι := List α × Nat) step (·.1) (fun i => target i.2) (fun _ => none)
    (fun i _ => reads i.1 i.2) (StopsFor reads short target)
    (by
      intro room s hs
      rcases hstep room s hs with ⟨u, c, tail, a1, a2, a3, a4, a5⟩ | h
      · exact .inl ⟨(u, c), tail, a1, a2, a3, a4, a5⟩
      · exact .inr h)
    room s.length s [] .conversionOK rfl (by simp)
  rw [List.nil_append] at h1 h3 h5
  refine ⟨res, rest, _, h1, items, ?_, h2, ?_, h3, ?_⟩
  · intro i hi
    obtain ⟨t1, t2, rfl⟩ := List.append_of_mem hi
    exact h4 t1 i t2 rfl
  · unfold encode; rw [List.flatMap_map]
  · have hfold : ∀ (l : List (List α × Nat)), l.foldl (fun r _ => (none : Option Result).getD r) Result.conversionOK = .conversionOK := by
      intro l; induction l with
      | nil => rfl
      | cons _ l ih => exact ih
    rcases h5 with ⟨hr, he⟩ | ⟨hr, he⟩
    · rw [hfold] at he
      subst he
      exact hr
    · cases res with
      | conversionOK => exact he.elim
      | sourceExhausted => exact he
      | sourceIllegal => exact ⟨hr, he⟩
      | targetExhausted =>
        obtain ⟨u, c, tail, a, b, d⟩ := he
        exact ⟨u, c, tail, a, b, by omega⟩

theorem ofNat32 (c : Nat) (h : Scalar c) : (UInt32.ofNat c).toNat = c := by
  unfold Scalar at h
  simp only [UInt32.toNat_ofNat']; omega

theorem not_surrogate (c : Nat) (h : Scalar c) : isSurrogate (UInt32.ofNat c) = false := by
  rw [Bool.eq_false_iff]
  intro hs
  rw [isSurrogate_iff, ofNat32 c h] at hs
  unfold Scalar at h; unfold Surrogate at hs; omega

/-- **C73** From UTF-8 to UTF-16, strict or lenient: whatever the bytes and however little room, what is consumed and what is
    written are the same characters, and the conversion stops where `Converted` says. -/
theorem C73_utf8_to_utf16 (flags : Flags) (s : Bytes) (room : Nat) :
    ∃ result rest written, convert8to16 flags s room = .ok (result, rest, written)
      ∧ Converted Reads8 Short8 utf16 s room result rest written := by
  apply converted_of_steps
  intro room s hs
  unfold step8to16
  rcases read8_total s hs with ⟨u, c, tail, hr, he, h⟩ | ⟨h1, h2, h⟩ | ⟨h1, h2, h⟩
  · rw [h]
    simp only [Outcome.ok_bind, Outcome.pure_eq]
    obtain ⟨hsc, hne⟩ := reads_scalar u c hr
    have hc := ofNat32 c hsc
    have hns := not_surrogate c hsc
    have hlen := utf16_length c
    simp only [hns]
    by_cases h0 : room = 0
    · right
      refine ⟨.targetExhausted, ⟨u, c, tail, hr, he, ?_⟩, by rw [if_pos h0]⟩
      rw [hlen, h0]; split <;> omega
    rw [if_neg h0]
    by_cases hb : c < 0x10000
    · left
      refine ⟨u, c, tail, hr, he, hne, by rw [hlen, if_pos hb]; omega, ?_⟩
      have : UInt32.ofNat c ≤ 0xFFFF := by rw [UInt32.le_iff_toNat_le, hc]; simp only [UInt32.toNat_ofNat]; omega
      rw [if_pos this, ← hc, ← toUInt16_eq _ (by rw [hc]; exact hb), hc]
      rfl
    · have hnl : ¬ UInt32.ofNat c ≤ 0xFFFF := by rw [UInt32.le_iff_toNat_le, hc]; simp only [UInt32.toNat_ofNat]; omega
      have hng : ¬ 0x10FFFF < UInt32.ofNat c := by
        rw [UInt32.lt_iff_toNat_lt, hc]; simp only [UInt32.toNat_ofNat]; unfold Scalar at hsc; omega
      rw [if_neg hnl, if_neg hng]
      by_cases h2 : room < 2
      · right
        exact ⟨.targetExhausted, ⟨u, c, tail, hr, he, by rw [hlen, if_neg hb]; omega⟩, by rw [if_pos h2]⟩
      · left
        refine ⟨u, c, tail, hr, he, hne, by rw [hlen, if_neg hb]; omega, ?_⟩
        rw [if_neg h2, surrogates_eq _ (by rw [hc]; omega) (by rw [hc]; unfold Scalar at hsc; omega), hc]
  · rw [h]; exact .inr ⟨.sourceExhausted, ⟨h1, h2⟩, rfl⟩
  · rw [h]; exact .inr ⟨.sourceIllegal, ⟨h1, h2⟩, rfl⟩

/-- **C73** From UTF-8 to UTF-32, strict or lenient. -/
theorem C73_utf8_to_utf32 (flags : Flags) (s : Bytes) (room : Nat) :
    ∃ result rest written, convert8to32 flags s room = .ok (result, rest, written)
      ∧ Converted Reads8 Short8 utf32 s room result rest written := by
  apply converted_of_steps
  intro room s hs
  unfold step8to32
  rcases read8_total s hs with ⟨u, c, tail, hr, he, h⟩ | ⟨h1, h2, h⟩ | ⟨h1, h2, h⟩
  · rw [h]
    simp only [Outcome.ok_bind, Outcome.pure_eq]
    obtain ⟨hsc, hne⟩ := reads_scalar u c hr
    have hc := ofNat32 c hsc
    have hns := not_surrogate c hsc
    simp only [hns]
    by_cases h0 : room = 0
    · right
      exact ⟨.targetExhausted, ⟨u, c, tail, hr, he, by rw [h0]; simp [utf32]⟩, by rw [if_pos h0]⟩
    · left
      refine ⟨u, c, tail, hr, he, hne, by simp [utf32]; omega, ?_⟩
      have : UInt32.ofNat c ≤ 0x10FFFF := by
        rw [UInt32.le_iff_toNat_le, hc]; simp only [UInt32.toNat_ofNat]; unfold Scalar at hsc; omega
      rw [if_neg h0, if_pos this]
      rfl
  · rw [h]; exact .inr ⟨.sourceExhausted, ⟨h1, h2⟩, rfl⟩
  · rw [h]; exact .inr ⟨.sourceIllegal, ⟨h1, h2⟩, rfl⟩

theorem utf16_ne_nil (c : Nat) : utf16 c ≠ [] := by unfold utf16; split <;> simp

/-- **C73** From UTF-16 to UTF-32, strict. -/
theorem C73_utf16_to_utf32 (s : List UInt16) (room : Nat) :
    ∃ result rest written, convert16to32 .strict s room = .ok (result, rest, written)
      ∧ Converted (Writes utf16) Short16 utf32 s room result rest written := by
  apply converted_of_steps
  intro room s hs
  unfold step16to32
  rcases read16_strict s hs with ⟨c, tail, hsc, he, h⟩ | ⟨h1, h2, h⟩ | ⟨h1, h2, h⟩
  · rw [h]
    simp only [Outcome.ok_bind, Outcome.pure_eq]
    by_cases h0 : room = 0
    · right
      exact ⟨.targetExhausted, ⟨_, c, tail, ⟨hsc, rfl⟩, he, by rw [h0]; simp [utf32]⟩, by rw [if_pos h0]⟩
    · left
      exact ⟨_, c, tail, ⟨hsc, rfl⟩, he, utf16_ne_nil c, by simp [utf32]; omega, by rw [if_neg h0]; rfl⟩
  · rw [h]; exact .inr ⟨.sourceExhausted, ⟨h1, h2⟩, rfl⟩
  · rw [h]; exact .inr ⟨.sourceIllegal, ⟨h1, h2⟩, rfl⟩

/-- How many bytes are set aside for a code point, src/library/ini/ConvertUTF.cpp:256-262. -/
theorem sizes (ch : UInt32) (h : ch.toNat ≤ 0x10FFFF) :
    (if ch < 0x80 then (ch, 1) else if ch < 0x800 then (ch, 2) else if ch < 0x10000 then (ch, 3)
      else if ch < 0x110000 then (ch, 4) else (replacement, 3)) = (ch, sizeOf8 ch.toNat) := by
  unfold sizeOf8
  simp only [UInt32.lt_iff_toNat_lt, UInt32.toNat_ofNat]
  repeat' split
  all_goals first | rfl | omega

/-- **C73** From UTF-16 to UTF-8, strict. -/
theorem C73_utf16_to_utf8 (s : List UInt16) (room : Nat) :
    ∃ result rest written, convert16to8 .strict s room = .ok (result, rest, written)
      ∧ Converted (Writes utf16) Short16 utf8 s room result rest written := by
  apply converted_of_steps
  intro room s hs
  unfold step16to8
  rcases read16_strict s hs with ⟨c, tail, hsc, he, h⟩ | ⟨h1, h2, h⟩ | ⟨h1, h2, h⟩
  · rw [h]
    have hc := ofNat32 c hsc
    have hle : (UInt32.ofNat c).toNat ≤ 0x10FFFF := by rw [hc]; unfold Scalar at hsc; omega
    simp only [Outcome.ok_bind, Outcome.pure_eq, sizes _ hle, bytesOf_eq _ hle]
    rw [hc]
    by_cases h0 : room < sizeOf8 c
    · right
      exact ⟨.targetExhausted, ⟨_, c, tail, ⟨hsc, rfl⟩, he, by rw [utf8_length]; exact h0⟩, by rw [if_pos h0]⟩
    · left
      exact ⟨_, c, tail, ⟨hsc, rfl⟩, he, utf16_ne_nil c, by rw [utf8_length]; omega, by rw [if_neg h0]⟩
  · rw [h]; exact .inr ⟨.sourceExhausted, ⟨h1, h2⟩, rfl⟩
  · rw [h]; exact .inr ⟨.sourceIllegal, ⟨h1, h2⟩, rfl⟩

/-! ## From UTF-16, lenient -/

/-- What a lenient conversion reads. -/
def LenientRead (c : Nat) (tail : List UInt16) : Prop :=
  c ≤ 0x10FFFF ∧ (HighSurrogate c → tail ≠ [] ∧ ∀ u t, tail = u :: t → ¬ LowSurrogate u.toNat)

theorem lenient_of_steps {β : Type} (step : Nat → List UInt16 → Outcome (Step β)) (target : Nat → List β)
    (hstep : ∀ room s, s ≠ [] →
      (∃ c tail, LenientRead c tail ∧ s = utf16 c ++ tail ∧ (target c).length ≤ room
        ∧ step room s = .ok (.go (utf16 c).length (target c) none))
      ∨ (∃ c tail, LenientRead c tail ∧ s = utf16 c ++ tail ∧ room < (target c).length ∧ step room s = .ok (.stop .targetExhausted))
      ∨ (Short16 s ∧ step room s = .ok (.stop .sourceExhausted))) (s : List UInt16) (room : Nat) :
    ∃ result rest written, loop step room s [] .conversionOK = .ok (result, rest, written)
      ∧ LenientConverted target s room result rest written := by
  obtain ⟨items, rest, res, h1, h2, h3, h4, h5⟩ := loop_ok (ι := Nat) step utf16 target (fun _ => none)
    LenientRead
    (fun r room s => (r = .targetExhausted ∧ ∃ c tail, LenientRead c tail ∧ s = utf16 c ++ tail ∧ room < (target c).length)
      ∨ (r = .sourceExhausted ∧ Short16 s))
    (by
      intro room s hs
      rcases hstep room s hs with ⟨c, tail, a1, a2, a3, a4⟩ | ⟨c, tail, a1, a2, a3, a4⟩ | ⟨a1, a2⟩
      · exact .inl ⟨c, tail, a1, a2, utf16_ne_nil c, a3, a4⟩
      · exact .inr ⟨_, .inl ⟨rfl, c, tail, a1, a2, a3⟩, a4⟩
      · exact .inr ⟨_, .inr ⟨rfl, a1⟩, a2⟩)
    room s.length s [] .conversionOK rfl (by simp)
  rw [List.nil_append] at h1 h3 h5
  refine ⟨res, rest, _, h1, items, ⟨?_, ?_⟩, h2, rfl, h3, ?_⟩
  · intro i hi
    obtain ⟨t1, t2, rfl⟩ := List.append_of_mem hi
    exact (h4 t1 i t2 rfl).1
  · intro t1 h t2 u tail he hh hu
    exact ((h4 t1 h t2 he).2 hh).2 u tail hu
  · have hfold : ∀ (l : List Nat), l.foldl (fun r _ => (none : Option Result).getD r) Result.conversionOK = .conversionOK := by
      intro l; induction l with
      | nil => rfl
      | cons _ l ih => exact ih
    rcases h5 with ⟨hr, he⟩ | ⟨hr, ⟨rfl, c, tail, hl, he, hlt⟩ | ⟨rfl, hsh⟩⟩
    · rw [hfold] at he
      subst he
      exact hr
    · refine ⟨c, tail, ⟨?_, ?_⟩, he, by omega⟩
      · intro x hx; simp at hx; rw [hx]; exact hl.1
      · intro t1 h t2 u t e hh hu
        cases t1 with
        | nil =>
          simp at e
          obtain ⟨rfl, rfl⟩ := e
          exact (hl.2 hh).2 u t hu
        | cons a t1 => simp at e
    · exact hsh

/-- **C73** From UTF-16 to UTF-32, lenient: never illegal; surrogates on their own are handed on as they are. -/
theorem C73_utf16_to_utf32_lenient (s : List UInt16) (room : Nat) :
    ∃ result rest written, convert16to32 .lenient s room = .ok (result, rest, written)
      ∧ LenientConverted utf32 s room result rest written := by
  apply lenient_of_steps
  intro room s hs
  unfold step16to32
  rcases read16_lenient s hs with ⟨c, tail, hl, he, h⟩ | ⟨h1, h⟩
  · rw [h]
    simp only [Outcome.ok_bind, Outcome.pure_eq]
    by_cases h0 : room = 0
    · exact .inr (.inl ⟨c, tail, hl, he, by rw [h0]; simp [utf32], by rw [if_pos h0]⟩)
    · exact .inl ⟨c, tail, hl, he, by simp [utf32]; omega, by rw [if_neg h0]; rfl⟩
  · rw [h]; exact .inr (.inr ⟨h1, rfl⟩)

/-- **C73** From UTF-16 to UTF-8, lenient: never illegal; surrogates on their own become three bytes each. -/
theorem C73_utf16_to_utf8_lenient (s : List UInt16) (room : Nat) :
    ∃ result rest written, convert16to8 .lenient s room = .ok (result, rest, written)
      ∧ LenientConverted utf8 s room result rest written := by
  apply lenient_of_steps
  intro room s hs
  unfold step16to8
  rcases read16_lenient s hs with ⟨c, tail, hl, he, h⟩ | ⟨h1, h⟩
  · rw [h]
    have hc : (UInt32.ofNat c).toNat = c := by have := hl.1; simp only [UInt32.toNat_ofNat']; omega
    have hle : (UInt32.ofNat c).toNat ≤ 0x10FFFF := by rw [hc]; exact hl.1
    simp only [Outcome.ok_bind, Outcome.pure_eq, sizes _ hle, bytesOf_eq _ hle]
    rw [hc]
    by_cases h0 : room < sizeOf8 c
    · exact .inr (.inl ⟨c, tail, hl, he, by rw [utf8_length]; exact h0, by rw [if_pos h0]⟩)
    · exact .inl ⟨c, tail, hl, he, by rw [utf8_length]; omega, by rw [if_neg h0]⟩
  · rw [h]; exact .inr (.inr ⟨h1, rfl⟩)

/-! ## From UTF-32 -/

theorem converted32_of_steps {β : Type} (step : Nat → List UInt32 → Outcome (Step β)) (target : UInt32 → List β)
    (refused passed : UInt32 → Prop) [∀ v, Decidable (passed v)] (roomFirst : Prop)
    (hstep : ∀ room v tail,
      (¬ refused v ∧ (target v).length ≤ room
        ∧ step room (v :: tail) = .ok (.go 1 (target v) (if passed v then some .sourceIllegal else none)))
      ∨ (refused v ∧ (roomFirst → 0 < room) ∧ step room (v :: tail) = .ok (.stop .sourceIllegal))
      ∨ ((refused v → roomFirst) ∧ room < max 1 (target v).length ∧ step room (v :: tail) = .ok (.stop .targetExhausted)))
    (s : List UInt32) (room : Nat) :
    ∃ result rest written, loop step room s [] .conversionOK = .ok (result, rest, written)
      ∧ Converted32 target refused passed roomFirst s room result rest written := by
  obtain ⟨items, rest, res, h1, h2, h3, h4, h5⟩ := loop_ok (ι := UInt32) step (fun v => [v]) target
    (fun v => if passed v then some .sourceIllegal else none) (fun v _ => ¬ refused v)
    (fun r room s => (r = .sourceIllegal ∧ ∃ v tail, s = v :: tail ∧ refused v ∧ (roomFirst → 0 < room))
      ∨ (r = .targetExhausted ∧ ∃ v tail, s = v :: tail ∧ (refused v → roomFirst) ∧ room < max 1 (target v).length))
    (by
      intro room s hs
      obtain ⟨v, tail, rfl⟩ := List.exists_cons_of_ne_nil hs
      rcases hstep room v tail with ⟨a1, a2, a3⟩ | ⟨a1, a2, a3⟩ | ⟨a1, a2, a3⟩
      · exact .inl ⟨v, tail, a1, rfl, by simp, a2, a3⟩
      · exact .inr ⟨_, .inl ⟨rfl, v, tail, rfl, a1, a2⟩, a3⟩
      · exact .inr ⟨_, .inr ⟨rfl, v, tail, rfl, a1, a2⟩, a3⟩)
    room s.length s [] .conversionOK rfl (by simp)
  rw [List.nil_append] at h1 h3 h5
  have hflat : items.flatMap (fun v => [v]) = items := by simp
  refine ⟨res, rest, _, h1, items, by rw [h2, hflat], rfl, h3, ?_, ?_⟩
  · intro i hi
    obtain ⟨t1, t2, rfl⟩ := List.append_of_mem hi
    exact h4 t1 i t2 rfl
  · have hfold : ∀ (l : List UInt32) (r0 : Result), (r0 = .conversionOK ∨ r0 = .sourceIllegal) →
        (l.foldl (fun r v => (if passed v then some Result.sourceIllegal else none).getD r) r0 = .conversionOK
          ∧ r0 = .conversionOK ∧ ∀ v ∈ l, ¬ passed v)
        ∨ (l.foldl (fun r v => (if passed v then some Result.sourceIllegal else none).getD r) r0 = .sourceIllegal
          ∧ (r0 = .sourceIllegal ∨ ∃ v ∈ l, passed v)) := by
      intro l
      induction l with
      | nil => rintro r0 (rfl | rfl) <;> simp
      | cons v l ih =>
        intro r0 h0
        rw [List.foldl_cons]
        by_cases hv : passed v
        · rw [if_pos hv]
          rcases ih .sourceIllegal (.inr rfl) with ⟨_, hx, _⟩ | ⟨hx, _⟩
          · cases hx
          · exact .inr ⟨hx, .inr ⟨v, by simp, hv⟩⟩
        · rw [if_neg hv]
          rcases ih r0 h0 with ⟨hx, hy, hz⟩ | ⟨hx, hy⟩
          · exact .inl ⟨hx, hy, by intro w hw; rcases List.mem_cons.mp hw with rfl | hw; exact hv; exact hz w hw⟩
          · refine .inr ⟨hx, ?_⟩
            rcases hy with hy | ⟨w, hw, hp⟩
            · exact .inl hy
            · exact .inr ⟨w, by simp [hw], hp⟩
    rcases h5 with ⟨hr, he⟩ | ⟨hr, ⟨rfl, v, tail, he, hv, hf⟩ | ⟨rfl, v, tail, he, hv, hf⟩⟩
    · rcases hfold items .conversionOK (.inl rfl) with ⟨hx, _, hz⟩ | ⟨hx, hz⟩
      · rw [hx] at he; subst he; exact ⟨hr, hz⟩
      · rw [hx] at he; subst he
        rcases hz with hz | hz
        · cases hz
        · exact .inl ⟨hr, hz⟩
    · exact .inr ⟨v, tail, he, hv, fun h => by have := hf h; omega⟩
    · exact ⟨v, tail, he, hv, by omega⟩

theorem le32 (v : UInt32) (k : Nat) (hk : k < 2 ^ 32) : (v ≤ UInt32.ofNat k) ↔ v.toNat ≤ k := by
  rw [UInt32.le_iff_toNat_le]; simp only [UInt32.toNat_ofNat']; rw [Nat.mod_eq_of_lt hk]

theorem lt32 (v : UInt32) (k : Nat) (hk : k < 2 ^ 32) : (UInt32.ofNat k < v) ↔ k < v.toNat := by
  rw [UInt32.lt_iff_toNat_lt]; simp only [UInt32.toNat_ofNat']; rw [Nat.mod_eq_of_lt hk]

/-- **C73** From UTF-32 to UTF-16: with a strict conversion values beyond 0x10FFFF are left out and the conversion goes on,
    surrogates end it; with a lenient one both become U+FFFD. -/
theorem C73_utf32_to_utf16 (flags : Flags) (s : List UInt32) (room : Nat) :
    ∃ result rest written, convert32to16 flags s room = .ok (result, rest, written)
      ∧ Converted32 (to16 flags) (fun v => flags = .strict ∧ Surrogate v.toNat)
          (fun v => flags = .strict ∧ 0x10FFFF < v.toNat) True s room result rest written := by
  apply converted32_of_steps
  intro room v tail
  unfold step32to16
  simp only [unit_zero, Outcome.ok_bind, Outcome.pure_eq]
  have e1 : (v ≤ 0xFFFF) ↔ v.toNat ≤ 0xFFFF := le32 v 0xFFFF (by omega)
  have e2 : (0x10FFFF < v) ↔ 0x10FFFF < v.toNat := lt32 v 0x10FFFF (by omega)
  have e3 := isSurrogate_iff v
  by_cases h0 : room = 0
  · right; right
    exact ⟨fun _ => trivial, by omega, by rw [if_pos h0]⟩
  rw [if_neg h0]
  by_cases hb : v.toNat ≤ 0xFFFF
  · rw [if_pos (e1.mpr hb)]
    by_cases hs : Surrogate v.toNat
    · rw [if_pos (e3.mpr hs)]
      have hns : ¬ Scalar v.toNat := by unfold Surrogate at hs; unfold Scalar; omega
      by_cases hf : flags = .strict
      · exact .inr (.inl ⟨⟨hf, hs⟩, fun _ => by omega, by rw [if_pos hf]⟩)
      · refine .inl ⟨fun h => hf h.1, ?_, ?_⟩
        · unfold to16; rw [if_neg hns, if_neg hf]; simp; omega
        · rw [if_neg hf, if_neg (fun h => hf h.1)]
          unfold to16; rw [if_neg hns, if_neg hf]; rfl
    · rw [if_neg (fun h => hs (e3.mp h))]
      have hsc : Scalar v.toNat := by unfold Surrogate at hs; unfold Scalar; omega
      refine .inl ⟨fun h => hs h.2, ?_, ?_⟩
      · unfold to16; rw [if_pos hsc, utf16_length, if_pos (by omega)]; omega
      · rw [if_neg (by omega), toUInt16_eq v (by omega)]
        unfold to16; rw [if_pos hsc]
  · rw [if_neg (fun h => hb (e1.mp h))]
    by_cases hg : 0x10FFFF < v.toNat
    · rw [if_pos (e2.mpr hg)]
      have hns : ¬ Scalar v.toNat := by unfold Scalar; omega
      by_cases hf : flags = .strict
      · refine .inl ⟨fun h => by have := h.2; unfold Surrogate at this; omega, ?_, ?_⟩
        · unfold to16; rw [if_neg hns, if_pos hf]; simp
        · rw [if_pos hf, if_pos ⟨hf, hg⟩]
          unfold to16; rw [if_neg hns, if_pos hf]
      · refine .inl ⟨fun h => hf h.1, ?_, ?_⟩
        · unfold to16; rw [if_neg hns, if_neg hf]; simp; omega
        · rw [if_neg hf, if_neg (fun h => hf h.1)]
          unfold to16; rw [if_neg hns, if_neg hf]; rfl
    · rw [if_neg (fun h => hg (e2.mp h))]
      have hsc : Scalar v.toNat := by unfold Scalar; omega
      have ht : to16 flags v = utf16 v.toNat := by unfold to16; rw [if_pos hsc]
      have hl : (to16 flags v).length = 2 := by rw [ht, utf16_length, if_neg (by omega)]
      have hnr : ¬ (flags = .strict ∧ Surrogate v.toNat) := fun h => by have := h.2; unfold Surrogate at this; omega
      by_cases h2 : room < 2
      · exact .inr (.inr ⟨fun _ => trivial, by rw [hl]; omega, by rw [if_pos h2]⟩)
      · refine .inl ⟨hnr, by omega, ?_⟩
        rw [if_neg h2, if_neg (by omega), surrogates_eq v (by omega) (by omega), ht]

theorem sizes32 (ch : UInt32) :
    (if ch < 0x80 then (ch, 1, (none : Option Result)) else if ch < 0x800 then (ch, 2, none) else if ch < 0x10000 then (ch, 3, none)
      else if ch ≤ 0x10FFFF then (ch, 4, none) else (replacement, 3, some Result.sourceIllegal))
    = if ch.toNat ≤ 0x10FFFF then (ch, sizeOf8 ch.toNat, none) else (replacement, 3, some .sourceIllegal) := by
  unfold sizeOf8
  simp only [UInt32.lt_iff_toNat_lt, UInt32.le_iff_toNat_le, UInt32.toNat_ofNat]
  repeat' split
  all_goals first | rfl | omega

/-- **C73** From UTF-32 to UTF-8: values beyond 0x10FFFF become U+FFFD and the conversion goes on; surrogates end a strict conversion,
    a lenient one writes three bytes for each. -/
theorem C73_utf32_to_utf8 (flags : Flags) (s : List UInt32) (room : Nat) :
    ∃ result rest written, convert32to8 flags s room = .ok (result, rest, written)
      ∧ Converted32 to8 (fun v => flags = .strict ∧ Surrogate v.toNat) (fun v => 0x10FFFF < v.toNat) False
          s room result rest written := by
  apply converted32_of_steps
  intro room v tail
  unfold step32to8
  simp only [unit_zero, Outcome.ok_bind, Outcome.pure_eq, sizes32]
  by_cases hr : flags = .strict ∧ Surrogate v.toNat
  · exact .inr (.inl ⟨hr, False.elim, by rw [if_pos (by simp [hr.1, isSurrogate_iff, hr.2])]⟩)
  · rw [if_neg (by simpa [isSurrogate_iff] using hr)]
    by_cases hg : v.toNat ≤ 0x10FFFF
    · have ht : to8 v = utf8 v.toNat := by unfold to8; rw [if_pos hg]
      simp only [if_pos hg]
      rw [bytesOf_eq v hg, ht, utf8_length]
      by_cases h0 : room < sizeOf8 v.toNat
      · exact .inr (.inr ⟨fun h => absurd h hr, by omega, by rw [if_pos h0]⟩)
      · exact .inl ⟨hr, by omega, by rw [if_neg h0, if_neg (by omega)]⟩
    · have ht : to8 v = utf8 0xFFFD := by unfold to8; rw [if_neg hg]
      have hl : (to8 v).length = 3 := by rw [ht]; rfl
      simp only [if_neg hg]
      by_cases h0 : room < 3
      · exact .inr (.inr ⟨fun h => absurd h hr, by omega, by rw [if_pos h0]⟩)
      · refine .inl ⟨hr, by omega, ?_⟩
        rw [if_neg h0, if_pos (by omega), ht]
        rfl

/-! ## Well-formed texts -/

theorem utf8_ne_nil (c : Nat) : utf8 c ≠ [] := by
  unfold utf8; repeat' split
  all_goals simp

/-- Nothing is read in two ways. -/
def Unambiguous {α : Type} (reads : List α → Nat → Prop) : Prop :=
  ∀ u c t u' c' t', reads u c → reads u' c' → u ++ t = u' ++ t' → u = u' ∧ c = c'

theorem unambiguous8 : Unambiguous Reads8 := by
  intro u c t u' c' t' h h' he
  have h1 := read8_reads u c h t
  have h2 := read8_reads u' c' h' t'
  rw [he, h2] at h1
  injection h1 with h1
  injection h1 with h1
  injection h1 with h1 h3
  refine ⟨?_, ?_⟩
  · exact (List.append_inj he h3.symm).1
  · have := congrArg UInt32.toNat h1
    rw [ofNat32 _ (reads_scalar u c h).1, ofNat32 _ (reads_scalar u' c' h').1] at this
    exact this.symm

theorem unambiguous16 : Unambiguous (Writes utf16) := by
  rintro u c t u' c' t' ⟨h, rfl⟩ ⟨h', rfl⟩ he
  have h1 := read16_enc .strict c h t
  have h2 := read16_enc .strict c' h' t'
  rw [he, h2] at h1
  injection h1 with h1
  injection h1 with h1
  injection h1 with h1 h3
  refine ⟨(List.append_inj he h3.symm).1, ?_⟩
  have := congrArg UInt32.toNat h1
  rw [ofNat32 _ h, ofNat32 _ h'] at this
  exact this.symm

theorem items_prefix {α : Type} (form : Nat → List α) (reads : List α → Nat → Prop) (hu : Unambiguous reads)
    (hw : ∀ c, Scalar c → reads (form c) c) (hne : ∀ u c, reads u c → u ≠ []) :
    ∀ (text : List Nat) (items : List (List α × Nat)) (rest : List α), (∀ c ∈ text, Scalar c) →
      (∀ i ∈ items, reads i.1 i.2) → encode form text = items.flatMap (·.1) ++ rest →
      ∃ t2, text = items.map (·.2) ++ t2 ∧ rest = encode form t2 := by
  intro text items
  induction items generalizing text with
  | nil => intro rest _ _ he; exact ⟨text, by simp, by simpa using he.symm⟩
  | cons i items ih =>
    intro rest hs hi he
    have hri := hi i (by simp)
    cases text with
    | nil =>
      have := congrArg List.length he
      have := List.length_pos_iff.mpr (hne _ _ hri)
      simp [encode] at *
      omega
    | cons c text =>
      have he' : form c ++ encode form text = i.1 ++ (items.flatMap (·.1) ++ rest) := by
        simpa [encode, List.append_assoc] using he
      obtain ⟨h1, h2⟩ := hu _ _ _ _ _ _ (hw c (hs c (by simp))) hri he'
      rw [h1] at he'
      have he2 := List.append_cancel_left he'
      obtain ⟨t2, h3, h4⟩ := ih text rest (fun x hx => hs x (by simp [hx])) (fun x hx => hi x (by simp [hx])) he2
      exact ⟨t2, by rw [h3, h2]; rfl, h4⟩

theorem text_of_converted {α β : Type} (form : Nat → List α) (reads : List α → Nat → Prop) (short : List α → Prop)
    (target : Nat → List β) (hu : Unambiguous reads) (hw : ∀ c, Scalar c → reads (form c) c)
    (hne : ∀ u c, reads u c → u ≠ []) (hsh : ¬ short []) (text : List Nat) (ht : ∀ c ∈ text, Scalar c) (room : Nat)
    (hroom : (encode target text).length ≤ room) (result : Result) (rest : List α) (written : List β)
    (h : Converted reads short target (encode form text) room result rest written) :
    result = .conversionOK ∧ rest = [] ∧ written = encode target text := by
  obtain ⟨items, h1, h2, h3, h4, h5⟩ := h
  obtain ⟨t2, e1, e2⟩ := items_prefix form reads hu hw hne text items rest ht h1 h2
  cases t2 with
  | nil =>
    have hr : rest = [] := by rw [e2]; rfl
    subst hr
    have hwr : written = encode target text := by rw [h3, e1]; simp
    cases result with
    | conversionOK => exact ⟨rfl, rfl, hwr⟩
    | sourceExhausted => exact absurd h5.2 hsh
    | sourceIllegal => exact absurd rfl h5.1
    | targetExhausted =>
      obtain ⟨u, c, tail, a, b, _⟩ := h5
      have := hne u c a
      simp at b
      exact absurd b.1 this
  | cons c t2 =>
    exfalso
    have hc : Scalar c := ht c (by rw [e1]; simp)
    have hr : rest = form c ++ encode form t2 := by rw [e2]; simp [encode]
    cases result with
    | conversionOK =>
      simp only at h5
      rw [h5] at hr
      have := hne _ _ (hw c hc)
      exact this (List.append_eq_nil_iff.mp hr.symm).1
    | sourceExhausted => exact h5.1 ⟨_, c, _, hw c hc, hr⟩
    | sourceIllegal => exact h5.2.1 ⟨_, c, _, hw c hc, hr⟩
    | targetExhausted =>
      obtain ⟨u, c', tail, a, b, d⟩ := h5
      obtain ⟨_, hcc⟩ := hu _ _ _ _ _ _ a (hw c hc) (b.symm.trans hr)
      subst hcc
      rw [e1] at hroom
      have : (encode target (items.map (·.2) ++ c' :: t2)).length
          = (encode target (items.map (·.2))).length + (target c').length + (encode target t2).length := by
        simp [encode]; omega
      rw [this, ← h3] at hroom
      omega

theorem short8_nil : ¬ Short8 [] := by rintro ⟨b, tail, h, _⟩; simp at h
theorem short16_nil : ¬ Short16 [] := by rintro ⟨b, h, _⟩; simp at h

/-- **C73** Every text in UTF-8 is converted to UTF-16 when there is room, in both modes. -/
theorem C73_text_8_16 (flags : Flags) (text : List Nat) (ht : ∀ c ∈ text, Scalar c) (room : Nat)
    (hroom : (encode utf16 text).length ≤ room) :
    convert8to16 flags (encode utf8 text) room = .ok (.conversionOK, [], encode utf16 text) := by
  obtain ⟨r, rest, w, h, hc⟩ := C73_utf8_to_utf16 flags (encode utf8 text) room
  obtain ⟨rfl, rfl, rfl⟩ := text_of_converted utf8 Reads8 Short8 utf16 unambiguous8 (fun c h => .inl ⟨h, rfl⟩)
    (fun u c h => (reads_scalar u c h).2) short8_nil text ht room hroom r rest w hc
  exact h

/-- **C73** Every text in UTF-8 is converted to UTF-32 when there is room, in both modes. -/
theorem C73_text_8_32 (flags : Flags) (text : List Nat) (ht : ∀ c ∈ text, Scalar c) (room : Nat)
    (hroom : (encode utf32 text).length ≤ room) :
    convert8to32 flags (encode utf8 text) room = .ok (.conversionOK, [], encode utf32 text) := by
  obtain ⟨r, rest, w, h, hc⟩ := C73_utf8_to_utf32 flags (encode utf8 text) room
  obtain ⟨rfl, rfl, rfl⟩ := text_of_converted utf8 Reads8 Short8 utf32 unambiguous8 (fun c h => .inl ⟨h, rfl⟩)
    (fun u c h => (reads_scalar u c h).2) short8_nil text ht room hroom r rest w hc
  exact h

/-- **C73** Every text in UTF-16 is converted to UTF-8 when there is room. -/
theorem C73_text_16_8 (text : List Nat) (ht : ∀ c ∈ text, Scalar c) (room : Nat) (hroom : (encode utf8 text).length ≤ room) :
    convert16to8 .strict (encode utf16 text) room = .ok (.conversionOK, [], encode utf8 text) := by
  obtain ⟨r, rest, w, h, hc⟩ := C73_utf16_to_utf8 (encode utf16 text) room
  obtain ⟨rfl, rfl, rfl⟩ := text_of_converted utf16 (Writes utf16) Short16 utf8 unambiguous16 (fun c h => ⟨h, rfl⟩)
    (by rintro u c ⟨_, rfl⟩; exact utf16_ne_nil c) short16_nil text ht room hroom r rest w hc
  exact h

/-- **C73** Every text in UTF-16 is converted to UTF-32 when there is room. -/
theorem C73_text_16_32 (text : List Nat) (ht : ∀ c ∈ text, Scalar c) (room : Nat) (hroom : (encode utf32 text).length ≤ room) :
    convert16to32 .strict (encode utf16 text) room = .ok (.conversionOK, [], encode utf32 text) := by
  obtain ⟨r, rest, w, h, hc⟩ := C73_utf16_to_utf32 (encode utf16 text) room
  obtain ⟨rfl, rfl, rfl⟩ := text_of_converted utf16 (Writes utf16) Short16 utf32 unambiguous16 (fun c h => ⟨h, rfl⟩)
    (by rintro u c ⟨_, rfl⟩; exact utf16_ne_nil c) short16_nil text ht room hroom r rest w hc
  exact h

theorem map_of_singletons (l : List Nat) : l.flatMap (fun c => [UInt32.ofNat c]) = l.map UInt32.ofNat := by
  induction l with
  | nil => rfl
  | cons c l ih => simp only [List.flatMap_cons, List.map_cons, List.singleton_append, ih]

theorem text_of_converted32 {β : Type} (target : UInt32 → List β) (form : Nat → List β) (refused passed : UInt32 → Prop)
    (roomFirst : Prop) (text : List Nat) (ht : ∀ c ∈ text, Scalar c)
    (hform : ∀ c, Scalar c → target (UInt32.ofNat c) = form c ∧ form c ≠ [] ∧ ¬ refused (UInt32.ofNat c) ∧ ¬ passed (UInt32.ofNat c))
    (room : Nat) (hroom : (encode form text).length ≤ room) (result : Result) (rest : List UInt32) (written : List β)
    (h : Converted32 target refused passed roomFirst (encode utf32 text) room result rest written) :
    result = .conversionOK ∧ rest = [] ∧ written = encode form text := by
  obtain ⟨done, h1, h2, h3, h4, h5⟩ := h
  have e32 : encode utf32 text = text.map UInt32.ofNat := by
    unfold encode utf32
    exact map_of_singletons text
  rw [e32] at h1
  obtain ⟨t1, t2, rfl, hd, hr⟩ := List.map_eq_append_iff.mp h1
  have hw : written = encode form t1 := by
    rw [h2, ← hd]
    unfold encode
    rw [List.flatMap_map]
    have : ∀ l : List Nat, (∀ c ∈ l, Scalar c) → l.flatMap (fun a => target (UInt32.ofNat a)) = l.flatMap form := by
      intro l hl
      induction l with
      | nil => rfl
      | cons c l ih => simp [ih (fun x hx => hl x (by simp [hx])), (hform c (hl c (by simp))).1]
    exact this t1 (fun c hc => ht c (by simp [hc]))
  cases t2 with
  | nil =>
    have hrest : rest = [] := by rw [← hr]; rfl
    subst hrest
    refine ⟨?_, rfl, by rw [hw]; simp⟩
    cases result with
    | conversionOK => rfl
    | sourceExhausted => exact h5.elim
    | sourceIllegal =>
      exfalso
      rcases h5 with ⟨_, v, hv, hp⟩ | ⟨v, tail, hv, _⟩
      · rw [← hd] at hv
        obtain ⟨c, hc, rfl⟩ := List.mem_map.mp hv
        exact (hform c (ht c (by simp [hc]))).2.2.2 hp
      · simp at hv
    | targetExhausted => obtain ⟨v, tail, hv, _⟩ := h5; simp at hv
  | cons c t2 =>
    exfalso
    obtain ⟨f1, f2, f3, f4⟩ := hform c (ht c (by simp))
    have hpos := List.length_pos_iff.mpr f2
    rw [List.map_cons] at hr
    have hlen : (encode form (t1 ++ c :: t2)).length = (encode form t1).length + (form c).length + (encode form t2).length := by
      simp [encode]; omega
    cases result with
    | conversionOK => rw [h5.1] at hr; simp at hr
    | sourceExhausted => exact h5
    | sourceIllegal =>
      rcases h5 with ⟨he, _⟩ | ⟨v, tail, hv, hp, _⟩
      · rw [he] at hr; simp at hr
      · rw [hv] at hr; injection hr with hr _; rw [← hr] at hp; exact f3 hp
    | targetExhausted =>
      obtain ⟨v, tail, hv, _, hl⟩ := h5
      rw [hv] at hr; injection hr with hr _
      rw [← hr, f1, hw] at hl
      rw [hlen] at hroom
      omega

/-- **C73** Every text in UTF-32 is converted to UTF-16 when there is room, in both modes. -/
theorem C73_text_32_16 (flags : Flags) (text : List Nat) (ht : ∀ c ∈ text, Scalar c) (room : Nat)
    (hroom : (encode utf16 text).length ≤ room) :
    convert32to16 flags (encode utf32 text) room = .ok (.conversionOK, [], encode utf16 text) := by
  obtain ⟨r, rest, w, h, hc⟩ := C73_utf32_to_utf16 flags (encode utf32 text) room
  obtain ⟨rfl, rfl, rfl⟩ := text_of_converted32 _ utf16 _ _ _ text ht
    (by
      intro c hc
      have hn := ofNat32 c hc
      refine ⟨by unfold to16; rw [hn, if_pos hc], utf16_ne_nil c, ?_, ?_⟩
      · rintro ⟨_, h⟩; rw [hn] at h; unfold Surrogate at h; unfold Scalar at hc; omega
      · rintro ⟨_, h⟩; rw [hn] at h; unfold Scalar at hc; omega) room hroom r rest w hc
  exact h

/-- **C73** Every text in UTF-32 is converted to UTF-8 when there is room, in both modes. -/
theorem C73_text_32_8 (flags : Flags) (text : List Nat) (ht : ∀ c ∈ text, Scalar c) (room : Nat)
    (hroom : (encode utf8 text).length ≤ room) :
    convert32to8 flags (encode utf32 text) room = .ok (.conversionOK, [], encode utf8 text) := by
  obtain ⟨r, rest, w, h, hc⟩ := C73_utf32_to_utf8 flags (encode utf32 text) room
  obtain ⟨rfl, rfl, rfl⟩ := text_of_converted32 _ utf8 _ _ _ text ht
    (by
      intro c hc
      have hn := ofNat32 c hc
      have hle : c ≤ 0x10FFFF := by unfold Scalar at hc; omega
      refine ⟨by unfold to8; rw [hn, if_pos hle], utf8_ne_nil c, ?_, ?_⟩
      · rintro ⟨_, h⟩; rw [hn] at h; unfold Surrogate at h; unfold Scalar at hc; omega
      · intro h; rw [hn] at h; omega) room hroom r rest w hc
  exact h

/-- A text with characters of one, two, three and four bytes. -/
def sampleText : List Nat := [0x41, 0xE9, 0x20AC, 0x1F600]

example : (∀ c ∈ sampleText, Scalar c) ∧ encode utf8 sampleText = [0x41, 0xC3, 0xA9, 0xE2, 0x82, 0xAC, 0xF0, 0x9F, 0x98, 0x80]
    ∧ encode utf16 sampleText = [0x41, 0xE9, 0x20AC, 0xD83D, 0xDE00] ∧ (encode utf32 sampleText).length = 4 := by
  refine ⟨?_, ?_, ?_, ?_⟩ <;> decide +kernel

/-! ## Where the conversions are wrong -/

/-- **C73** `isLegalUTF8Sequence` on a memory range that is not empty: whether it starts with what the conversions read as a
    character. -/
theorem C73_legal_sequence (s : Bytes) (hs : s ≠ []) :
    ∃ v, isLegalSequence s = .ok v ∧ (v = true ↔ ∃ u c tail, Reads8 u c ∧ s = u ++ tail) := by
  obtain ⟨b, tl, rfl⟩ := List.exists_cons_of_ne_nil hs
  unfold isLegalSequence
  simp only [unit_zero, Outcome.ok_bind, Outcome.pure_eq]
  by_cases hl : (b :: tl).length < trailing b + 1
  · refine ⟨false, by rw [if_pos hl], by simp, ?_⟩
    rintro ⟨u, c, tail, hr, he⟩
    have := read8_reads u c hr tail
    rw [← he] at this
    unfold read8 at this
    simp only [unit_zero, Outcome.ok_bind, Outcome.pure_eq] at this
    rw [if_pos (by omega)] at this
    simp at this
  · rw [if_neg hl]
    obtain ⟨v, h1, h2⟩ := isLegal_iff b tl (by omega)
    refine ⟨v, h1, h2, ?_⟩
    rintro ⟨u, c, tail, hr, he⟩
    have := read8_reads u c hr tail
    rw [← he] at this
    unfold read8 at this
    simp only [unit_zero, Outcome.ok_bind, Outcome.pure_eq] at this
    rw [if_neg (by omega), h1] at this
    cases v with
    | true => rfl
    | false => simp at this

/-- **C73** (negation of "only UTF-8 is accepted"): the sequences `Misread` lists, which are no UTF-8, are converted without
    complaint, in both modes. -/
theorem C73_misread (flags : Flags) (u : Bytes) (c : Nat) (h : Misread u c) :
    NoCharacter (Writes utf8) u ∧ convert8to32 flags u 1 = .ok (.conversionOK, [], utf32 c)
    ∧ isLegalSequence u = .ok true := by
  have hr : Reads8 u c := .inr h
  obtain ⟨hsc, hne⟩ := reads_scalar u c hr
  refine ⟨?_, ?_, ?_⟩
  · rintro ⟨u', c', tail, hw, he⟩
    obtain ⟨e1, e2⟩ := unambiguous8 u c [] u' c' tail hr (.inl hw) (by rw [List.append_nil, he])
    rw [hw.2] at e1
    have hc := hw.1
    subst e2
    unfold utf8 at e1
    rcases h with ⟨a, x, rfl, ha, hx, hx', hc'⟩ | ⟨a, x, y, rfl, ha, hx, hx', hy, hy', hc'⟩
    · rw [if_neg (by omega), if_neg (by omega), if_pos (by omega)] at e1
      injection e1 with _ e1
      injection e1 with e1 _
      have := congrArg UInt8.toNat e1
      rw [ofNat_small _ (by omega)] at this
      omega
    · rw [if_neg (by omega), if_neg (by omega), if_neg (by omega)] at e1
      injection e1 with _ e1
      injection e1 with e1 _
      have := congrArg UInt8.toNat e1
      rw [ofNat_small _ (by omega)] at this
      omega
  · have h1 := read8_reads u c hr []
    rw [List.append_nil] at h1
    have hpos := List.length_pos_iff.mpr hne
    have hc := ofNat32 c hsc
    have hle : UInt32.ofNat c ≤ 0x10FFFF := by
      rw [UInt32.le_iff_toNat_le, hc]; simp only [UInt32.toNat_ofNat]; unfold Scalar at hsc; omega
    have hst : step8to32 flags 1 u = .ok (.go u.length [UInt32.ofNat c] none) := by
      unfold step8to32
      rw [h1]
      simp only [Outcome.ok_bind, Outcome.pure_eq, not_surrogate c hsc]
      rw [if_neg (by decide), if_pos hle]
      rfl
    unfold convert8to32
    rw [loop, if_neg (by omega)]
    simp only [List.length_nil, Nat.sub_zero, hst]
    rw [if_neg (by simp; omega), loop, if_pos (by simp)]
    simp [utf32]
  · obtain ⟨v, hv, hi⟩ := C73_legal_sequence u hne
    rw [hv, hi.mpr ⟨u, c, [], hr, by simp⟩]

example : Misread [0xED, 0x2F, 0x80] 0xBBC0 := .inl ⟨0x2F, 0x80, rfl, by decide, by decide, by decide, by decide⟩
example : convert8to32 .strict [0xED, 0x2F, 0x80] 1 = .ok (.conversionOK, [], [0xBBC0]) :=
  (C73_misread .strict _ 0xBBC0 (.inl ⟨0x2F, 0x80, rfl, by decide, by decide, by decide, by decide⟩)).2.1

/-- **C73** (negation of "what a lenient conversion writes can be read again"): a lenient conversion of a surrogate to UTF-8 succeeds,
    and what it wrote is refused by both conversions from UTF-8. -/
theorem C73_lenient_surrogates (v : UInt32) (hv : Surrogate v.toNat) (flags : Flags) (room : Nat) :
    convert32to8 .lenient [v] 3 = .ok (.conversionOK, [], utf8 v.toNat)
    ∧ convert8to32 flags (utf8 v.toNat) room = .ok (.sourceIllegal, utf8 v.toNat, [])
    ∧ convert8to16 flags (utf8 v.toNat) room = .ok (.sourceIllegal, utf8 v.toNat, []) := by
  unfold Surrogate at hv
  have hle : v.toNat ≤ 0x10FFFF := by omega
  have hu : utf8 v.toNat = [UInt8.ofNat (0xE0 + v.toNat / 4096), UInt8.ofNat (0x80 + v.toNat / 64 % 64),
      UInt8.ofNat (0x80 + v.toNat % 64)] := by
    unfold utf8; rw [if_neg (by omega), if_neg (by omega), if_pos (by omega)]
  have hs8 : sizeOf8 v.toNat = 3 := by unfold sizeOf8; rw [if_neg (by omega), if_neg (by omega), if_pos (by omega)]
  have hrd : read8 (utf8 v.toNat) = .ok (.inl .sourceIllegal) := by
    rw [hu]
    have e1 := ofNat_small (0xE0 + v.toNat / 4096) (by omega)
    have e2 := ofNat_small (0x80 + v.toNat / 64 % 64) (by omega)
    have e3 := ofNat_small (0x80 + v.toNat % 64) (by omega)
    generalize UInt8.ofNat (0xE0 + v.toNat / 4096) = b at *
    generalize UInt8.ofNat (0x80 + v.toNat / 64 % 64) = a at *
    generalize UInt8.ofNat (0x80 + v.toNat % 64) = x at *
    have ht : trailing b = 2 := by have := trailing_of b; omega
    have hl : ¬ ((0x80 ≤ x.toNat ∧ x.toNat ≤ 0xBF) ∧ Second b.toNat a.toNat
      ∧ (b.toNat < 0x80 ∨ 0xC2 ≤ b.toNat ∧ b.toNat ≤ 0xF4)) := by unfold Second; omega
    unfold read8
    simp only [unit_zero, Outcome.ok_bind, ht, isLegal, legal3_eq, Outcome.pure_eq, decide_eq_false hl]
    simp
  have hlen : ¬ (utf8 v.toNat).length = 0 := by rw [utf8_length, hs8]; decide
  refine ⟨?_, ?_, ?_⟩
  · have hst : step32to8 .lenient 3 [v] = .ok (.go 1 (utf8 v.toNat) none) := by
      unfold step32to8
      simp only [unit_zero, Outcome.ok_bind, Outcome.pure_eq, sizes32, if_pos hle]
      rw [if_neg (by simp), hs8, if_neg (by decide), ← hs8, bytesOf_eq v hle]
    unfold convert32to8
    rw [loop, if_neg (by simp)]
    simp only [List.length_nil, Nat.sub_zero, hst]
    rw [if_neg (by rw [utf8_length, hs8]; simp), loop, if_pos (by simp)]
    simp
  · unfold convert8to32 
    rw [loop, if_neg hlen]
    simp only [step8to32, hrd, Outcome.ok_bind, Outcome.pure_eq]
  · unfold convert8to16
    rw [loop, if_neg hlen]
    simp only [step8to16, hrd, Outcome.ok_bind, Outcome.pure_eq]

example : Surrogate (0xD800 : UInt32).toNat := by simp [Surrogate]

/-- **C73** (negation of "after sourceIllegal the source pointer is at the illegal value", which ConvertUTF.h:69-73 promises): a value
    beyond 0x10FFFF is passed over by a strict conversion to UTF-16, and when the room runs out later it is not even reported. -/
theorem C73_large_passed_over (v : UInt32) (hv : 0x10FFFF < v.toNat) :
    convert32to16 .strict [v] 1 = .ok (.sourceIllegal, [], [])
    ∧ convert32to16 .strict [v, 0x1F600] 1 = .ok (.targetExhausted, [0x1F600], []) := by
  have hst : ∀ tail, step32to16 .strict 1 (v :: tail) = .ok (.go 1 [] (some .sourceIllegal)) := by
    intro tail
    have e1 : ¬ (v ≤ 0xFFFF) := by rw [show (0xFFFF : UInt32) = UInt32.ofNat 0xFFFF from rfl, le32 v 0xFFFF (by omega)]; omega
    have e2 : 0x10FFFF < v := by rw [show (0x10FFFF : UInt32) = UInt32.ofNat 0x10FFFF from rfl, lt32 v _ (by omega)]; exact hv
    unfold step32to16
    simp only [unit_zero, Outcome.ok_bind, Outcome.pure_eq]
    rw [if_neg (by decide), if_neg e1, if_pos e2, if_pos trivial]
  have h2 : step32to16 .strict 1 [0x1F600] = .ok (.stop .targetExhausted) := by decide +kernel
  constructor
  · unfold convert32to16
    rw [loop, if_neg (by simp)]
    simp only [List.length_nil, Nat.sub_zero, hst]
    rw [if_neg (by simp), loop, if_pos (by simp)]
    simp
  · unfold convert32to16
    rw [loop, if_neg (by simp)]
    simp only [List.length_nil, Nat.sub_zero, hst]
    rw [if_neg (by simp), loop, if_neg (by simp)]
    simp [h2]

example : 0x10FFFF < (0x110000 : UInt32).toNat := by simp

/-- **C73** (negation of memory safety): on an empty range `isLegalUTF8Sequence` reads behind its end. -/
theorem C73_legal_sequence_empty : isLegalSequence [] = .ub := rfl

end Licensecc.Utf
