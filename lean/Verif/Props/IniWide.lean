import Verif.Model.IniWide
import Verif.Props.ConvertUtf
/-!
# C79: INI objects of wide characters: the conversions

The sizes of the buffers, round trips, and where a text that was saved cannot be loaded.
-/
namespace Licensecc
open Utf IniWide
open Spec.Utf
set_option linter.unusedSimpArgs false

namespace IniWide

/-- The texts the conversions from UTF-8 accept, with the characters they read: `Reads8` is UTF-8 and the two kinds of sequences of C73_misread. -/
def TextOf (s : Bytes) (text : List Nat) : Prop := ∃ items : List (Bytes × Nat), (∀ i ∈ items, Reads8 i.1 i.2) ∧ s = items.flatMap (·.1) ∧ text = items.map (·.2)

theorem utf32_small {u : Bytes} {c : Nat} (h : Reads8 u c) : (utf32 c).length ≤ u.length := by
  have := List.length_pos_iff.mpr (reads_scalar u c h).2
  simp [utf32]; omega

theorem utf16_small {u : Bytes} {c : Nat} (h : Reads8 u c) : (utf16 c).length ≤ u.length := by
  rw [utf16_length]
  have := List.length_pos_iff.mpr (reads_scalar u c h).2
  split
  · omega
  · rename_i hc
    rcases h with ⟨_, rfl⟩ | ⟨a, x, rfl, _⟩ | ⟨a, x, y, rfl, _⟩
    · rw [utf8_length]; unfold Utf.sizeOf8; repeat' split
      all_goals omega
    · simp
    · simp

theorem room_items {β : Type} {form : Nat → List β} (hs : ∀ {u c}, Reads8 u c → (form c).length ≤ u.length) : ∀ (items : List (Bytes × Nat)), (∀ i ∈ items, Reads8 i.1 i.2) →
    (encode form (items.map (·.2))).length ≤ (items.flatMap (·.1)).length
  | [], _ => Nat.le_refl _
  | i :: items, h => by
    have h1 := hs (h i (by simp))
    have h2 := room_items hs items (fun x hx => h x (by simp [hx]))
    simp only [encode, List.map_cons, List.flatMap_cons, List.length_append] at h2 ⊢
    omega

/-- With a unit for each byte there is always room. -/
theorem from_room {β : Type} {form : Nat → List β} (hs : ∀ {u c}, Reads8 u c → (form c).length ≤ u.length) {s : Bytes} {r : Result} {rest : Bytes} {w : List β}
    (h : Converted Reads8 Short8 form s s.length r rest w) :
    (r = .conversionOK ∧ ∃ text, TextOf s text ∧ w = encode form text) ∨ (r ≠ .conversionOK ∧ ¬ ∃ text, TextOf s text) := by
  obtain ⟨items, h1, h2, h3, h4, h5⟩ := h
  -- what is read does not depend on how
  have uniq : ∀ (items items' : List (Bytes × Nat)) (rest : Bytes), (∀ i ∈ items, Reads8 i.1 i.2) → (∀ i ∈ items', Reads8 i.1 i.2) →
      items.flatMap (·.1) ++ rest = items'.flatMap (·.1) → rest ≠ [] → ∃ u c tail, Reads8 u c ∧ rest = u ++ tail := by
    intro items
    induction items with
    | nil =>
      intro items' rest _ h' he hr
      cases items' with
      | nil => exact absurd (by simpa using he) hr
      | cons i items' => exact ⟨i.1, i.2, items'.flatMap (·.1), h' i (by simp), by simpa using he⟩
    | cons i items ih =>
      intro items' rest h h' he hr
      cases items' with
      | nil =>
        exfalso
        have := (reads_scalar _ _ (h i (by simp))).2
        simp at he
        exact this he.1
      | cons i' items' =>
        rw [List.flatMap_cons, List.flatMap_cons, List.append_assoc] at he
        obtain ⟨e1, e2⟩ := unambiguous8 _ _ _ _ _ _ (h i (by simp)) (h' i' (by simp)) he
        rw [e1] at he
        exact ih items' rest (fun x hx => h x (by simp [hx])) (fun x hx => h' x (by simp [hx])) (List.append_cancel_left he) hr
  have hno : NoCharacter Reads8 rest → rest ≠ [] → ¬ ∃ text, TextOf s text := by
    rintro hn hr ⟨text, items', g1, g2, _⟩
    exact hn (uniq items items' rest h1 g1 (by rw [← h2, g2]) hr)
  cases r with
  | conversionOK =>
    simp only at h5
    exact .inl ⟨rfl, _, ⟨items, h1, by rw [h2, h5, List.append_nil], rfl⟩, h3⟩
  | sourceExhausted =>
    refine .inr ⟨by simp, hno h5.1 ?_⟩
    rintro rfl
    exact short8_nil h5.2
  | sourceIllegal => exact .inr ⟨by simp, hno h5.2.1 h5.1⟩
  | targetExhausted =>
    exfalso
    obtain ⟨u, c, tail, a, b, d⟩ := h5
    have e1 : w.length ≤ (items.flatMap (·.1)).length := by rw [h3]; exact room_items hs items h1
    have e2 := hs a
    have e3 : s.length = (items.flatMap (·.1)).length + (u.length + tail.length) := by
      rw [← List.length_append, ← b, ← List.length_append, ← h2]
    omega

theorem from32 (c : Settings UInt32) (hw : c.wide = wide32) (hu : c.utf8 = true) (s more : Bytes) :
    ∃ b w, convertFromStore c (s ++ more) s.length (sizeFromStore s.length) = .ok (b, w)
      ∧ ((b = true ∧ ∃ text, TextOf s text ∧ w = encode utf32 text) ∨ (b = false ∧ ¬ ∃ text, TextOf s text)) := by
  obtain ⟨r, rest, w, h1, h2⟩ := C73_utf8_to_utf32 .lenient s s.length
  unfold convertFromStore sizeFromStore
  rw [if_pos hu, hw, List.take_left]
  simp only [wide32, h1]
  refine ⟨_, _, rfl, ?_⟩
  rcases from_room (fun h => utf32_small h) h2 with ⟨rfl, h⟩ | ⟨hr, h⟩
  · exact .inl ⟨rfl, h⟩
  · exact .inr ⟨by cases r <;> simp at hr ⊢, h⟩

theorem from16 (c : Settings UInt16) (hw : c.wide = wide16) (hu : c.utf8 = true) (s more : Bytes) :
    ∃ b w, convertFromStore c (s ++ more) s.length (sizeFromStore s.length) = .ok (b, w)
      ∧ ((b = true ∧ ∃ text, TextOf s text ∧ w = encode utf16 text) ∨ (b = false ∧ ¬ ∃ text, TextOf s text)) := by
  obtain ⟨r, rest, w, h1, h2⟩ := C73_utf8_to_utf16 .lenient s s.length
  unfold convertFromStore sizeFromStore
  rw [if_pos hu, hw, List.take_left]
  simp only [wide16, h1]
  refine ⟨_, _, rfl, ?_⟩
  rcases from_room (fun h => utf16_small h) h2 with ⟨rfl, h⟩ | ⟨hr, h⟩
  · exact .inl ⟨rfl, h⟩
  · exact .inr ⟨by cases r <;> simp at hr ⊢, h⟩

theorem textOf_encode {text : List Nat} (ht : ∀ c ∈ text, Scalar c) : TextOf (encode utf8 text) text := by
  refine ⟨text.map fun c => (utf8 c, c), ?_, ?_, ?_⟩
  · intro i hi
    obtain ⟨c, hc, rfl⟩ := List.mem_map.mp hi
    exact .inl ⟨ht c hc, rfl⟩
  · rw [List.flatMap_map]; rfl
  · rw [List.map_map]; simp [Function.comp_def]

/-! ## Surrogates -/

theorem surrogate_bytes {c : Nat} (h : Surrogate c) : ∃ a x : UInt8, utf8 c = [0xED, a, x] ∧ 0xA0 ≤ a.toNat := by
  unfold Surrogate at h
  unfold utf8
  rw [if_neg (by omega), if_neg (by omega), if_pos (by omega)]
  exact ⟨UInt8.ofNat (0x80 + c / 64 % 64), UInt8.ofNat (0x80 + c % 64), by rw [show 0xE0 + c / 4096 = 0xED by omega]; rfl, by rw [ofNat_small _ (by omega)]; omega⟩

theorem surrogate_unread {c : Nat} (h : Surrogate c) (after : Bytes) : NoCharacter Reads8 (utf8 c ++ after) := by
  obtain ⟨a, x, e, ha⟩ := surrogate_bytes h
  rintro ⟨u, d, tail, hr, he⟩
  rw [e] at he
  rcases hr with ⟨hs, rfl⟩ | ⟨a', x', rfl, h1, _⟩ | ⟨a', x', y', rfl, _⟩
  · unfold Scalar at hs
    unfold utf8 at he
    split at he
    · simp only [List.cons_append, List.cons.injEq] at he
      have := congrArg UInt8.toNat he.1
      rw [ofNat_small _ (by omega)] at this
      simp at this; omega
    · split at he
      · simp only [List.cons_append, List.cons.injEq] at he
        have := congrArg UInt8.toNat he.1
        rw [ofNat_small _ (by omega)] at this
        simp at this; omega
      · split at he
        · simp only [List.cons_append, List.cons.injEq] at he
          have h1 := congrArg UInt8.toNat he.1
          have h2 := congrArg UInt8.toNat he.2.1
          rw [ofNat_small _ (by omega)] at h1 h2
          simp at h1; omega
        · simp only [List.cons_append, List.cons.injEq] at he
          have h1 := congrArg UInt8.toNat he.1
          rw [ofNat_small _ (by omega)] at h1
          simp at h1; omega
  · simp only [List.cons_append, List.cons.injEq] at he
    rw [he.2.1] at ha; omega
  · simp only [List.cons_append, List.cons.injEq] at he
    exact absurd he.1 (by decide)

theorem no_text {text : List Nat} (ht : ∀ c ∈ text, Scalar c) {rest : Bytes} (hr : NoCharacter Reads8 rest) (hne : rest ≠ []) :
    ¬ ∃ t, TextOf (encode utf8 text ++ rest) t := by
  rintro ⟨t, items, h1, h2, _⟩
  induction text generalizing items t with
  | nil =>
    cases items with
    | nil => exact hne (by simpa [encode] using h2)
    | cons i items => exact hr ⟨i.1, i.2, _, h1 i (by simp), by simpa [encode] using h2⟩
  | cons c text ih =>
    cases items with
    | nil => simp [encode] at h2; exact utf8_ne_nil c h2.1
    | cons i items =>
      simp only [encode, List.flatMap_cons, List.append_assoc] at h2
      obtain ⟨e1, e2⟩ := unambiguous8 _ _ _ _ _ _ (.inl ⟨ht c (by simp), rfl⟩) (h1 i (by simp)) h2
      rw [e1] at h2
      exact ih (fun x hx => ht x (by simp [hx])) _ _ (fun x hx => h1 x (by simp [hx])) (List.append_cancel_left h2) rfl

/-! ## Room for what is written -/

theorem grow_ge (need : Nat) : ∀ (fuel size : Nat), size ≤ grow need fuel size ∧ (need ≤ size * 2 ^ fuel → need ≤ grow need fuel size)
  | 0, size => ⟨Nat.le_refl _, by simp [grow]⟩
  | fuel + 1, size => by
    rw [grow]
    split
    · obtain ⟨h1, h2⟩ := grow_ge need fuel (size * 2)
      refine ⟨by omega, fun h => h2 ?_⟩
      rw [Nat.pow_succ] at h
      rw [Nat.mul_assoc, Nat.mul_comm 2]; exact h
    · exact ⟨Nat.le_refl _, fun _ => by omega⟩

theorem grow_room {need size : Nat} (h : 1 ≤ size) : need ≤ grow need need size := by
  refine (grow_ge need need size).2 ?_
  have h1 : need < 2 ^ need := Nat.lt_two_pow_self
  exact Nat.le_trans (Nat.le_of_lt h1) (Nat.le_mul_of_pos_left _ h)

theorem no_nul_utf8 {c : Nat} (h : c ≤ 0x10FFFF) (h0 : c ≠ 0) : (0 : UInt8) ∉ utf8 c := by
  have key : ∀ n, n < 256 → n ≠ 0 → (0 : UInt8) ≠ UInt8.ofNat n := by
    intro n hn h0 he
    have := congrArg UInt8.toNat he
    rw [ofNat_small n hn] at this
    exact h0 this.symm
  unfold utf8
  split
  · simp only [List.mem_singleton]; exact key _ (by omega) h0
  · split
    · simp only [List.mem_cons, List.not_mem_nil, or_false, not_or]
      exact ⟨key _ (by omega) (by omega), key _ (by omega) (by omega)⟩
    · split
      · simp only [List.mem_cons, List.not_mem_nil, or_false, not_or]
        exact ⟨key _ (by omega) (by omega), key _ (by omega) (by omega), key _ (by omega) (by omega)⟩
      · simp only [List.mem_cons, List.not_mem_nil, or_false, not_or]
        exact ⟨key _ (by omega) (by omega), key _ (by omega) (by omega), key _ (by omega) (by omega), key _ (by omega) (by omega)⟩

theorem utf8_le (c : Nat) : (utf8 c).length ≤ 4 := by
  rw [utf8_length]; unfold Utf.sizeOf8; repeat' split
  all_goals omega

theorem to8_le (v : UInt32) : (to8 v).length ≤ 4 := by
  unfold to8; split <;> exact utf8_le _

theorem flatMap_le {α : Type} {f : α → Bytes} {k : Nat} (h : ∀ v, (f v).length ≤ k) : ∀ l : List α, (l.flatMap f).length ≤ k * l.length
  | [] => by simp
  | v :: l => by
    have h1 := h v
    have h2 := flatMap_le h l
    rw [List.flatMap_cons, List.length_append, List.length_cons, Nat.mul_succ]
    omega

/-- `ConvertToStore` with the room that `SizeToStore` says: 32 bits. -/
theorem to32 (w : List UInt32) (room : Nat) (h : 6 * w.length + 1 ≤ room) :
    ∃ r rest, convert32to8 .lenient (w ++ [0]) room = .ok (r, rest, w.flatMap to8 ++ [0]) ∧ (r = .conversionOK ↔ ∀ v ∈ w, v.toNat ≤ 0x10FFFF) := by
  obtain ⟨r, rest, written, h1, done, h2, h3, h4, h5, h6⟩ := C73_utf32_to_utf8 .lenient (w ++ [0]) room
  have hlen : done.length + rest.length = w.length + 1 := by rw [← List.length_append, ← h2]; simp
  have full : rest = [] → written = w.flatMap to8 ++ [0] ∧ done = w ++ [0] := by
    intro hr
    rw [hr, List.append_nil] at h2
    refine ⟨?_, h2.symm⟩
    rw [h3, ← h2, List.flatMap_append]; rfl
  have hwl : written.length ≤ 4 * done.length := by rw [h3]; exact flatMap_le to8_le done
  cases r with
  | conversionOK =>
    obtain ⟨e1, e2⟩ := full h6.1
    refine ⟨_, rest, by rw [h1, e1], by simp only [true_iff]; intro v hv; have := h6.2 v (by rw [e2]; simp [hv]); omega⟩
  | sourceExhausted => exact h6.elim
  | sourceIllegal =>
    rcases h6 with ⟨hr, v, hv, hp⟩ | ⟨v, tail, _, hp, _⟩
    · obtain ⟨e1, e2⟩ := full hr
      refine ⟨_, rest, by rw [h1, e1], by simp, fun hall => ?_⟩
      rw [e2] at hv
      rcases List.mem_append.mp hv with hv | hv
      · have := hall v hv; omega
      · simp only [List.mem_singleton] at hv; subst hv; simp at hp
    · exact absurd hp.1 (by decide)
  | targetExhausted =>
    exfalso
    obtain ⟨v, tail, hr, _, hl⟩ := h6
    have hv4 := to8_le v
    rw [hr, List.length_cons] at hlen
    cases tail with
    | nil =>
      have : v = 0 := by
        rw [hr] at h2
        have := congrArg List.getLast? h2
        simp at this
        exact this.symm
      subst this
      have : (to8 0).length = 1 := rfl
      simp at hlen
      omega
    | cons a b =>
      simp at hlen
      omega

theorem utf8_16 (c : Nat) : (utf8 c).length ≤ 3 * (utf16 c).length := by
  rw [utf8_length, utf16_length]; unfold Utf.sizeOf8; repeat' split
  all_goals omega

theorem encode_le : ∀ text : List Nat, (encode utf8 text).length ≤ 3 * (encode utf16 text).length
  | [] => by simp [encode]
  | c :: text => by
    have h1 := utf8_16 c
    have h2 := encode_le text
    simp only [encode, List.flatMap_cons, List.length_append] at h2 ⊢
    omega

theorem utf16_last {c : Nat} (h : (utf16 c).getLast? = some 0) (hc : c ≤ 0x10FFFF) : c = 0 := by
  unfold utf16 at h
  split at h
  · simp at h
    have := congrArg UInt16.toNat h
    simp at this; omega
  · simp at h
    have := congrArg UInt16.toNat h
    simp at this; omega

theorem ends_with_nul {text : List Nat} {w : List UInt16} (hl : LenientText text []) (h : w ++ [0] = encode utf16 text) : ∃ t, w = encode utf16 t ∧ text = t ++ [0] := by
  rcases List.eq_nil_or_concat text with rfl | ⟨t, c, rfl⟩
  · simp [encode] at h
  have hc : c = 0 := by
    have := congrArg List.getLast? h
    simp only [encode, List.concat_eq_append, List.flatMap_append, List.flatMap_cons, List.flatMap_nil, List.append_nil, List.getLast?_append, List.getLast?_singleton,
      Option.some_or] at this
    refine utf16_last ?_ (hl.1 c (by simp))
    cases hq : (utf16 c).getLast? with
    | none => exact absurd (List.getLast?_eq_none_iff.mp hq) (utf16_ne_nil c)
    | some x => rw [hq] at this; simpa using this.symm
  subst hc
  refine ⟨t, ?_, by simp⟩
  have e : encode utf16 (t.concat 0) = encode utf16 t ++ utf16 0 := by simp [encode]
  rw [e] at h
  exact List.append_cancel_right h

/-- `ConvertToStore` with the room that `SizeToStore` says: 16 bits. -/
theorem to16s (w : List UInt16) (room : Nat) (h : 6 * w.length + 1 ≤ room) :
    ∃ rest text, convert16to8 .lenient (w ++ [0]) room = .ok (.conversionOK, rest, encode utf8 text ++ [0]) ∧ w = encode utf16 text ∧ LenientText text [] := by
  obtain ⟨r, rest, written, h1, text, h2, h3, h4, h5, h6⟩ := C73_utf16_to_utf8_lenient (w ++ [0]) room
  have hlen : (encode utf16 text).length + rest.length = w.length + 1 := by rw [← List.length_append, ← h3]; simp
  have hle := encode_le text
  cases r with
  | conversionOK =>
    simp only at h6
    subst h6
    rw [List.append_nil] at h3
    -- the last one is the NUL
    rcases List.eq_nil_or_concat text with rfl | ⟨t, c, rfl⟩
    · simp [encode] at h3
    have hc : c = 0 := by
      have := congrArg List.getLast? h3
      simp only [encode, List.concat_eq_append, List.flatMap_append, List.flatMap_cons, List.flatMap_nil, List.append_nil, List.getLast?_append, List.getLast?_singleton,
        Option.some_or] at this
      refine utf16_last ?_ (h2.1 c (by simp))
      cases hq : (utf16 c).getLast? with
      | none => exact absurd (List.getLast?_eq_none_iff.mp hq) (utf16_ne_nil c)
      | some x => rw [hq] at this; simpa using this.symm
    subst hc
    have e : ∀ {β : Type} (f : Nat → List β), encode f (t.concat 0) = encode f t ++ f 0 := by
      intro β f; simp [encode]
    rw [e] at h3 h4
    have hw : w = encode utf16 t := List.append_cancel_right h3
    refine ⟨[], t, by rw [h1, h4]; rfl, hw, ?_⟩
    refine ⟨fun c hc => h2.1 c (by simp [hc]), fun t1 hh t2 u tail he hH hu => ?_⟩
    refine h2.2 t1 hh (t2 ++ [0]) u (tail ++ [0]) (by simp [he]) hH ?_
    simp only [encode, List.flatMap_append, List.append_nil] at hu ⊢
    rw [hu]; rfl
  | sourceExhausted =>
    obtain ⟨u, hr, hu, _⟩ := h6
    rw [hr] at h3
    have := congrArg List.getLast? h3
    simp at this
    subst this
    simp at hu
  | sourceIllegal => exact h6.elim
  | targetExhausted =>
    exfalso
    obtain ⟨c, tail, hl, hr, hd⟩ := h6
    have h8 := utf8_16 c
    rw [hr, List.length_append] at hlen
    rw [h4] at hd
    cases tail with
    | nil =>
      have hc : c = 0 := by
        refine utf16_last ?_ (hl.1 c (by simp))
        rw [hr, List.append_nil] at h3
        have := congrArg List.getLast? h3
        rw [List.getLast?_append, List.getLast?_append] at this
        cases hq : (utf16 c).getLast? with
        | none => exact absurd (List.getLast?_eq_none_iff.mp hq) (utf16_ne_nil c)
        | some x => rw [hq] at this; simpa using this.symm
      subst hc
      have e1 : (utf8 0).length = 1 := rfl
      have e2 : (utf16 0).length = 1 := rfl
      simp at hlen
      omega
    | cons a b =>
      simp at hlen
      omega

theorem from_le {β : Type} {form : Nat → List β} (hs : ∀ {u c}, Reads8 u c → (form c).length ≤ u.length) {s : Bytes} {text : List Nat} (h : TextOf s text) :
    (encode form text).length ≤ s.length := by
  obtain ⟨items, h1, rfl, rfl⟩ := h
  exact room_items hs items h1

/-- The text of a file: without the mark. -/
def body (s : Bytes) : Bytes := if [0xEF, 0xBB, 0xBF] <+: s then s.drop 3 else s

theorem prepare_of {α : Type} [DecidableEq α] {c : Settings α} (hu : c.utf8 = true) {form : Nat → List α} (hs : ∀ {u c}, Reads8 u c → (form c).length ≤ u.length)
    (hf : ∀ s more : Bytes, ∃ b w, convertFromStore c (s ++ more) s.length (sizeFromStore s.length) = .ok (b, w)
      ∧ ((b = true ∧ ∃ text, TextOf s text ∧ w = encode form text) ∨ (b = false ∧ ¬ ∃ text, TextOf s text)))
    (s more : Bytes) (hne : s ≠ []) :
    ((¬ ∃ text, TextOf (body s) text) ∧ prepare c (s ++ more) s.length = .ok .fail)
    ∨ ∃ text k, TextOf (body s) text ∧ prepare c (s ++ more) s.length = .ok (.text (encode form text ++ List.replicate (k + 1) c.wide.zero))
        ∧ (encode form text).length + k = (body s).length := by
  have hmark : (c.utf8 && decide (3 ≤ s.length) && ((s ++ more).take 3 == [0xEF, 0xBB, 0xBF])) = decide ([0xEF, 0xBB, 0xBF] <+: s) := by
    rw [hu, Bool.true_and, Bool.eq_iff_iff]
    simp only [Bool.and_eq_true, decide_eq_true_eq, beq_iff_eq]
    constructor
    · rintro ⟨h1, h2⟩
      rw [List.take_append_of_le_length h1] at h2
      exact ⟨s.drop 3, by rw [← h2, List.take_append_drop]⟩
    · rintro ⟨t, rfl⟩
      exact ⟨by simp, by simp⟩
  have hcore : ∀ (s more : Bytes),
      ((¬ ∃ text, TextOf s text) ∧ (match convertFromStore c (s ++ more) s.length (sizeFromStore s.length) with
        | .ok (true, w) => Outcome.ok (Prepared.text (w ++ List.replicate (sizeFromStore s.length + 1 - w.length) c.wide.zero))
        | .ok (false, _) => .ok .fail
        | .ub => .ub
        | .throw e => .throw e) = .ok .fail)
      ∨ ∃ text k, TextOf s text ∧ (match convertFromStore c (s ++ more) s.length (sizeFromStore s.length) with
        | .ok (true, w) => Outcome.ok (Prepared.text (w ++ List.replicate (sizeFromStore s.length + 1 - w.length) c.wide.zero))
        | .ok (false, _) => .ok .fail
        | .ub => .ub
        | .throw e => .throw e) = .ok (.text (encode form text ++ List.replicate (k + 1) c.wide.zero)) ∧ (encode form text).length + k = s.length := by
    intro s more
    obtain ⟨b, w, h1, h2⟩ := hf s more
    rw [h1]
    rcases h2 with ⟨rfl, text, h3, rfl⟩ | ⟨rfl, h3⟩
    · have hle := from_le (form := form) hs h3
      refine .inr ⟨text, s.length - (encode form text).length, h3, ?_, by omega⟩
      simp only [sizeFromStore]
      rw [show s.length + 1 - (encode form text).length = s.length - (encode form text).length + 1 by omega]
    · exact .inl ⟨h3, rfl⟩
  unfold prepare
  rw [if_neg (by simpa using hne)]
  simp only [hmark]
  unfold body
  by_cases hp : [0xEF, 0xBB, 0xBF] <+: s
  · rw [if_pos hp, decide_eq_true hp]
    simp only [if_true]
    obtain ⟨t, rfl⟩ := hp
    have := hcore t more
    have e1 : ([0xEF, 0xBB, 0xBF] ++ t ++ more).drop 3 = t ++ more := rfl
    have e2 : ([0xEF, 0xBB, 0xBF] ++ t).drop 3 = t := rfl
    have e3 : ([0xEF, 0xBB, 0xBF] ++ t : Bytes).length - 3 = t.length := by simp
    rw [e1, e2, e3]
    exact this
  · rw [if_neg hp, decide_eq_false hp]
    simp only [Bool.false_eq_true, if_false]
    exact hcore s more

theorem textOf_unique {s : Bytes} {t t' : List Nat} (h : TextOf s t) (h' : TextOf s t') : t = t' := by
  obtain ⟨items, h1, rfl, rfl⟩ := h
  obtain ⟨items', h1', h2, rfl⟩ := h'
  induction items generalizing items' with
  | nil =>
    cases items' with
    | nil => rfl
    | cons i l =>
      exfalso
      have := (reads_scalar _ _ (h1' i (by simp))).2
      simp at h2
      exact this h2.1
  | cons i items ih =>
    cases items' with
    | nil =>
      exfalso
      have := (reads_scalar _ _ (h1 i (by simp))).2
      simp at h2
      exact this h2.1
    | cons i' items' =>
      rw [List.flatMap_cons, List.flatMap_cons] at h2
      obtain ⟨e1, e2⟩ := unambiguous8 _ _ _ _ _ _ (h1 i (by simp)) (h1' i' (by simp)) h2
      rw [e1] at h2
      have := ih (fun x hx => h1 x (by simp [hx])) items' (fun x hx => h1' x (by simp [hx])) (List.append_cancel_left h2)
      simp only [List.map_cons, e2, this]

/-- Of a text of characters there is one lenient reading. -/
theorem lenient_unique : ∀ {text text' : List Nat}, (∀ v ∈ text, Scalar v ∧ v ≠ 0) → LenientText text' [] → encode utf16 text = encode utf16 text' → text' = text
  | [], [], _, _, _ => rfl
  | [], c :: l, _, _, he => by
    exfalso; simp [encode] at he; exact utf16_ne_nil c he.1
  | c :: l, [], _, _, he => by
    exfalso; simp [encode] at he; exact utf16_ne_nil c he.1
  | c :: l, d :: l', h, hl, he => by
    have hd := hl.1 d (by simp)
    have hc := (h c (by simp)).1
    have hcd : d = c ∧ encode utf16 l = encode utf16 l' := by
      unfold Scalar at hc
      have he' : utf16 c ++ encode utf16 l = utf16 d ++ encode utf16 l' := by simpa [encode] using he
      by_cases h1 : c < 0x10000
      · by_cases h2 : d < 0x10000
        · simp only [utf16, h1, h2, if_true, List.singleton_append, List.cons.injEq] at he'
          have := congrArg UInt16.toNat he'.1
          simp at this
          exact ⟨by omega, he'.2⟩
        · exfalso
          simp only [utf16, h1, h2, if_true, if_false, List.cons_append, List.nil_append, List.cons.injEq] at he'
          have := congrArg UInt16.toNat he'.1
          simp at this
          omega
      · by_cases h2 : d < 0x10000
        · exfalso
          simp only [utf16, h1, h2, if_true, if_false, List.cons_append, List.nil_append, List.cons.injEq] at he'
          have e := congrArg UInt16.toNat he'.1
          simp at e
          have hh : HighSurrogate d := by unfold HighSurrogate; omega
          refine hl.2 [] d l' _ _ rfl hh (by rw [List.append_nil, ← he'.2]) ?_
          unfold LowSurrogate; simp; omega
        · simp only [utf16, h1, h2, if_false, List.cons_append, List.nil_append, List.cons.injEq] at he'
          have e1 := congrArg UInt16.toNat he'.1
          have e2 := congrArg UInt16.toNat he'.2.1
          simp at e1 e2
          exact ⟨by omega, he'.2.2⟩
    have hl' : LenientText l' [] := ⟨fun x hx => hl.1 x (by simp [hx]), fun t1 hh t2 u tail e a b => hl.2 (d :: t1) hh t2 u tail (by simp [e]) a b⟩
    rw [hcd.1, lenient_unique (fun x hx => h x (by simp [hx])) hl' hcd.2]

theorem no_body {text : List Nat} (ht : ∀ c ∈ text, Scalar c) {rest : Bytes} (hr : NoCharacter Reads8 rest) (hne : rest ≠ []) :
    ¬ ∃ t, TextOf (body (encode utf8 text ++ rest)) t := by
  unfold body
  split
  · rename_i hp
    obtain ⟨t, he⟩ := hp
    have h8 : utf8 0xFEFF = [0xEF, 0xBB, 0xBF] := by decide
    have hsc : Reads8 [0xEF, 0xBB, 0xBF] 0xFEFF := .inl ⟨by decide, h8.symm⟩
    cases text with
    | nil => exact absurd ⟨_, _, t, hsc, by simpa [encode] using he.symm⟩ hr
    | cons c text =>
      have he' : [0xEF, 0xBB, 0xBF] ++ t = utf8 c ++ (encode utf8 text ++ rest) := by rw [he]; simp [encode]
      obtain ⟨e1, e2⟩ := unambiguous8 _ _ _ _ _ _ hsc (.inl ⟨ht c (by simp), rfl⟩) he'
      rw [← e1] at he'
      rw [← he]
      show ¬ ∃ x, TextOf t x
      rw [List.append_cancel_left he']
      exact no_text (fun x hx => ht x (by simp [hx])) hr hne
  · exact no_text ht hr hne

/-- The first code point that is no character. -/
theorem first_bad : ∀ {text : List Nat}, (∀ c ∈ text, c ≤ 0x10FFFF) → ¬ (∀ c ∈ text, Scalar c) → ∃ t1 v t2, text = t1 ++ v :: t2 ∧ (∀ c ∈ t1, Scalar c) ∧ Surrogate v
  | [], _, h => by simp at h
  | c :: l, hl, h => by
    by_cases hc : Scalar c
    · obtain ⟨t1, v, t2, e, h1, h2⟩ := first_bad (text := l) (fun x hx => hl x (by simp [hx])) (fun hall => h (by
        intro x hx
        rcases List.mem_cons.mp hx with rfl | hx
        · exact hc
        · exact hall x hx))
      refine ⟨c :: t1, v, t2, by rw [e]; rfl, ?_, h2⟩
      intro x hx
      rcases List.mem_cons.mp hx with rfl | hx
      · exact hc
      · exact h1 x hx
    · refine ⟨[], c, l, rfl, by simp, ?_⟩
      have := hl c (by simp)
      unfold Scalar at hc
      unfold Surrogate
      omega

theorem bad_file {text before : List Nat} (hb : ∀ c ∈ before, Scalar c) (hl : ∀ c ∈ text, c ≤ 0x10FFFF) (h : ¬ ∀ c ∈ text, Scalar c) (after : Bytes) :
    ¬ ∃ t, TextOf (body (encode utf8 before ++ encode utf8 text ++ after)) t := by
  obtain ⟨t1, v, t2, rfl, h1, h2⟩ := first_bad hl h
  have e : encode utf8 before ++ encode utf8 (t1 ++ v :: t2) ++ after = encode utf8 (before ++ t1) ++ (utf8 v ++ (encode utf8 t2 ++ after)) := by
    simp [encode, List.flatMap_append]
  rw [e]
  refine no_body ?_ (surrogate_unread h2 _) (by simp [utf8_ne_nil])
  intro c hc
  rcases List.mem_append.mp hc with hc | hc
  · exact hb c hc
  · exact h1 c hc

/-! ## Locales -/

/-- A text in a locale: its characters, each with its bytes, whatever follows. -/
def Chars {α : Type} (zero : α) (read : Bytes → Mb α) (items : List (Bytes × α)) : Prop :=
  ∀ i ∈ items, i.1 ≠ [] ∧ i.2 ≠ zero ∧ ∀ tail, read (i.1 ++ tail) = .char i.2 i.1.length

theorem mbstowcs_chars {α : Type} [DecidableEq α] {zero : α} {read : Bytes → Mb α} : ∀ {items : List (Bytes × α)} (_ : Chars zero read items) (room : Nat) (rest : Bytes),
    mbstowcs zero read room (items.flatMap (·.1) ++ rest)
      = if room ≤ items.length then .ok (some ((items.map (·.2)).take room))
        else match mbstowcs zero read (room - items.length) rest with
          | .ok r => .ok (r.map ((items.map (·.2)) ++ ·))
          | .ub => .ub
          | .throw e => .throw e
  | items, h, 0, rest => by simp [mbstowcs]
  | [], h, room + 1, rest => by
    rw [if_neg (by simp)]
    simp
    split
    · rename_i r he; cases r <;> simp_all
    · assumption
    · assumption
  | i :: items, h, room + 1, rest => by
    obtain ⟨h1, h2, h3⟩ := h i (by simp)
    obtain ⟨b, u, hu⟩ := List.exists_cons_of_ne_nil h1
    have e : (i :: items).flatMap (·.1) ++ rest = b :: (u ++ (items.flatMap (·.1) ++ rest)) := by
      rw [List.flatMap_cons, hu]; simp
    have hr : read (b :: (u ++ (items.flatMap (·.1) ++ rest))) = .char i.2 i.1.length := by
      have := h3 (items.flatMap (·.1) ++ rest)
      rwa [hu, List.cons_append, ← hu] at this
    have hd : (b :: (u ++ (items.flatMap (·.1) ++ rest))).drop i.1.length = items.flatMap (·.1) ++ rest := by
      rw [hu, ← List.cons_append]; simp
    rw [e, mbstowcs, hr]
    simp only [h2, if_false, hd]
    rw [mbstowcs_chars (fun x hx => h x (by simp [hx])) room rest]
    by_cases hle : room ≤ items.length
    · rw [if_pos hle, if_pos (by simp; omega)]; simp
    · rw [if_neg hle, if_neg (by simp; omega)]
      rw [show room + 1 - (i :: items).length = room - items.length by simp]
      cases hm : mbstowcs zero read (room - items.length) rest with
      | ok r => cases r <;> simp
      | ub => rfl
      | throw e => rfl

theorem wcstombs_full {α : Type} {write : α → Option Bytes} : ∀ {s : List α} {u : Bytes} {room : Nat}, wcsBytes write s = some u → u.length < room →
    wcstombs write room s = some (u ++ [0])
  | [], u, room, h, hr => by
    simp [wcsBytes] at h; subst h
    simp [wcstombs]; simp at hr; omega
  | c :: s, u, room, h, hr => by
    rw [wcsBytes] at h
    split at h
    · rename_i b r hb hs
      cases h
      rw [wcstombs, if_neg (by omega), hb]
      rw [List.length_append] at hr
      simp only
      rw [if_neg (by omega), wcstombs_full hs (by omega)]
      simp
    · cases h

/-- What of a string gets into a buffer: the longest beginning that fits. -/
theorem wcstombs_fits {α : Type} {write : α → Option Bytes} : ∀ {s : List α} {room : Nat} {b : Bytes}, wcstombs write room s = some b →
    ∃ p q u, s = p ++ q ∧ wcsBytes write p = some u ∧ u.length ≤ room
      ∧ ((q = [] ∧ b = if u.length < room then u ++ [0] else u)
         ∨ ∃ c r, q = c :: r ∧ b = u ∧ (u.length = room ∨ ∃ v, write c = some v ∧ room < u.length + v.length))
  | [], room, b, h => by
    refine ⟨[], [], [], rfl, rfl, by simp, .inl ⟨rfl, ?_⟩⟩
    simp only [wcstombs, Option.some.injEq] at h
    subst h
    by_cases hr : room = 0
    · simp [hr]
    · rw [if_neg hr, if_pos (by simp; omega)]; rfl
  | c :: s, room, b, h => by
    rw [wcstombs] at h
    split at h
    · rename_i hr
      cases h
      exact ⟨[], c :: s, [], rfl, rfl, by simp, .inr ⟨c, s, rfl, rfl, .inl (by simp [hr])⟩⟩
    · split at h
      · cases h
      · rename_i v hv
        split at h
        · rename_i hlt
          cases h
          exact ⟨[], c :: s, [], rfl, rfl, by simp, .inr ⟨c, s, rfl, rfl, .inr ⟨v, hv, by simpa using hlt⟩⟩⟩
        · rename_i hge
          obtain ⟨b', hb', rfl⟩ := Option.map_eq_some_iff.mp h
          obtain ⟨p, q, u, e, h1, h2, h3⟩ := wcstombs_fits hb'
          refine ⟨c :: p, q, v ++ u, by rw [e]; rfl, by rw [wcsBytes, hv, h1], by simp; omega, ?_⟩
          rcases h3 with ⟨hq, hb⟩ | ⟨d, r, hq, hb, h4⟩
          · refine .inl ⟨hq, ?_⟩
            rw [hb, List.length_append]
            by_cases hlt : u.length < room - v.length
            · rw [if_pos hlt, if_pos (by omega), List.append_assoc]
            · rw [if_neg hlt, if_neg (by omega)]
          · refine .inr ⟨d, r, hq, by rw [hb], ?_⟩
            rw [List.length_append]
            rcases h4 with h4 | ⟨x, hx, hl⟩
            · exact .inl (by omega)
            · exact .inr ⟨x, hx, by omega⟩

theorem wcsBytes_no_nul {α : Type} {write : α → Option Bytes} : ∀ {s : List α} {u : Bytes}, (∀ c ∈ s, ∀ v, write c = some v → (0 : UInt8) ∉ v) → wcsBytes write s = some u →
    (0 : UInt8) ∉ u
  | [], u, _, h => by simp [wcsBytes] at h; subst h; simp
  | c :: s, u, hn, h => by
    rw [wcsBytes] at h
    split at h
    · rename_i b r hb hs
      cases h
      intro hm
      rcases List.mem_append.mp hm with hm | hm
      · exact hn c (by simp) b hb hm
      · exact wcsBytes_no_nul (fun x hx => hn x (by simp [hx])) hs hm
    · cases h

theorem takeWhile_data {b : Bytes} (hb : (0 : UInt8) ∉ b) (more : Bytes) : data (b ++ 0 :: more) = some b := by
  unfold data
  rw [if_pos (by simp)]
  congr 1
  rw [List.takeWhile_append_of_pos (by intro x hx; simp only [ne_eq, decide_eq_true_eq]; rintro rfl; exact hb hx)]
  simp

end IniWide

/-! ## Loading -/

/-- LoadData of an object whose characters are of 32 bits and whose files are UTF-8: no byte behind the data is used; SI_FAIL exactly if the data, without the mark, are no
    text; else the buffer has a unit for each byte and one more, the text is complete, and a NUL follows. -/
theorem C79_load32 (c : Settings UInt32) (hw : c.wide = wide32) (hu : c.utf8 = true) (s more : Bytes) (hne : s ≠ []) :
    ((¬ ∃ text, TextOf (body s) text) ∧ prepare c (s ++ more) s.length = .ok .fail)
    ∨ ∃ text k, TextOf (body s) text ∧ prepare c (s ++ more) s.length = .ok (.text (encode utf32 text ++ List.replicate (k + 1) 0))
        ∧ (encode utf32 text).length + k = (body s).length := by
  have := prepare_of hu (fun h => utf32_small h) (from32 c hw hu) s more hne
  rw [hw] at this
  exact this

/-- The same with characters of 16 bits. -/
theorem C79_load16 (c : Settings UInt16) (hw : c.wide = wide16) (hu : c.utf8 = true) (s more : Bytes) (hne : s ≠ []) :
    ((¬ ∃ text, TextOf (body s) text) ∧ prepare c (s ++ more) s.length = .ok .fail)
    ∨ ∃ text k, TextOf (body s) text ∧ prepare c (s ++ more) s.length = .ok (.text (encode utf16 text ++ List.replicate (k + 1) 0))
        ∧ (encode utf16 text).length + k = (body s).length := by
  have := prepare_of hu (fun h => utf16_small h) (from16 c hw hu) s more hne
  rw [hw] at this
  exact this

/-! ## Saving -/

/-- Converter::ConvertToStore of a string of 32-bit characters: any buffer that is not empty becomes large enough; it fails exactly if a unit is beyond 0x10FFFF; what can be
    read from the buffer is the UTF-8 of the string, complete (and for surrogates what the formula of UTF-8 gives). -/
theorem C79_save32 (c : Settings UInt32) (hw : c.wide = wide32) (hu : c.utf8 = true) (scratch : Bytes) (hs : scratch ≠ []) (w : List UInt32) (h0 : 0 ∉ w) :
    ∃ ok buffer, convert c scratch w = .ok (ok, buffer) ∧ scratch.length ≤ buffer.length
      ∧ (ok = true ↔ ∀ v ∈ w, v.toNat ≤ 0x10FFFF) ∧ (ok = true → data buffer = some (encode utf8 (w.map (·.toNat)))) := by
  have hroom : 6 * w.length + 1 ≤ grow (6 * w.length + 1) (6 * w.length + 1) scratch.length := grow_room (List.length_pos_iff.mpr hs)
  have hge := (grow_ge (6 * w.length + 1) (6 * w.length + 1) scratch.length).1
  obtain ⟨r, rest, h1, h2⟩ := to32 w _ hroom
  have hl : (w.flatMap to8).length ≤ 4 * w.length := flatMap_le to8_le w
  unfold convert sizeToStore convertToStore
  simp only [hu, if_true, hw]
  have h1' : wide32.to8 (w ++ [wide32.zero]) (grow (6 * w.length + 1) (6 * w.length + 1) scratch.length) = .ok (r, rest, w.flatMap to8 ++ [0]) := h1
  rw [h1']
  refine ⟨_, _, rfl, ?_, ?_, ?_⟩
  · simp only [List.length_append, List.length_drop, List.length_replicate, List.length_singleton]; omega
  · rw [← h2]; simp
  · intro hr
    have hall := h2.mp (by simpa using hr)
    have e : w.flatMap to8 = encode utf8 (w.map (·.toNat)) := by
      have : ∀ l : List UInt32, (∀ v ∈ l, v.toNat ≤ 0x10FFFF) → l.flatMap to8 = encode utf8 (l.map (·.toNat)) := by
        intro l
        induction l with
        | nil => intro _; rfl
        | cons v l ih =>
          intro h
          have := ih (fun x hx => h x (by simp [hx]))
          simp only [encode, List.map_cons, List.flatMap_cons] at this ⊢
          rw [this, to8, if_pos (h v (by simp))]
      exact this w hall
    rw [e, List.append_assoc, List.singleton_append]
    refine takeWhile_data ?_ _
    intro hm
    simp only [encode, List.mem_flatMap, List.mem_map] at hm
    obtain ⟨n, ⟨v, hv, rfl⟩, hm⟩ := hm
    refine no_nul_utf8 (hall v hv) ?_ hm
    intro hz
    refine h0 ?_
    have : v = 0 := UInt32.toNat_inj.mp (by simpa using hz)
    rw [← this]; exact hv

/-- The same for 16-bit characters: it never fails. The string is read as UTF-16; surrogates on their own stand for themselves. -/
theorem C79_save16 (c : Settings UInt16) (hw : c.wide = wide16) (hu : c.utf8 = true) (scratch : Bytes) (hs : scratch ≠ []) (w : List UInt16) (h0 : 0 ∉ w) :
    ∃ buffer text, convert c scratch w = .ok (true, buffer) ∧ scratch.length ≤ buffer.length ∧ w = encode utf16 text ∧ LenientText text []
      ∧ data buffer = some (encode utf8 text) := by
  have hroom : 6 * w.length + 1 ≤ grow (6 * w.length + 1) (6 * w.length + 1) scratch.length := grow_room (List.length_pos_iff.mpr hs)
  have hge := (grow_ge (6 * w.length + 1) (6 * w.length + 1) scratch.length).1
  obtain ⟨rest, text, h1, h2, h3⟩ := to16s w _ hroom
  have hl := encode_le text
  rw [← h2] at hl
  unfold convert sizeToStore convertToStore
  simp only [hu, if_true, hw]
  have h1' : wide16.to8 (w ++ [wide16.zero]) (grow (6 * w.length + 1) (6 * w.length + 1) scratch.length) = .ok (.conversionOK, rest, encode utf8 text ++ [0]) := h1
  rw [h1']
  refine ⟨_, text, rfl, ?_, h2, h3, ?_⟩
  · simp only [List.length_append, List.length_drop, List.length_replicate, List.length_singleton]; omega
  · rw [List.append_assoc, List.singleton_append]
    refine takeWhile_data ?_ _
    intro hm
    simp only [encode, List.mem_flatMap] at hm
    obtain ⟨n, hn, hm⟩ := hm
    refine no_nul_utf8 (h3.1 n hn) ?_ hm
    rintro rfl
    apply h0
    rw [h2, encode, List.mem_flatMap]
    exact ⟨0, hn, by decide⟩

/-! ## Round trips -/

/-- A string of characters that is saved is read back as it was, for 32 and for 16 bits, and whatever follows the text in memory. -/
theorem C79_round_trip (text : List Nat) (ht : ∀ v ∈ text, Scalar v ∧ v ≠ 0) (scratch more : Bytes) (hs : scratch ≠ [])
    (c : Settings UInt32) (hw : c.wide = wide32) (hu : c.utf8 = true) (d : Settings UInt16) (hw' : d.wide = wide16) (hu' : d.utf8 = true) :
    (∃ b, convert c scratch (encode utf32 text) = .ok (true, b) ∧ data b = some (encode utf8 text))
    ∧ (∃ b, convert d scratch (encode utf16 text) = .ok (true, b) ∧ data b = some (encode utf8 text))
    ∧ (let s := encode utf8 text
       convertFromStore c (s ++ more) s.length (sizeFromStore s.length) = .ok (true, encode utf32 text)
       ∧ convertFromStore d (s ++ more) s.length (sizeFromStore s.length) = .ok (true, encode utf16 text)) := by
  have hle : ∀ v ∈ text, v ≤ 0x10FFFF := by
    intro v hv; have := (ht v hv).1; unfold Scalar at this; omega
  have hT := textOf_encode (fun v hv => (ht v hv).1)
  refine ⟨?_, ?_, ?_, ?_⟩
  · have hto : (encode utf32 text).map (·.toNat) = text := by
      have : ∀ l : List Nat, (∀ v ∈ l, v ≤ 0x10FFFF) → (encode utf32 l).map (·.toNat) = l := by
        intro l
        induction l with
        | nil => intro _; rfl
        | cons v l ih =>
          intro h
          have h1 := ih (fun x hx => h x (by simp [hx]))
          have h2 := h v (by simp)
          simp only [encode, List.flatMap_cons, List.map_append, utf32, List.map_cons, List.map_nil, List.singleton_append, List.cons.injEq] at h1 ⊢
          exact ⟨by simp; omega, h1⟩
      exact this text hle
    have hall : ∀ v ∈ encode utf32 text, v.toNat ∈ text := by
      intro v hv
      have : v.toNat ∈ (encode utf32 text).map (·.toNat) := List.mem_map.mpr ⟨v, hv, rfl⟩
      rwa [hto] at this
    obtain ⟨ok, b, h1, _, h2, h3⟩ := C79_save32 c hw hu scratch hs (encode utf32 text) (fun h => (ht _ (hall 0 h)).2 rfl)
    have hok : ok = true := h2.mpr fun v hv => hle _ (hall v hv)
    refine ⟨b, by rw [h1, hok], ?_⟩
    rw [h3 hok, hto]
  · have h0 : (0 : UInt16) ∉ encode utf16 text := by
      intro hm
      simp only [encode, List.mem_flatMap] at hm
      obtain ⟨v, hv, hm⟩ := hm
      have h1 := hle v hv
      have h2 := (ht v hv).2
      unfold utf16 at hm
      split at hm <;> simp at hm
      · have := congrArg UInt16.toNat hm; simp at this; omega
      · rcases hm with hm | hm <;> (have := congrArg UInt16.toNat hm; simp at this; omega)
    obtain ⟨b, text', h1, _, h2, h3, h4⟩ := C79_save16 d hw' hu' scratch hs (encode utf16 text) h0
    refine ⟨b, h1, ?_⟩
    rw [h4, lenient_unique ht h3 h2]
  · obtain ⟨b, w, h1, h2⟩ := from32 c hw hu (encode utf8 text) more
    rcases h2 with ⟨rfl, t, hT', rfl⟩ | ⟨_, hn⟩
    · rw [h1, textOf_unique hT hT']
    · exact absurd ⟨_, hT⟩ hn
  · obtain ⟨b, w, h1, h2⟩ := from16 d hw' hu' (encode utf8 text) more
    rcases h2 with ⟨rfl, t, hT', rfl⟩ | ⟨_, hn⟩
    · rw [h1, textOf_unique hT hT']
    · exact absurd ⟨_, hT⟩ hn

/-- A string that is not well formed (surrogates on their own) is saved without an error, but nothing that is saved with it can be loaded again: whatever stands in front of
    it and behind it in the file. 32 bits. -/
theorem C79_surrogate32 (c : Settings UInt32) (hw : c.wide = wide32) (hu : c.utf8 = true) (scratch : Bytes) (hs : scratch ≠ []) (w : List UInt32) (h0 : 0 ∉ w)
    (hle : ∀ v ∈ w, v.toNat ≤ 0x10FFFF) (hbad : ∃ v ∈ w, Surrogate v.toNat) :
    ∃ buffer saved, convert c scratch w = .ok (true, buffer) ∧ data buffer = some saved
      ∧ ∀ (before : List Nat) (after more : Bytes), (∀ v ∈ before, Scalar v) →
          let file := encode utf8 before ++ saved ++ after
          prepare c (file ++ more) file.length = .ok .fail := by
  obtain ⟨ok, b, h1, _, h2, h3⟩ := C79_save32 c hw hu scratch hs w h0
  have hok := h2.mpr hle
  refine ⟨b, _, by rw [h1, hok], h3 hok, ?_⟩
  intro before after more hb
  obtain ⟨v, hv, hsv⟩ := hbad
  have hno := bad_file (text := w.map (·.toNat)) hb
    (by intro x hx; obtain ⟨y, hy, rfl⟩ := List.mem_map.mp hx; exact hle y hy)
    (by
      intro hall
      have := hall _ (List.mem_map.mpr ⟨v, hv, rfl⟩)
      unfold Scalar at this; unfold Surrogate at hsv; omega) after
  intro file
  have hne : file ≠ [] := by
    intro he
    apply hno
    rw [show encode utf8 before ++ encode utf8 (w.map (·.toNat)) ++ after = [] from he]
    exact ⟨[], [], by simp, rfl, rfl⟩
  rcases C79_load32 c hw hu file more hne with ⟨_, h⟩ | ⟨text, _, h, _⟩
  · exact h
  · exact absurd ⟨text, h⟩ hno

/-- The same with 16 bits: the strings that are no UTF-16. -/
theorem C79_surrogate16 (c : Settings UInt16) (hw : c.wide = wide16) (hu : c.utf8 = true) (scratch : Bytes) (hs : scratch ≠ []) (w : List UInt16) (h0 : 0 ∉ w)
    (hbad : ¬ ∃ text, (∀ v ∈ text, Scalar v) ∧ w = encode utf16 text) :
    ∃ buffer saved, convert c scratch w = .ok (true, buffer) ∧ data buffer = some saved
      ∧ ∀ (before : List Nat) (after more : Bytes), (∀ v ∈ before, Scalar v) →
          let file := encode utf8 before ++ saved ++ after
          prepare c (file ++ more) file.length = .ok .fail := by
  obtain ⟨b, text, h1, _, h2, h3, h4⟩ := C79_save16 c hw hu scratch hs w h0
  refine ⟨b, _, h1, h4, ?_⟩
  intro before after more hb
  have hno := bad_file (text := text) hb h3.1 (fun hall => hbad ⟨text, hall, h2⟩) after
  intro file
  have hne : file ≠ [] := by
    intro he
    apply hno
    rw [show encode utf8 before ++ encode utf8 text ++ after = [] from he]
    exact ⟨[], [], by simp, rfl, rfl⟩
  rcases C79_load16 c hw hu file more hne with ⟨_, h⟩ | ⟨text, _, h, _⟩
  · exact h
  · exact absurd ⟨text, h⟩ hno

/-! ## Files in the encoding of the locale -/

/-- LoadData of data in the encoding of the locale, `room` characters: the conversion is told how many characters there is room for, not how many bytes there are. It takes
    that many characters, also from behind the data; if the characters that are there are fewer it reads on behind them; a NUL behind them ends it. -/
theorem C79_mb {α : Type} [DecidableEq α] (c : Settings α) (hu : c.utf8 = false) (items : List (Bytes × α)) (hi : Chars c.wide.zero c.locale.read items) (len : Nat) :
    (convertFromStore c (items.flatMap (·.1)) len (sizeFromStore len)
      = if len ≤ items.length then .ok (true, (items.map (·.2)).take len) else .ub)
    ∧ ((∀ tail, c.locale.read (0 :: tail) = .char c.wide.zero 1) → ∀ more,
        convertFromStore c (items.flatMap (·.1) ++ 0 :: more) len (sizeFromStore len) = .ok (true, (items.map (·.2)).take len)) := by
  unfold convertFromStore sizeFromStore
  simp only [hu, Bool.false_eq_true, if_false]
  constructor
  · have h := mbstowcs_chars hi len []
    rw [List.append_nil] at h
    rw [h]
    by_cases hl : len ≤ items.length
    · rw [if_pos hl, if_pos hl]
    · rw [if_neg hl, if_neg hl]
      obtain ⟨k, hk⟩ : ∃ k, len - items.length = k + 1 := ⟨len - items.length - 1, by omega⟩
      rw [hk, mbstowcs]
  · intro hz more
    rw [mbstowcs_chars hi len (0 :: more)]
    by_cases hl : len ≤ items.length
    · rw [if_pos hl]
    · rw [if_neg hl]
      obtain ⟨k, hk⟩ : ∃ k, len - items.length = k + 1 := ⟨len - items.length - 1, by omega⟩
      rw [hk, mbstowcs, hz]
      simp
      rw [List.take_of_length_le (by simp; omega)]

/-- So data of the caller, not followed by a NUL, are read beyond their end exactly if one of the characters has more than one byte. -/
theorem C79_mb_beyond {α : Type} [DecidableEq α] (c : Settings α) (hu : c.utf8 = false) (items : List (Bytes × α)) (hi : Chars c.wide.zero c.locale.read items) :
    let s := items.flatMap (·.1)
    (convertFromStore c s s.length (sizeFromStore s.length) = .ub ↔ ∃ i ∈ items, 1 < i.1.length)
    ∧ ((∀ i ∈ items, i.1.length = 1) → convertFromStore c s s.length (sizeFromStore s.length) = .ok (true, items.map (·.2))) := by
  intro s
  have hlen : ∀ l : List (Bytes × α), (∀ i ∈ l, i.1 ≠ []) → l.length ≤ (l.flatMap (·.1)).length ∧ ((l.flatMap (·.1)).length ≤ l.length ↔ ∀ i ∈ l, i.1.length = 1) := by
    intro l
    induction l with
    | nil => intro _; simp
    | cons i l ih =>
      intro h
      obtain ⟨h1, h2⟩ := ih (fun x hx => h x (by simp [hx]))
      have h3 := List.length_pos_iff.mpr (h i (by simp))
      rw [List.flatMap_cons, List.length_append, List.length_cons]
      refine ⟨by omega, ?_⟩
      constructor
      · intro hle x hx
        rcases List.mem_cons.mp hx with rfl | hx
        · omega
        · exact h2.mp (by omega) x hx
      · intro hall
        have := h2.mpr (fun x hx => hall x (by simp [hx]))
        have := hall i (by simp)
        omega
  obtain ⟨h1, h2⟩ := hlen items (fun i h => (hi i h).1)
  have h := (C79_mb c hu items hi s.length).1
  constructor
  · rw [h]
    by_cases hl : s.length ≤ items.length
    · rw [if_pos hl]
      have hall := h2.mp hl
      simp only [reduceCtorEq, false_iff, not_exists, not_and]
      intro i hm
      have := hall i hm
      omega
    · rw [if_neg hl]
      simp only [true_iff]
      apply Classical.byContradiction
      intro hno
      refine hl (h2.mpr fun i hm => ?_)
      have h3 := List.length_pos_iff.mpr (hi i hm).1
      have h4 : ¬ 1 < i.1.length := fun h => hno ⟨i, hm, h⟩
      omega
  · intro hall
    have hl := h2.mpr hall
    rw [h, if_pos hl, List.take_of_length_le (by simp; exact h1)]

/-- LoadFile in the encoding of the locale (a NUL is put behind the data, C78): data that are characters are loaded completely, with a NUL behind them; bytes that are no
    character are SI_FAIL. -/
theorem C79_load_mb {α : Type} [DecidableEq α] (c : Settings α) (hu : c.utf8 = false) (hz : ∀ tail, c.locale.read (0 :: tail) = .char c.wide.zero 1)
    (items : List (Bytes × α)) (hi : Chars c.wide.zero c.locale.read items) (rest more : Bytes) :
    let s := items.flatMap (·.1)
    (s ≠ [] → ∃ k, prepare c (s ++ 0 :: more) s.length = .ok (.text (items.map (·.2) ++ List.replicate (k + 1) c.wide.zero)) ∧ items.length + k = s.length)
    ∧ (rest ≠ [] → c.locale.read (rest ++ more) = .illegal → prepare c (s ++ rest ++ more) (s ++ rest).length = .ok .fail) := by
  intro s
  have hlen : items.length ≤ s.length := by
    have : ∀ l : List (Bytes × α), (∀ i ∈ l, i.1 ≠ []) → l.length ≤ (l.flatMap (·.1)).length := by
      intro l
      induction l with
      | nil => simp
      | cons i l ih =>
        intro h
        have h1 := ih (fun x hx => h x (by simp [hx]))
        have h2 := List.length_pos_iff.mpr (h i (by simp))
        rw [List.flatMap_cons, List.length_append, List.length_cons]; omega
    exact this items (fun i h => (hi i h).1)
  constructor
  · intro hne
    refine ⟨s.length - items.length, ?_, by omega⟩
    have h := (C79_mb c hu items hi s.length).2 hz more
    unfold prepare
    rw [if_neg (by simpa using hne)]
    simp only [hu, Bool.false_and, Bool.false_eq_true, if_false]
    rw [h]
    simp only
    rw [List.take_of_length_le (by simpa using hlen)]
    simp only [sizeFromStore, List.length_map]
    rw [show s.length + 1 - items.length = s.length - items.length + 1 by omega]
  · intro hne hr
    have hpos := List.length_pos_iff.mpr hne
    obtain ⟨b, r, rfl⟩ := List.exists_cons_of_ne_nil hne
    unfold prepare
    rw [if_neg (by simp)]
    simp only [hu, Bool.false_and, Bool.false_eq_true, if_false]
    unfold convertFromStore sizeFromStore
    simp only [hu, Bool.false_eq_true, if_false]
    rw [List.append_assoc, mbstowcs_chars hi, if_neg (by simp only [List.length_append]; omega)]
    obtain ⟨k, hk⟩ : ∃ k, (s ++ b :: r).length - items.length = k + 1 := ⟨(s ++ b :: r).length - items.length - 1, by simp only [List.length_append]; omega⟩
    rw [hk, List.cons_append, mbstowcs]
    rw [List.cons_append] at hr
    rw [hr]
    rfl

/-- Saving in the encoding of the locale: it fails exactly if a character has no form in the locale; else the string is complete. -/
theorem C79_save_mb {α : Type} (c : Settings α) (hu : c.utf8 = false) (scratch : Bytes) (hs : scratch ≠ []) (w : List α)
    (hn : ∀ x ∈ w, ∀ v, c.locale.write x = some v → (0 : UInt8) ∉ v) :
    ∃ ok buffer, convert c scratch w = .ok (ok, buffer) ∧ scratch.length ≤ buffer.length
      ∧ (ok = true ↔ ∃ u, wcsBytes c.locale.write w = some u) ∧ (ok = true → data buffer = wcsBytes c.locale.write w) := by
  unfold convert sizeToStore convertToStore
  simp only [hu, Bool.false_eq_true, if_false]
  cases h : wcsBytes c.locale.write w with
  | none => exact ⟨false, scratch, rfl, Nat.le_refl _, by simp, by simp⟩
  | some u =>
    have hroom : u.length + 1 ≤ grow (u.length + 1) (u.length + 1) scratch.length := grow_room (List.length_pos_iff.mpr hs)
    have hge := (grow_ge (u.length + 1) (u.length + 1) scratch.length).1
    simp only [Option.map_some]
    rw [wcstombs_full h (by omega)]
    refine ⟨true, _, rfl, ?_, by simp, ?_⟩
    · simp only [List.length_append, List.length_drop, List.length_replicate, List.length_singleton]; omega
    · intro _
      rw [List.append_assoc, List.singleton_append]
      exact takeWhile_data (wcsBytes_no_nul hn h) _

/-- The numbers (GetLongValue and GetDoubleValue for `room` 64): the value is converted into an array of that size, filled with NULs before. In UTF-8 an
    accepted value is complete and ends with a NUL (C79_number_end_utf8). In the encoding of the locale the conversion is never refused for its length: the array holds the longest beginning that
    fits, and no NUL at all - it is then read beyond its end - exactly if a beginning of the value fills it. -/
theorem C79_number_end {α : Type} (c : Settings α) (hu : c.utf8 = false) (w : List α) (hn : ∀ x ∈ w, ∀ v, c.locale.write x = some v → (0 : UInt8) ∉ v) (room : Nat)
    (b : Bytes) (h : convertToStore c w room = .ok (true, b)) :
    let array := b ++ List.replicate (room - b.length) 0
    array.length = room
    ∧ (data array = none ↔ ∃ p u, p <+: w ∧ wcsBytes c.locale.write p = some u ∧ u.length = room)
    ∧ ∀ t, data array = some t → ∃ p q, w = p ++ q ∧ wcsBytes c.locale.write p = some t ∧ t.length < room
        ∧ (q = [] ∨ ∃ x r v, q = x :: r ∧ c.locale.write x = some v ∧ room < t.length + v.length) := by
  unfold convertToStore at h
  simp only [hu, Bool.false_eq_true, if_false] at h
  split at h
  · rename_i b' hb
    cases h
    obtain ⟨p, q, u, rfl, h1, h2, h3⟩ := wcstombs_fits hb
    have hu0 := wcsBytes_no_nul (fun x hx => hn x (by simp [hx])) h1
    have hmono : ∀ {p' q' : List α} {u' : Bytes}, wcsBytes c.locale.write (p' ++ q') = some u' → ∃ a, wcsBytes c.locale.write p' = some a ∧ a.length ≤ u'.length := by
      intro p'
      induction p' with
      | nil => intro q' u' _; exact ⟨[], rfl, by simp⟩
      | cons x p' ih =>
        intro q' u' he
        rw [List.cons_append, wcsBytes] at he
        split at he
        · rename_i a r ha hr
          cases he
          obtain ⟨y, hy, hl⟩ := ih hr
          exact ⟨a ++ y, by rw [wcsBytes, ha, hy], by simp; omega⟩
        · cases he
    have happ : ∀ {p' : List α} {u' : Bytes} {x : α} {v : Bytes} (r : List α), wcsBytes c.locale.write p' = some u' → c.locale.write x = some v →
        ∀ {y}, wcsBytes c.locale.write (p' ++ x :: r) = some y → u'.length + v.length ≤ y.length := by
      intro p'
      induction p' with
      | nil =>
        intro u' x v r e1 e2 y e3
        simp [wcsBytes] at e1; subst e1
        rw [List.nil_append, wcsBytes, e2] at e3
        split at e3
        · rename_i a b ha hb
          cases ha; cases e3; simp
        · cases e3
      | cons z p' ih =>
        intro u' x v r e1 e2 y e3
        rw [wcsBytes] at e1
        rw [List.cons_append, wcsBytes] at e3
        split at e1
        · rename_i a b ha hb
          cases e1
          rw [ha] at e3
          split at e3
          · rename_i a' b' ha' hb'
            cases ha'; cases e3
            have := ih r hb e2 hb'
            simp; omega
          · cases e3
        · cases e1
    -- where the prefixes of the string stand
    have hpre : ∀ {p' : List α} {u' : Bytes}, p' <+: p ++ q → wcsBytes c.locale.write p' = some u' → (∃ t, p = p' ++ t ∧ u'.length ≤ u.length) ∨ ∃ x r r', q = x :: r ∧ p' = p ++ x :: r' := by
      rintro p' u' ⟨t, ht⟩ he
      rcases List.append_eq_append_iff.mp ht with ⟨t', e1, e2⟩ | ⟨t', e1, e2⟩
      · refine .inl ⟨t', e1, ?_⟩
        rw [e1] at h1
        obtain ⟨a, ha, hl⟩ := hmono h1
        rw [he] at ha; cases ha
        exact hl
      · cases t' with
        | nil =>
          refine .inl ⟨[], by simpa using e1.symm, ?_⟩
          rw [e1, List.append_nil, h1] at he
          cases he
          exact Nat.le_refl _
        | cons x r' => exact .inr ⟨x, _, r', e2, e1⟩
    clear hb
    rcases h3 with ⟨rfl, hb⟩ | ⟨x, r, rfl, hb, h4⟩
    · by_cases hlt : u.length < room
      · rw [if_pos hlt] at hb
        subst hb
        have hd : data (u ++ [0] ++ List.replicate (room - (u ++ [0]).length) 0) = some u := by
          rw [List.append_assoc, List.singleton_append]; exact takeWhile_data hu0 _
        refine ⟨by simp; omega, ?_, ?_⟩
        · rw [hd]
          simp only [reduceCtorEq, false_iff, not_exists, not_and]
          intro p' u' hp' he' hl'
          rcases hpre hp' he' with ⟨_, _, h5⟩ | ⟨_, _, _, h5, _⟩
          · omega
          · cases h5
        · intro t ht
          rw [hd] at ht; cases ht
          exact ⟨p, [], rfl, h1, hlt, .inl rfl⟩
      · rw [if_neg hlt] at hb
        have hb' := hb.symm
        subst hb'
        have hz : room - u.length = 0 := by omega
        refine ⟨by simp; omega, ?_, ?_⟩
        · rw [hz]
          simp only [List.replicate_zero, List.append_nil]
          unfold data
          rw [if_neg hu0]
          simp only [true_iff]
          exact ⟨p, u, List.prefix_rfl, h1, by omega⟩
        · intro t ht
          rw [hz] at ht
          simp only [List.replicate_zero, List.append_nil] at ht
          unfold data at ht
          rw [if_neg hu0] at ht; cases ht
    · have hb' := hb.symm
      subst hb'
      by_cases hlt : u.length < room
      · obtain ⟨k, hk⟩ : ∃ k, room - u.length = k + 1 := ⟨room - u.length - 1, by omega⟩
        have hd : data (u ++ List.replicate (room - u.length) 0) = some u := by
          rw [hk, List.replicate_succ]; exact takeWhile_data hu0 _
        rcases h4 with h4 | ⟨v, hv, hl⟩
        · omega
        refine ⟨by simp; omega, ?_, ?_⟩
        · rw [hd]
          simp only [reduceCtorEq, false_iff, not_exists, not_and]
          intro p' u' hp' he' hl'
          rcases hpre hp' he' with ⟨_, _, h5⟩ | ⟨y, _, r', h5, h6⟩
          · omega
          · cases h5
            subst h6
            have := happ r' h1 hv he'
            omega
        · intro t ht
          rw [hd] at ht; cases ht
          exact ⟨p, x :: r, rfl, h1, hlt, .inr ⟨x, r, v, rfl, hv, hl⟩⟩
      · have hz : room - u.length = 0 := by omega
        refine ⟨by simp; omega, ?_, ?_⟩
        · rw [hz]
          simp only [List.replicate_zero, List.append_nil]
          unfold data
          rw [if_neg hu0]
          simp only [true_iff]
          exact ⟨p, u, ⟨_, rfl⟩, h1, by omega⟩
        · intro t ht
          rw [hz] at ht
          simp only [List.replicate_zero, List.append_nil] at ht
          unfold data at ht
          rw [if_neg hu0] at ht; cases ht
  · cases h

/-- The same in UTF-8: a value is accepted exactly if it is complete in the array with its NUL (and, for 32 bits, is made of code points). -/
theorem C79_number_end_utf8 (c : Settings UInt32) (hw : c.wide = wide32) (d : Settings UInt16) (hw' : d.wide = wide16) (hu : c.utf8 = true) (hu' : d.utf8 = true)
    (w : List UInt32) (h0 : 0 ∉ w) (w' : List UInt16) (h0' : 0 ∉ w') (room : Nat) (b : Bytes) :
    (convertToStore c w room = .ok (true, b) → (∀ v ∈ w, v.toNat ≤ 0x10FFFF) ∧ b.length ≤ room ∧ b = w.flatMap to8 ++ [0] ∧ data b = some (w.flatMap to8))
    ∧ (convertToStore d w' room = .ok (true, b) → ∃ text, w' = encode utf16 text ∧ LenientText text [] ∧ b.length ≤ room ∧ b = encode utf8 text ++ [0] ∧ data b = some (encode utf8 text)) := by
  constructor
  · intro h
    unfold convertToStore at h
    rw [if_pos hu, hw] at h
    obtain ⟨r, rest, written, h1, done, h2, h3, h4, _, h6⟩ := C73_utf32_to_utf8 .lenient (w ++ [0]) room
    have h1' : wide32.to8 (w ++ [wide32.zero]) room = .ok (r, rest, written) := h1
    rw [h1'] at h
    simp only [Outcome.ok.injEq, Prod.mk.injEq, beq_iff_eq] at h
    obtain ⟨rfl, rfl⟩ := h
    simp only at h6
    obtain ⟨rfl, h7⟩ := h6
    rw [List.append_nil] at h2
    subst h2
    have e : written = w.flatMap to8 ++ [0] := by rw [h3, List.flatMap_append]; rfl
    have hall : ∀ v ∈ w, v.toNat ≤ 0x10FFFF := fun v hv => by have := h7 v (by simp [hv]); omega
    refine ⟨hall, h4, e, ?_⟩
    rw [e]
    refine takeWhile_data ?_ _
    intro hm
    obtain ⟨v, hv, hm⟩ := List.mem_flatMap.mp hm
    rw [to8, if_pos (hall v hv)] at hm
    refine no_nul_utf8 (hall v hv) (fun hz => h0 ?_) hm
    have : v = 0 := UInt32.toNat_inj.mp (by simpa using hz)
    rwa [← this]
  · intro h
    unfold convertToStore at h
    rw [if_pos hu', hw'] at h
    obtain ⟨r, rest, written, h1, text, h2, h3, h4, h5, h6⟩ := C73_utf16_to_utf8_lenient (w' ++ [0]) room
    have h1' : wide16.to8 (w' ++ [wide16.zero]) room = .ok (r, rest, written) := h1
    rw [h1'] at h
    simp only [Outcome.ok.injEq, Prod.mk.injEq, beq_iff_eq] at h
    obtain ⟨rfl, rfl⟩ := h
    simp only at h6
    subst h6
    rw [List.append_nil] at h3
    obtain ⟨t, e1, rfl⟩ := ends_with_nul h2 h3
    subst e1
    have e : encode utf8 (t ++ [0]) = encode utf8 t ++ [0] := by simp [encode]; decide
    have ht : LenientText t [] := by
      refine ⟨fun c hc => h2.1 c (by simp [hc]), fun t1 hh t2 u tail he hH hu => ?_⟩
      refine h2.2 t1 hh (t2 ++ [0]) u (tail ++ [0]) (by simp [he]) hH ?_
      simp only [encode, List.flatMap_append, List.append_nil] at hu ⊢
      rw [hu]; rfl
    refine ⟨t, rfl, ht, h5, by rw [h4, e], ?_⟩
    rw [h4, e]
    refine takeWhile_data ?_ _
    intro hm
    obtain ⟨v, hv, hm⟩ := List.mem_flatMap.mp hm
    refine no_nul_utf8 (ht.1 v hv) ?_ hm
    rintro rfl
    apply h0'
    rw [encode, List.mem_flatMap]
    exact ⟨0, hv, by decide⟩

/-! ## Examples -/

/-- A locale like ISO 8859-1 for the bytes below 128, and UTF-8 for the characters from U+00C0 to U+00FF. -/
def sampleLocale : Locale UInt32 where
  read s := match s with
    | [] => .short
    | a :: t => if a < 0x80 then .char (UInt32.ofNat a.toNat) 1
      else if a = 0xC3 then match t with
        | [] => .short
        | x :: _ => if 0x80 ≤ x ∧ x ≤ 0xBF then .char (UInt32.ofNat (x.toNat + 64)) 2 else .illegal
      else .illegal
  write v := if v < 0x80 then some [UInt8.ofNat v.toNat] else if 0xC0 ≤ v ∧ v ≤ 0xFF then some [0xC3, UInt8.ofNat (v.toNat - 64)] else none

def sample8 : Settings UInt32 := ⟨wide32, sampleLocale, true⟩
def sampleMb : Settings UInt32 := ⟨wide32, sampleLocale, false⟩

example : TextOf [0x41, 0xC3, 0xA4] [0x41, 0xE4] := textOf_encode (text := [0x41, 0xE4]) (by decide)
example : prepare sample8 [0xEF, 0xBB, 0xBF, 0x41, 0xC3, 0xA4] 6 = .ok (.text [0x41, 0xE4, 0, 0]) := by decide +kernel
example : prepare sample8 [0x41, 0xC3] 2 = .ok .fail := by decide +kernel
example : prepare (⟨wide16, ⟨fun _ => .illegal, fun _ => none⟩, true⟩ : Settings UInt16) [0xF0, 0x9F, 0x98, 0x80] 4 = .ok (.text [0xD83D, 0xDE00, 0, 0, 0]) := by decide +kernel
example : convert sample8 [1] [0x41, 0xE4] = .ok (true, [0x41, 0xC3, 0xA4, 0, 0, 0, 0, 0, 0, 0, 0, 0, 0, 0, 0, 0]) := by decide +kernel
example : convert sample8 [1] [0x41, 0xD800] = .ok (true, [0x41, 0xED, 0xA0, 0x80, 0, 0, 0, 0, 0, 0, 0, 0, 0, 0, 0, 0]) := by decide +kernel
example : prepare sample8 [0x41, 0xED, 0xA0, 0x80] 4 = .ok .fail := by decide +kernel
example : (convert sample8 [1] [0x110000]).bind (fun r => .ok r.1) = .ok false := by decide +kernel
-- one character of two bytes: the conversion goes on behind the data
example : convertFromStore sampleMb [0x41, 0xC3, 0xA4] 3 (sizeFromStore 3) = .ub := by decide +kernel
example : convertFromStore sampleMb ([0x41, 0xC3, 0xA4] ++ [0x42, 0x43, 0]) 3 (sizeFromStore 3) = .ok (true, [0x41, 0xE4, 0x42]) := by decide +kernel
example : convertFromStore sampleMb [0x41, 0xC3, 0xA4, 0] 3 (sizeFromStore 3) = .ok (true, [0x41, 0xE4]) := by decide +kernel
example : Chars 0 sampleLocale.read [([0x41], 0x41), ([0xC3, 0xA4], 0xE4)] := by
  intro i hi
  simp only [List.mem_cons, List.not_mem_nil, or_false] at hi
  rcases hi with rfl | rfl
  · exact ⟨by simp, by decide, fun tail => rfl⟩
  · exact ⟨by simp, by decide, fun tail => rfl⟩
example : prepare sampleMb [0x41, 0xC3, 0xA4, 0] 3 = .ok (.text [0x41, 0xE4, 0, 0]) := by decide +kernel
example : prepare sampleMb [0x41, 0xFF, 0] 2 = .ok .fail := by decide +kernel
-- an array of three bytes: full, cut, complete
example : convertToStore sampleMb [0x31, 0x32, 0x33, 0x34] 3 = .ok (true, [0x31, 0x32, 0x33]) := by decide +kernel
example : convertToStore sampleMb [0x31, 0x32, 0xE4] 3 = .ok (true, [0x31, 0x32]) := by decide +kernel
example : convertToStore sampleMb [0x31, 0x32] 3 = .ok (true, [0x31, 0x32, 0]) := by decide +kernel
example : convertToStore sample8 [0x31, 0x32, 0x33] 3 = .ok (false, [0x31, 0x32, 0x33]) := by decide +kernel

end Licensecc
