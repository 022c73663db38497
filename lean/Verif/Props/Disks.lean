import Verif.Spec.Disks
import Verif.Lemmas.Base64
/-!
# C43: serial numbers from UUIDs; C44: preferred disks; C53: disks from /dev/disk/by-uuid
-/
namespace Licensecc
open Spec

/-! ## C43 -/

theorem isXDigit_iff (b : UInt8) : isXDigit b = true ↔ IsHex b := by
  have h : ∀ b : UInt8, isXDigit b = decide (IsHex b) := forall_uint8 (by decide +kernel)
  rw [h]; simp

theorem hexDigit_eq (b : UInt8) (h : IsHex b) : hexDigit b = hexValue b := by
  have : ∀ b : UInt8, IsHex b → hexDigit b = hexValue b := forall_uint8 (by decide +kernel)
  exact this b h

theorem filter_hex (u : Bytes) : u.filter isXDigit = hexDigits u := by
  unfold hexDigits
  congr 1
  funext b
  have h : ∀ b : UInt8, isXDigit b = decide (IsHex b) := forall_uint8 (by decide +kernel)
  exact h b

/-- The exclusive or of the bytes whose position, counted from `i`, is `k` modulo 8. -/
def xorFrom (i : Nat) (bs : Bytes) (k : Nat) : UInt8 := (((bs.zipIdx i).filter fun p => p.2 % 8 = k).map (·.1)).foldl (· ^^^ ·) 0

theorem foldl_xor (l : Bytes) (a : UInt8) : l.foldl (· ^^^ ·) a = a ^^^ l.foldl (· ^^^ ·) 0 := by
  induction l generalizing a with
  | nil => simp
  | cons x l ih => rw [List.foldl_cons, List.foldl_cons, ih, ih (0 ^^^ x)]; simp [UInt8.xor_assoc]

theorem xorFrom_cons (i : Nat) (b : UInt8) (bs : Bytes) (k : Nat) :
    xorFrom i (b :: bs) k = (if i % 8 = k then b else 0) ^^^ xorFrom (i + 1) bs k := by
  unfold xorFrom
  rw [List.zipIdx_cons, List.filter_cons]
  by_cases h : i % 8 = k
  · simp only [h, decide_true, if_true, List.map_cons, List.foldl_cons]
    rw [foldl_xor]; simp
  · simp [h]

theorem foldHex_spec (hex : Bytes) (he : hex.length % 2 = 0) (hh : ∀ b ∈ hex, IsHex b) : ∀ (i : Nat) (buf : Bytes), buf.length = 8 →
    (foldHex i buf hex).length = 8 ∧ ∀ k, k < 8 → (foldHex i buf hex).getD k 0 = buf.getD k 0 ^^^ xorFrom i (hexBytes hex) k := by
  match hex, he with
  | [], _ => intro i buf hb; simp [foldHex, hexBytes, xorFrom, hb]
  | [a], h => simp at h
  | a :: b :: r, h =>
    intro i buf hb
    rw [foldHex]
    have ih := foldHex_spec r (by simp at h; omega) (fun c hc => hh c (by simp [hc])) (i + 1)
      (buf.modify (i % buf.length) (· ^^^ (hexDigit a * 16 + hexDigit b))) (by simpa using hb)
    refine ⟨ih.1, fun k hk => ?_⟩
    rw [ih.2 k hk, hexBytes, xorFrom_cons, hexDigit_eq a (hh a (by simp)), hexDigit_eq b (hh b (by simp)), hb]
    simp only [List.getD_eq_getElem?_getD, List.getElem?_modify]
    have hsome : buf[k]? = some buf[k] := List.getElem?_eq_getElem (by omega)
    rw [hsome]
    by_cases hik : i % 8 = k
    · simp [hik, UInt8.xor_assoc]
    · simp [hik]

theorem hexBytes_pad (hex : Bytes) (ho : hex.length % 2 = 1) : hexBytes (hex ++ [48]) = hexBytes hex := by
  match hex, ho with
  | [a], _ => simp [hexBytes, hexValue]
  | a :: b :: r, h =>
    rw [List.cons_append, List.cons_append, hexBytes, hexBytes, hexBytes_pad r (by simp at h; omega)]

theorem snOf_foldHex (hex : Bytes) (he : hex.length % 2 = 0) (hh : ∀ b ∈ hex, IsHex b) :
    snOf (foldHex 0 [0, 0, 0, 0, 0, 0, 0, 0] hex) =
      ⟨xorEvery8 (hexBytes hex) 0, xorEvery8 (hexBytes hex) 1, xorEvery8 (hexBytes hex) 2, xorEvery8 (hexBytes hex) 3,
       xorEvery8 (hexBytes hex) 4, xorEvery8 (hexBytes hex) 5, xorEvery8 (hexBytes hex) 6, xorEvery8 (hexBytes hex) 7⟩ := by
  obtain ⟨_, h⟩ := foldHex_spec hex he hh 0 [0, 0, 0, 0, 0, 0, 0, 0] rfl
  have hx : ∀ k, xorFrom 0 (hexBytes hex) k = xorEvery8 (hexBytes hex) k := fun _ => rfl
  simp only [snOf, h 0 (by omega), h 1 (by omega), h 2 (by omega), h 3 (by omega), h 4 (by omega), h 5 (by omega),
    h 6 (by omega), h 7 (by omega), hx]
  simp

/-- **C43**: a serial number is computed iff there is room, and then it is the one specified; without room the heap is
    overrun. -/
theorem C43_parse (u : Bytes) : parseUuid u = if roomNeeded u ≤ u.length then .ok (serialOf u) else .ub := by
  have hh : ∀ b ∈ hexDigits u, IsHex b := by
    intro b hb; simpa using (List.mem_filter.mp hb).2
  unfold parseUuid roomNeeded
  rw [filter_hex]
  simp only
  rcases Nat.mod_two_eq_zero_or_one (hexDigits u).length with h0 | h1
  · simp only [h0, Nat.zero_ne_one, false_and, if_false, Nat.add_zero, ge_iff_le]
    by_cases hl : u.length ≤ (hexDigits u).length
    · rw [if_pos hl, if_neg (by omega)]
    · rw [if_neg hl, if_pos (by omega), snOf_foldHex _ h0 hh]; rfl
  · simp only [h1, true_and, if_true, List.length_append, List.length_singleton, ge_iff_le]
    by_cases hl : u.length ≤ (hexDigits u).length
    · rw [if_pos hl, if_neg (by omega)]
    · rw [if_neg hl]
      by_cases hl2 : u.length ≤ (hexDigits u).length + 1
      · rw [if_pos hl2, if_neg (by omega)]
      · rw [if_neg hl2, if_pos (by omega), snOf_foldHex _ (by simp; omega) (by
          intro b hb; rcases List.mem_append.mp hb with hb | hb
          · exact hh b hb
          · simp at hb; subst hb; decide), hexBytes_pad _ h1]; rfl

/-- **C43**: the serial number depends only on the hexadecimal digits. -/
theorem C43_only_hex_digits {u v : Bytes} {s t : DiskSn} (h : hexDigits u = hexDigits v) (hu : parseUuid u = .ok s)
    (hv : parseUuid v = .ok t) : s = t := by
  rw [C43_parse] at hu hv
  split at hu <;> simp at hu
  split at hv <;> simp at hv
  rw [← hu, ← hv, serialOf, serialOf, h]

/-- The canonical form of a UUID: 8, 4, 4, 4 and 12 hexadecimal digits with dashes between. -/
def Spec.Canonical (u : Bytes) : Prop :=
  ∃ a b c d e : Bytes, u = a ++ [45] ++ b ++ [45] ++ c ++ [45] ++ d ++ [45] ++ e
    ∧ a.length = 8 ∧ b.length = 4 ∧ c.length = 4 ∧ d.length = 4 ∧ e.length = 12
    ∧ ∀ x ∈ a ++ b ++ c ++ d ++ e, IsHex x

/-- **C43**: for a canonical UUID all writes stay inside the buffer, and the serial number is the first half of the 16 bytes
    exclusive-ored with the second half. -/
theorem C43_canonical {u : Bytes} (h : Spec.Canonical u) : ∃ b0 b1 b2 b3 b4 b5 b6 b7 b8 b9 b10 b11 b12 b13 b14 b15 : UInt8,
    hexBytes (hexDigits u) = [b0, b1, b2, b3, b4, b5, b6, b7, b8, b9, b10, b11, b12, b13, b14, b15]
    ∧ parseUuid u = .ok ⟨b0 ^^^ b8, b1 ^^^ b9, b2 ^^^ b10, b3 ^^^ b11, b4 ^^^ b12, b5 ^^^ b13, b6 ^^^ b14, b7 ^^^ b15⟩ := by
  obtain ⟨a, b, c, d, e, rfl, ha, hb, hc, hd, he, hx⟩ := h
  have hdash : (([45] : Bytes).filter fun b => decide (IsHex b)) = [] := by decide
  have hself : ∀ l : Bytes, (∀ x ∈ l, IsHex x) → (l.filter fun b => decide (IsHex b)) = l := by
    intro l hl; exact List.filter_eq_self.mpr (by simpa using hl)
  have hdig : hexDigits (a ++ [45] ++ b ++ [45] ++ c ++ [45] ++ d ++ [45] ++ e) = a ++ b ++ c ++ d ++ e := by
    simp only [hexDigits, List.filter_append, hdash, List.append_nil]
    rw [hself a (fun x h => hx x (by simp [h])), hself b (fun x h => hx x (by simp [h])), hself c (fun x h => hx x (by simp [h])),
      hself d (fun x h => hx x (by simp [h])), hself e (fun x h => hx x (by simp [h]))]
  have hlen : (a ++ b ++ c ++ d ++ e).length = 32 := by simp; omega
  rw [C43_parse, if_pos (by simp only [roomNeeded, hdig, hlen]; simp; omega), serialOf, hdig]
  generalize a ++ b ++ c ++ d ++ e = l at hlen
  clear hdig hx
  match l, hlen with
  | [c0,c1,c2,c3,c4,c5,c6,c7,c8,c9,d0,d1,d2,d3,d4,d5,d6,d7,d8,d9,e0,e1,e2,e3,e4,e5,e6,e7,e8,e9,f0,f1], _ =>
    refine ⟨_, _, _, _, _, _, _, _, _, _, _, _, _, _, _, _, rfl, ?_⟩
    simp [hexBytes, xorEvery8, List.zipIdx_cons]

/-- **C43** (the property fails here): a text without any non-hexadecimal character, such as the 16 digits of an NTFS volume,
    overruns the buffer. -/
theorem C43_plain_hex_overruns (u : Bytes) (h : ∀ b ∈ u, IsHex b) : parseUuid u = .ub := by
  have : hexDigits u = u := by unfold hexDigits; exact List.filter_eq_self.mpr (by simpa using h)
  rw [C43_parse, if_neg (by unfold roomNeeded; rw [this]; omega)]

example : Spec.Canonical b!"c4e8dc21-6ab4-4d8f-9f5a-0123456789ab" :=
  ⟨b!"c4e8dc21", b!"6ab4", b!"4d8f", b!"9f5a", b!"0123456789ab", by decide +kernel, by decide, by decide, by decide, by decide,
    by decide, by decide +kernel⟩
example : parseUuid b!"c4e8dc21-6ab4-4d8f-9f5a-0123456789ab" = .ok ⟨0x5b, 0xb2, 0xdd, 0x02, 0x2f, 0xd3, 0xc4, 0x24⟩ := by decide +kernel
example : parseUuid b!"A1B2-C3D4" = .ok ⟨0xa1, 0xb2, 0xc3, 0xd4, 0, 0, 0, 0⟩ ∧ parseUuid b!"01D5A3F0E9C7B2A4" = .ub := by decide +kernel

/-! ## C44 -/

theorem updateFirst_get (p : Disk → Bool) (f : Disk → Disk) (ds : List Disk) (i : Nat) (d : Disk) (h : ds[i]? = some d) :
    ((p d = true ∧ ∀ (j : Nat) (x : Disk), j < i → ds[j]? = some x → p x = false) → (updateFirst p f ds)[i]? = some (f d))
    ∧ (¬ (p d = true ∧ ∀ (j : Nat) (x : Disk), j < i → ds[j]? = some x → p x = false) → (updateFirst p f ds)[i]? = some d) := by
  induction ds generalizing i with
  | nil => simp at h
  | cons a ds ih =>
    rw [updateFirst]
    cases i with
    | zero =>
      simp only [List.getElem?_cons_zero, Option.some.injEq] at h; subst h
      by_cases ha : p a = true
      · simp [ha]
      · simp [ha]
    | succ i =>
      simp only [List.getElem?_cons_succ] at h
      by_cases ha : p a = true
      · rw [if_pos ha]
        refine ⟨fun hh => ?_, fun _ => by simpa using h⟩
        have := hh.2 0 a (by omega) (by simp); rw [ha] at this; simp at this
      · rw [if_neg ha]
        have hiff : (∀ (j : Nat) (x : Disk), j < i + 1 → (a :: ds)[j]? = some x → p x = false)
            ↔ ∀ (j : Nat) (x : Disk), j < i → ds[j]? = some x → p x = false := by
          constructor
          · intro hh j x hj hx; exact hh (j + 1) x (by omega) (by simpa using hx)
          · intro hh j x hj hx
            cases j with
            | zero => simp at hx; subst hx; simpa using ha
            | succ j => exact hh j x (by omega) (by simpa using hx)
        rw [hiff]
        simpa using ih i h

theorem updateFirst_length (p : Disk → Bool) (f : Disk → Disk) (ds : List Disk) : (updateFirst p f ds).length = ds.length := by
  induction ds with
  | nil => rfl
  | cons a ds ih => rw [updateFirst]; split <;> simp [ih]

/-- Everything but the mark. -/
def unmarked (d : Disk) : Disk := { d with preferred := false }

theorem updateFirst_unmarked (p : Disk → Bool) (ds : List Disk) :
    (updateFirst p (fun d => { d with preferred := true }) ds).map unmarked = ds.map unmarked := by
  induction ds with
  | nil => rfl
  | cons a ds ih => rw [updateFirst]; split <;> simp [ih, unmarked]

theorem markLabel_ok {l : Bytes} {ds ds' : List Disk} (h : markLabel l ds = .ok ds') :
    ds' = updateFirst (fun d => l = d.label) (fun d => { d with preferred := true }) ds := by
  induction ds generalizing ds' with
  | nil => simp [markLabel] at h; subst h; rfl
  | cons d ds ih =>
    rw [markLabel] at h
    rw [updateFirst]
    split at h
    · simp at h
    · split at h
      · rename_i hl; simp at h; rw [← h, if_pos (by simpa using hl)]
      · rename_i hl
        obtain ⟨x, hx, h⟩ := Outcome.bind_eq_ok.mp h
        simp at h
        rw [← h, ih hx, if_neg (by simpa using hl)]

theorem markLabel_ub (l : Bytes) (ds : List Disk) : markLabel l ds = .ub ↔ ∃ (i : Nat) (d : Disk), ds[i]? = some d ∧ d.labelInit = false
    ∧ ∀ (j : Nat) (x : Disk), j < i → ds[j]? = some x → x.labelInit = true → x.label ≠ l := by
  induction ds with
  | nil => simp [markLabel]
  | cons a ds ih =>
    rw [markLabel]
    by_cases h0 : a.labelInit = false
    · rw [if_pos h0]
      simp only [true_iff]
      exact ⟨0, a, by simp, h0, by simp⟩
    · rw [if_neg h0]
      by_cases hl : l = a.label
      · rw [if_pos hl]
        simp only [reduceCtorEq, false_iff]
        rintro ⟨i, d, hd, h1, h2⟩
        cases i with
        | zero => simp at hd; subst hd; exact h0 h1
        | succ i => exact h2 0 a (by omega) (by simp) (by simpa using h0) hl.symm
      · rw [if_neg hl, Outcome.bind_eq_ub, ih]
        simp only [Outcome.pure_eq, reduceCtorEq, and_false, exists_false, or_false]
        constructor
        · rintro ⟨i, d, hd, h1, h2⟩
          refine ⟨i + 1, d, by simpa using hd, h1, fun j x hj hx => ?_⟩
          cases j with
          | zero => simp at hx; subst hx; exact fun _ h => hl h.symm
          | succ j => exact h2 j x (by omega) (by simpa using hx)
        · rintro ⟨i, d, hd, h1, h2⟩
          cases i with
          | zero => simp at hd; subst hd; exact absurd h1 h0
          | succ i => exact ⟨i, d, by simpa using hd, h1, fun j x hj hx => h2 (j + 1) x (by omega) (by simpa using hx)⟩

theorem markLabel_no_throw (l : Bytes) (ds : List Disk) (x : Exn) : markLabel l ds ≠ .throw x := by
  induction ds with
  | nil => simp [markLabel]
  | cons a ds ih =>
    rw [markLabel]
    split
    · simp
    · split
      · simp
      · intro h
        rcases Outcome.bind_eq_throw.mp h with h | ⟨_, _, h⟩
        · exact ih h
        · simp at h

theorem uuid_prefix (e u : Bytes) : e = b!"UUID=" ++ u ↔ (b!"UUID=").isPrefixOf e = true ∧ e.drop 5 = u := by
  rw [List.isPrefixOf_iff_prefix]
  constructor
  · rintro rfl; exact ⟨⟨u, rfl⟩, rfl⟩
  · rintro ⟨⟨t, rfl⟩, h⟩; rw [← h]; rfl

theorem label_prefix (e u : Bytes) : e = b!"LABEL=" ++ u ↔ (b!"LABEL=").isPrefixOf e = true ∧ e.drop 6 = u := by
  rw [List.isPrefixOf_iff_prefix]
  constructor
  · rintro rfl; exact ⟨⟨u, rfl⟩, rfl⟩
  · rintro ⟨⟨t, rfl⟩, h⟩; rw [← h]; rfl

theorem prefix_excl (e : Bytes) (h : (b!"UUID=").isPrefixOf e = true) : (b!"LABEL=").isPrefixOf e = false := by
  rw [List.isPrefixOf_iff_prefix] at h
  obtain ⟨t, rfl⟩ := h; rfl

theorem namedIn_cons (e : Bytes) (es : List Bytes) (m : UuidMap) (ds : List Disk) (i : Nat) (d : Disk) :
    NamedIn (e :: es) m ds i d ↔ NamedIn [e] m ds i d ∨ NamedIn es m ds i d := by
  unfold NamedIn
  simp only [List.mem_cons, List.not_mem_nil, or_false]
  constructor
  · rintro (⟨u, id, h | h, r⟩ | ⟨l, h | h, r⟩)
    · exact .inl (.inl ⟨u, id, h, r⟩)
    · exact .inr (.inl ⟨u, id, h, r⟩)
    · exact .inl (.inr ⟨l, h, r⟩)
    · exact .inr (.inr ⟨l, h, r⟩)
  · rintro ((⟨u, id, h, r⟩ | ⟨l, h, r⟩) | (⟨u, id, h, r⟩ | ⟨l, h, r⟩))
    · exact .inl ⟨u, id, .inl h, r⟩
    · exact .inr ⟨l, .inl h, r⟩
    · exact .inl ⟨u, id, .inr h, r⟩
    · exact .inr ⟨l, .inr h, r⟩

/-- A disk of a list that differs only in marks. -/
theorem unmarked_get {ds ds' : List Disk} (h : ds'.map unmarked = ds.map unmarked) {i : Nat} {d : Disk} (hd : ds[i]? = some d) :
    ∃ d', ds'[i]? = some d' ∧ unmarked d' = unmarked d := by
  have h1 : (ds'.map unmarked)[i]? = some (unmarked d) := by rw [h]; simp [hd]
  rw [List.getElem?_map, Option.map_eq_some_iff] at h1
  exact h1

theorem unmarked_id {d d' : Disk} (h : unmarked d' = unmarked d) : d'.id = d.id ∧ d'.label = d.label ∧ d'.labelInit = d.labelInit := by
  simp only [unmarked, Disk.mk.injEq] at h
  exact ⟨h.1, h.2.2.2.2.1, h.2.2.2.2.2.1⟩

theorem namedIn_congr {es : List Bytes} {m : UuidMap} {ds ds' : List Disk} (h : ds'.map unmarked = ds.map unmarked) {i : Nat} {d d' : Disk}
    (hu : unmarked d' = unmarked d) : NamedIn es m ds' i d' ↔ NamedIn es m ds i d := by
  have hall : ∀ (Q : Disk → Prop), (∀ x y, unmarked x = unmarked y → (Q x ↔ Q y)) →
      ((∀ (j : Nat) (x : Disk), j < i → ds'[j]? = some x → Q x) ↔ ∀ (j : Nat) (x : Disk), j < i → ds[j]? = some x → Q x) := by
    intro Q hQ
    constructor
    · intro hh j x hj hx
      obtain ⟨y, hy, hyx⟩ := unmarked_get h hx
      exact (hQ y x hyx).mp (hh j y hj hy)
    · intro hh j x hj hx
      obtain ⟨y, hy, hyx⟩ := unmarked_get h.symm hx
      exact (hQ y x hyx).mp (hh j y hj hy)
  unfold NamedIn
  have h1 : ∀ id, _ := fun id => hall (fun x => x.id ≠ id) (fun x y hxy => by rw [(unmarked_id hxy).1])
  have h2 : ∀ l, _ := fun l => hall (fun x => x.label ≠ l) (fun x y hxy => by rw [(unmarked_id hxy).2.1])
  simp only [h1, h2, (unmarked_id hu).1, (unmarked_id hu).2.1]

theorem markEntry_spec {m : UuidMap} {e : Bytes} {ds ds' : List Disk} (h : markEntry m e ds = .ok ds') :
    ds'.map unmarked = ds.map unmarked ∧ ∀ (i : Nat) (d d' : Disk), ds[i]? = some d → ds'[i]? = some d' →
      (d'.preferred = true ↔ d.preferred = true ∨ NamedIn [e] m ds i d) := by
  have key : ∀ (p : Disk → Bool), (∀ i d, ds[i]? = some d → (NamedIn [e] m ds i d ↔
        (p d = true ∧ ∀ (j : Nat) (x : Disk), j < i → ds[j]? = some x → p x = false))) →
      ds' = updateFirst p (fun d => { d with preferred := true }) ds →
      ds'.map unmarked = ds.map unmarked ∧ ∀ (i : Nat) (d d' : Disk), ds[i]? = some d → ds'[i]? = some d' →
      (d'.preferred = true ↔ d.preferred = true ∨ NamedIn [e] m ds i d) := by
    rintro p hp rfl
    refine ⟨updateFirst_unmarked p ds, fun i d d' hd hd' => ?_⟩
    rw [hp i d hd]
    obtain ⟨h1, h2⟩ := updateFirst_get p (fun d => { d with preferred := true }) ds i d hd
    by_cases hc : p d = true ∧ ∀ (j : Nat) (x : Disk), j < i → ds[j]? = some x → p x = false
    · rw [h1 hc] at hd'; simp at hd'; subst hd'; exact ⟨fun _ => .inr hc, fun _ => rfl⟩
    · rw [h2 hc] at hd'; simp at hd'; subst hd'; simp only [hc, or_false]
  have none_ : (∀ i d, ds[i]? = some d → ¬ NamedIn [e] m ds i d) → ds' = ds →
      ds'.map unmarked = ds.map unmarked ∧ ∀ (i : Nat) (d d' : Disk), ds[i]? = some d → ds'[i]? = some d' →
      (d'.preferred = true ↔ d.preferred = true ∨ NamedIn [e] m ds i d) := by
    rintro hn rfl
    refine ⟨rfl, fun i d d' hd hd' => ?_⟩
    rw [hd] at hd'; simp at hd'; subst hd'
    simp [hn i d hd]
  have hnamed : ∀ i d, NamedIn [e] m ds i d ↔
      (∃ u id, e = b!"UUID=" ++ u ∧ m.find? u = some id ∧ d.id = id ∧ ∀ (j : Nat) (x : Disk), j < i → ds[j]? = some x → x.id ≠ id)
      ∨ (∃ l, e = b!"LABEL=" ++ l ∧ d.label = l ∧ ∀ (j : Nat) (x : Disk), j < i → ds[j]? = some x → x.label ≠ l) := by
    intro i d
    unfold NamedIn
    simp only [List.mem_singleton, eq_comm (b := e)]
  unfold markEntry at h
  split at h
  · rename_i hu
    have hnl : ∀ l, e ≠ b!"LABEL=" ++ l := fun l hl => by
      have := ((label_prefix e l).mp hl).1; rw [prefix_excl e hu] at this; simp at this
    have hu' : ∀ u, e = b!"UUID=" ++ u ↔ e.drop 5 = u := fun u => by rw [uuid_prefix]; exact and_iff_right hu
    split at h
    · rename_i id hid
      refine key (fun d => d.id = id) (fun i d _ => ?_) (by simpa using h.symm)
      rw [hnamed]
      constructor
      · rintro (⟨u, id', h1, h2, h3, h4⟩ | ⟨l, h1, _⟩)
        · rw [hu'] at h1; subst h1; rw [hid] at h2; simp at h2; subst h2
          exact ⟨by simpa using h3, fun j x hj hx => by simpa using h4 j x hj hx⟩
        · exact absurd h1 (hnl l)
      · rintro ⟨h3, h4⟩
        exact .inl ⟨_, id, (hu' _).mpr rfl, hid, by simpa using h3, fun j x hj hx => by simpa using h4 j x hj hx⟩
    · rename_i hid
      refine none_ (fun i d _ => ?_) (by simpa using h.symm)
      rw [hnamed]
      rintro (⟨u, id', h1, h2, _⟩ | ⟨l, h1, _⟩)
      · rw [hu'] at h1; subst h1; rw [hid] at h2; simp at h2
      · exact absurd h1 (hnl l)
  · rename_i hu
    have hnu : ∀ u, e ≠ b!"UUID=" ++ u := fun u h => hu ((uuid_prefix e u).mp h).1
    split at h
    · rename_i hl
      have hl' : ∀ l, e = b!"LABEL=" ++ l ↔ e.drop 6 = l := fun l => by rw [label_prefix]; exact and_iff_right hl
      refine key (fun d => e.drop 6 = d.label) (fun i d _ => ?_) (markLabel_ok h)
      rw [hnamed]
      constructor
      · rintro (⟨u, id', h1, _⟩ | ⟨l, h1, h2, h3⟩)
        · exact absurd h1 (hnu u)
        · rw [hl'] at h1; subst h1
          exact ⟨by simpa using h2.symm, fun j x hj hx => by simpa using (h3 j x hj hx).symm⟩
      · rintro ⟨h2, h3⟩
        exact .inr ⟨_, (hl' _).mpr rfl, by simpa [eq_comm] using h2, fun j x hj hx => by simpa [eq_comm] using h3 j x hj hx⟩
    · rename_i hl
      refine none_ (fun i d _ => ?_) (by simpa using h.symm)
      rw [hnamed]
      rintro (⟨u, id', h1, _⟩ | ⟨l, h1, _⟩)
      · exact hnu u h1
      · exact hl ((label_prefix e l).mp h1).1

theorem markEntries_spec {m : UuidMap} {es : List Bytes} {ds ds' : List Disk} (h : markEntries m es ds = .ok ds') :
    ds'.map unmarked = ds.map unmarked ∧ ∀ (i : Nat) (d d' : Disk), ds[i]? = some d → ds'[i]? = some d' →
      (d'.preferred = true ↔ d.preferred = true ∨ NamedIn es m ds i d) := by
  induction es generalizing ds with
  | nil =>
    simp [markEntries] at h; subst h
    refine ⟨rfl, fun i d d' hd hd' => ?_⟩
    rw [hd] at hd'; simp at hd'; subst hd'
    simp [NamedIn]
  | cons e es ih =>
    rw [markEntries] at h
    obtain ⟨ds1, h1, h2⟩ := Outcome.bind_eq_ok.mp h
    obtain ⟨a1, a2⟩ := markEntry_spec h1
    obtain ⟨b1, b2⟩ := ih h2
    refine ⟨b1.trans a1, fun i d d' hd hd' => ?_⟩
    obtain ⟨d1, hd1, hu⟩ := unmarked_get a1 hd
    rw [b2 i d1 d' hd1 hd', a2 i d d1 hd hd1, namedIn_cons e es, namedIn_congr a1 hu, or_assoc]

/-- **C44**: set_preferred_disks keeps the disks and their order; a disk is marked afterwards iff it was before or fstab names
    it by UUID or by label. -/
theorem C44_preferred_iff {h : DiskHost} {ds ds' : List Disk} {m : UuidMap} (hok : setPreferredDisks h ds m = .ok ds') :
    ds'.length = ds.length ∧ ∀ (i : Nat) (d : Disk), ds[i]? = some d → ∃ b, ds'[i]? = some { d with preferred := b }
      ∧ (b = true ↔ d.preferred = true ∨ ∃ es, h.fstab = some es ∧ NamedIn es m ds i d) := by
  unfold setPreferredDisks at hok
  cases hf : h.fstab with
  | none =>
    rw [hf] at hok; simp at hok; subst hok
    exact ⟨rfl, fun i d hd => ⟨d.preferred, hd, by simp⟩⟩
  | some es =>
    rw [hf] at hok
    obtain ⟨h1, h2⟩ := markEntries_spec hok
    refine ⟨by simpa using congrArg List.length h1, fun i d hd => ?_⟩
    obtain ⟨d', hd', hu⟩ := unmarked_get h1 hd
    refine ⟨d'.preferred, ?_, ?_⟩
    · rw [hd']
      simp only [unmarked, Disk.mk.injEq] at hu
      obtain ⟨u1, u2, u3, u4, u5, u6, _⟩ := hu
      cases d'; simp_all
    · rw [h2 i d d' hd hd']; simp

/-- **C44** (undefined): with an fstab entry by label, a disk whose label is not known is looked at, unless the labelled disk
    comes first. -/
theorem C44_undefined_iff (h : DiskHost) (ds : List Disk) (m : UuidMap) : setPreferredDisks h ds m = .ub ↔
    ∃ es l, h.fstab = some es ∧ (b!"LABEL=" ++ l) ∈ es ∧ ∃ (i : Nat) (d : Disk), ds[i]? = some d ∧ d.labelInit = false
      ∧ ∀ (j : Nat) (x : Disk), j < i → ds[j]? = some x → x.labelInit = true → x.label ≠ l := by
  unfold setPreferredDisks
  cases hf : h.fstab with
  | none => simp
  | some es =>
    simp only [Option.some.injEq, exists_and_left, exists_eq_left']
    have hstep : ∀ e ds, markEntry m e ds = .ub ↔ ∃ l, e = b!"LABEL=" ++ l ∧ markLabel l ds = .ub := by
      intro e ds
      unfold markEntry
      split
      · rename_i hu
        have hnl : ∀ l, e ≠ b!"LABEL=" ++ l := fun l hl => by
          have := ((label_prefix e l).mp hl).1; rw [prefix_excl e hu] at this; simp at this
        constructor
        · intro hh; split at hh <;> simp at hh
        · rintro ⟨l, hl, _⟩; exact absurd hl (hnl l)
      · split
        · rename_i hl
          constructor
          · intro hh; exact ⟨_, (label_prefix e _).mpr ⟨hl, rfl⟩, hh⟩
          · rintro ⟨l, h1, h2⟩; rw [((label_prefix e l).mp h1).2]; exact h2
        · rename_i hl
          simp only [reduceCtorEq, false_iff]
          rintro ⟨l, h1, _⟩; exact hl ((label_prefix e l).mp h1).1
    have hcongr : ∀ l (ds ds' : List Disk), ds'.map unmarked = ds.map unmarked → (markLabel l ds' = .ub ↔ markLabel l ds = .ub) := by
      have one : ∀ l (ds ds' : List Disk), ds'.map unmarked = ds.map unmarked → markLabel l ds = .ub → markLabel l ds' = .ub := by
        intro l ds ds' he
        rw [markLabel_ub, markLabel_ub]
        rintro ⟨i, d, hd, h1, h2⟩
        obtain ⟨d', hd', hu⟩ := unmarked_get he hd
        refine ⟨i, d', hd', by rw [(unmarked_id hu).2.2, h1], fun j x hj hx hxi => ?_⟩
        obtain ⟨y, hy, hyx⟩ := unmarked_get he.symm hx
        rw [← (unmarked_id hyx).2.1]
        exact h2 j y hj hy (by rw [(unmarked_id hyx).2.2, hxi])
      intro l ds ds' he
      exact ⟨one l ds' ds he.symm, one l ds ds' he⟩
    have hnt : ∀ e ds x, markEntry m e ds ≠ .throw x := by
      intro e ds x; unfold markEntry
      split
      · split <;> simp
      · split
        · exact markLabel_no_throw _ _ _
        · simp
    have main : ∀ es ds, markEntries m es ds = .ub ↔ ∃ l, (b!"LABEL=" ++ l) ∈ es ∧ markLabel l ds = .ub := by
      intro es
      induction es with
      | nil => intro ds; simp [markEntries]
      | cons e es ih =>
        intro ds
        rw [markEntries]
        cases he : markEntry m e ds with
        | ub =>
          simp only [Outcome.ub_bind, true_iff]
          obtain ⟨l, hl, hu⟩ := (hstep e ds).mp he
          exact ⟨l, by simp [hl], hu⟩
        | throw x => exact absurd he (hnt e ds x)
        | ok ds1 =>
          simp only [Outcome.ok_bind, ih]
          have hc := (markEntry_spec he).1
          constructor
          · rintro ⟨l, h1, h2⟩; exact ⟨l, by simp only [List.mem_cons]; exact .inr h1, (hcongr l _ _ hc).mp h2⟩
          · rintro ⟨l, h1, h2⟩
            rcases List.mem_cons.mp h1 with h1 | h1
            · have := (hstep e ds).mpr ⟨l, h1.symm, h2⟩; rw [he] at this; simp at this
            · exact ⟨l, h1, (hcongr l _ _ hc).mpr h2⟩
    rw [main]
    simp only [markLabel_ub]

/-- **C44** (the limit of the property): fstab entries that are device names have no effect at all. -/
theorem C44_device_names_ignored (h : DiskHost) (ds : List Disk) (m : UuidMap) (es es' : List Bytes)
    (hd : ∀ e ∈ es', ¬ ∃ r, e = b!"UUID=" ++ r ∨ e = b!"LABEL=" ++ r) :
    setPreferredDisks { h with fstab := some (es ++ es') } ds m = setPreferredDisks { h with fstab := some es } ds m := by
  simp only [setPreferredDisks]
  have hid : ∀ ds, markEntries m es' ds = .ok ds := by
    intro ds
    induction es' with
    | nil => rfl
    | cons e es' ih =>
      have h1 : markEntry m e ds = .ok ds := by
        unfold markEntry
        split
        · rename_i hu; exact absurd ⟨_, .inl ((uuid_prefix e _).mpr ⟨hu, rfl⟩)⟩ (hd e (by simp))
        · split
          · rename_i hu; exact absurd ⟨_, .inr ((label_prefix e _).mpr ⟨hu, rfl⟩)⟩ (hd e (by simp))
          · rfl
      rw [markEntries, h1]
      exact ih (fun x hx => hd x (by simp [hx]))
  clear hd
  induction es generalizing ds with
  | nil => exact hid ds
  | cons e es ih =>
    rw [List.cons_append, markEntries, markEntries]
    cases markEntry m e ds with
    | ok d => simpa using ih d
    | throw x => rfl
    | ub => rfl

/-! ## C53 -/

theorem firstPerInode_filter (q : Int → Bool) (l : List (Bytes × Int)) :
    firstPerInode (l.filter fun p => q p.2) = (firstPerInode l).filter fun p => q p.2 := by
  induction l with
  | nil => rfl
  | cons p l ih =>
    rw [List.filter_cons]
    by_cases hp : q p.2 = true
    · rw [if_pos hp, firstPerInode, firstPerInode, ih, List.filter_cons, if_pos hp, List.filter_filter, List.filter_filter]
      congr 1
      refine List.filter_congr fun x _ => ?_
      exact Bool.and_comm ..
    · rw [if_neg hp, ih, firstPerInode, List.filter_cons, if_neg hp, List.filter_filter]
      refine List.filter_congr fun x _ => ?_
      by_cases hx : x.2 = p.2
      · simp [hx, hp]
      · simp [hx]

theorem usable_cons (e : UuidEntry) (es : List UuidEntry) : usable (e :: es) = usable [e] ++ usable es := by
  unfold usable; rw [List.filterMap_cons]; split <;> simp_all

theorem usable_append (a b : List UuidEntry) : usable (a ++ b) = usable a ++ usable b := by
  unfold usable; rw [List.filterMap_append]

theorem skipped_iff (n : Bytes) : skippedName n = true ↔ n = b!"." ∨ n = b!".." ∨ n.take 3 = b!"usb" := by
  unfold skippedName
  simp only [Bool.or_eq_true, beq_iff_eq, List.isPrefixOf_iff_prefix, or_assoc]
  have : b!"usb" <+: n ↔ n.take 3 = b!"usb" := by
    rw [List.prefix_iff_eq_take]; exact eq_comm
  rw [this]

theorem usable_one (e : UuidEntry) : usable [e] = [] ∨ ∃ i, usable [e] = [(e.name, i)] := by
  unfold usable
  rw [List.filterMap_cons]
  split
  · exact .inl rfl
  · rename_i b hb
    split at hb
    · simp at hb
    · split at hb
      · simp at hb; subst hb; exact .inr ⟨_, rfl⟩
      · simp at hb

/-- What one entry does. -/
theorem addUuidEntry_cases (e : UuidEntry) (ds : List Disk) (m : UuidMap) :
    (usable [e] = [] ∧ addUuidEntry e ds m = .ok (ds, m))
    ∨ ∃ i, usable [e] = [(e.name, i)] ∧
      ((e.name.length < roomNeeded e.name ∧ addUuidEntry e ds m = .ub)
       ∨ (¬ e.name.length < roomNeeded e.name ∧ ∃ dev, addUuidEntry e ds m =
          .ok (if ds.any (fun x => x.id = i) then ds else ds ++ [⟨i, dev, serialOf e.name, true, [], false, false⟩], m ++ [(e.name, i)]))) := by
  unfold addUuidEntry
  by_cases hs : skippedName e.name = true
  · left
    rw [if_pos hs]
    refine ⟨?_, rfl⟩
    rw [skipped_iff] at hs
    unfold usable; simp only [List.filterMap_cons, if_pos hs, List.filterMap_nil]
  · rw [if_neg hs]
    rw [skipped_iff] at hs
    cases hi : e.inode with
    | none => left; refine ⟨?_, rfl⟩; unfold usable; simp only [List.filterMap_cons, if_neg hs, hi, List.filterMap_nil]
    | some i =>
      cases hl : e.link with
      | none => left; refine ⟨?_, rfl⟩; unfold usable; simp only [List.filterMap_cons, if_neg hs, hi, hl, List.filterMap_nil]
      | some l =>
        right
        refine ⟨i, by unfold usable; simp only [List.filterMap_cons, if_neg hs, hi, hl, List.filterMap_nil], ?_⟩
        simp only [C43_parse]
        by_cases hr : roomNeeded e.name ≤ e.name.length
        · right
          rw [if_pos hr]
          exact ⟨by omega, _, rfl⟩
        · left
          rw [if_neg hr]
          exact ⟨by omega, rfl⟩

/-- Inode and serial number. -/
def idSn (d : Disk) : Int × DiskSn := (d.id, d.sn)
def idSnOf (p : Bytes × Int) : Int × DiskSn := (p.2, serialOf p.1)

/-- The entries of inodes that are not yet known. -/
def fresh (ds : List Disk) (l : List (Bytes × Int)) : List (Bytes × Int) := l.filter fun p => !ds.any (fun x => x.id = p.2)

theorem uuidLoop_spec {es : List UuidEntry} : ∀ {ds ds' : List Disk} {m m' : UuidMap}, uuidLoop es ds m = .ok (ds', m') →
    ds.length ≤ 40 →
    (∃ new, ds' = ds ++ new ∧ (∀ d ∈ new, d.snInit = true ∧ d.preferred = false ∧ d.labelInit = false)
      ∧ new.map idSn = ((firstPerInode (fresh ds (usable es))).take (40 - ds.length)).map idSnOf)
    ∧ ds'.length ≤ 40
    ∧ ∃ pre post, es = pre ++ post ∧ m' = m ++ usable pre ∧ (post = [] ∨ ds'.length = 40) := by
  induction es with
  | nil =>
    intro ds ds' m m' h hl
    simp [uuidLoop] at h
    obtain ⟨rfl, rfl⟩ := h
    exact ⟨⟨[], by simp, by simp, by simp [usable, fresh, firstPerInode]⟩, hl, [], [], rfl, by simp [usable], .inl rfl⟩
  | cons e es ih =>
    intro ds ds' m m' h hl
    rw [uuidLoop] at h
    by_cases h40 : ds.length < 40
    · rw [if_pos h40] at h
      obtain ⟨⟨ds1, m1⟩, h1, h2⟩ := Outcome.bind_eq_ok.mp h
      dsimp only at h2
      have finish : ∀ us, usable [e] = us → m1 = m ++ us → ∀ {p post : List UuidEntry}, es = p ++ post → m' = m1 ++ usable p →
          e :: es = (e :: p) ++ post ∧ m' = m ++ usable (e :: p) := by
        intro us hu hm p post hp hm'
        refine ⟨by rw [hp]; rfl, ?_⟩
        rw [usable_cons, hu, hm', hm, List.append_assoc]
      rcases addUuidEntry_cases e ds m with ⟨hu, ha⟩ | ⟨i, hu, ⟨_, ha⟩ | ⟨_, dev, ha⟩⟩
      · rw [ha] at h1; simp at h1; obtain ⟨rfl, rfl⟩ := h1
        obtain ⟨hnew, h3, pre, post, h4, h5, h6⟩ := ih h2 hl
        refine ⟨?_, h3, e :: pre, post, (finish _ hu (by simp) h4 h5).1, (finish _ hu (by simp) h4 h5).2, h6⟩
        rw [usable_cons, hu, List.nil_append]; exact hnew
      · rw [ha] at h1; simp at h1
      · rw [ha] at h1; simp only [Outcome.ok.injEq, Prod.mk.injEq] at h1; obtain ⟨h1, rfl⟩ := h1
        by_cases hin : (ds.any fun x => x.id = i) = true
        · rw [if_pos hin] at h1; subst h1
          obtain ⟨hnew, h3, pre, post, h4, h5, h6⟩ := ih h2 hl
          refine ⟨?_, h3, e :: pre, post, (finish _ hu rfl h4 h5).1, (finish _ hu rfl h4 h5).2, h6⟩
          rw [usable_cons, hu]
          have : fresh ds ([(e.name, i)] ++ usable es) = fresh ds (usable es) := by
            unfold fresh; rw [List.filter_append, List.filter_cons]; simp only [hin]; simp
          rw [this]; exact hnew
        · rw [if_neg hin] at h1
          obtain ⟨⟨new, hn1, hn2, hn3⟩, h3, pre, post, h4, h5, h6⟩ := ih h2 (by rw [← h1]; simp; omega)
          refine ⟨⟨⟨i, dev, serialOf e.name, true, [], false, false⟩ :: new, ?_, ?_, ?_⟩, h3, e :: pre, post,
            (finish _ hu rfl h4 h5).1, (finish _ hu rfl h4 h5).2, h6⟩
          · rw [hn1, ← h1]; simp
          · intro d hd
            rcases List.mem_cons.mp hd with rfl | hd
            · exact ⟨rfl, rfl, rfl⟩
            · exact hn2 d hd
          · rw [List.map_cons, hn3, usable_cons, hu]
            have h40' : 40 - ds.length = (40 - ds1.length) + 1 := by rw [← h1]; simp; omega
            have : fresh ds ([(e.name, i)] ++ usable es) = (e.name, i) :: fresh ds (usable es) := by
              unfold fresh; rw [List.filter_append, List.filter_cons]; simp only [hin]; simp
            rw [this, firstPerInode, h40', List.take_succ_cons, List.map_cons]
            have hf : fresh ds1 (usable es) = (fresh ds (usable es)).filter fun q => q.2 ≠ i := by
              unfold fresh
              rw [List.filter_filter]
              refine List.filter_congr fun x _ => ?_
              rw [← h1]
              simp only [List.any_append, List.any_cons, List.any_nil, Bool.or_false, Bool.not_or, ne_eq, decide_not]
              rw [Bool.and_comm]
              by_cases hxi : x.2 = i
              · simp [hxi]
              · simp [hxi, Ne.symm hxi]
            rw [hf, firstPerInode_filter (fun x => decide (x ≠ i))]
            rfl
    · rw [if_neg h40] at h
      simp at h
      obtain ⟨rfl, rfl⟩ := h
      have : 40 - ds.length = 0 := by omega
      exact ⟨⟨[], by simp, by simp, by simp [this]⟩, hl, [], e :: es, rfl, by simp [usable], .inr (by omega)⟩

theorem firstPerInode_length_le (l : List (Bytes × Int)) : (firstPerInode l).length ≤ l.length := by
  induction l with
  | nil => simp [firstPerInode]
  | cons p l ih =>
    rw [firstPerInode, List.length_cons, List.length_cons]
    exact Nat.succ_le_succ (Nat.le_trans (List.length_filter_le ..) ih)

theorem uuidLoop_ub {es : List UuidEntry} : ∀ {ds : List Disk} {m : UuidMap}, ds.length ≤ 40 →
    (uuidLoop es ds m = .ub ↔ ∃ before e after i, es = before ++ e :: after ∧ usable [e] = [(e.name, i)] ∧ e.name.length < roomNeeded e.name
      ∧ ds.length + (firstPerInode (fresh ds (usable before))).length < 40) := by
  induction es with
  | nil => intro ds m _; simp [uuidLoop]
  | cons e es ih =>
    intro ds m hl
    rw [uuidLoop]
    by_cases h40 : ds.length < 40
    · rw [if_pos h40]
      have shift : ∀ ds1 : List Disk, (∀ before, ds.length + (firstPerInode (fresh ds (usable (e :: before)))).length
            = ds1.length + (firstPerInode (fresh ds1 (usable before))).length) →
          (¬ ∃ i, usable [e] = [(e.name, i)] ∧ e.name.length < roomNeeded e.name) →
          ((∃ before x after i, es = before ++ x :: after ∧ usable [x] = [(x.name, i)] ∧ x.name.length < roomNeeded x.name
              ∧ ds1.length + (firstPerInode (fresh ds1 (usable before))).length < 40)
           ↔ ∃ before x after i, e :: es = before ++ x :: after ∧ usable [x] = [(x.name, i)] ∧ x.name.length < roomNeeded x.name
              ∧ ds.length + (firstPerInode (fresh ds (usable before))).length < 40) := by
        intro ds1 hlen hno
        constructor
        · rintro ⟨b, x, a, i, rfl, h1, h2, h3⟩
          exact ⟨e :: b, x, a, i, rfl, h1, h2, by rw [hlen]; exact h3⟩
        · rintro ⟨b, x, a, i, he, h1, h2, h3⟩
          cases b with
          | nil => simp at he; obtain ⟨rfl, rfl⟩ := he; exact absurd ⟨i, h1, h2⟩ hno
          | cons y b =>
            simp only [List.cons_append, List.cons.injEq] at he
            obtain ⟨rfl, rfl⟩ := he
            exact ⟨b, x, a, i, rfl, h1, h2, by rw [← hlen]; exact h3⟩
      rcases addUuidEntry_cases e ds m with ⟨hu, ha⟩ | ⟨i, hu, ⟨hr, ha⟩ | ⟨hr, dev, ha⟩⟩
      · rw [ha]; simp only [Outcome.ok_bind]
        rw [ih hl]
        refine shift ds (fun before => ?_) (by rw [hu]; simp)
        rw [usable_cons, hu, List.nil_append]
      · rw [ha]; simp only [Outcome.ub_bind, true_iff]
        exact ⟨[], e, es, i, rfl, hu, hr, by simpa [usable, fresh, firstPerInode] using h40⟩
      · rw [ha]; simp only [Outcome.ok_bind]
        by_cases hin : (ds.any fun x => x.id = i) = true
        · rw [if_pos hin, ih hl]
          refine shift ds (fun before => ?_) (by rintro ⟨_, _, h⟩; exact hr h)
          rw [usable_cons, hu]
          have : fresh ds ([(e.name, i)] ++ usable before) = fresh ds (usable before) := by
            unfold fresh; rw [List.filter_append, List.filter_cons]; simp only [hin]; simp
          rw [this]
        · rw [if_neg hin, ih (by simp; omega)]
          refine shift _ (fun before => ?_) (by rintro ⟨_, _, h⟩; exact hr h)
          rw [usable_cons, hu]
          have : fresh ds ([(e.name, i)] ++ usable before) = (e.name, i) :: fresh ds (usable before) := by
            unfold fresh; rw [List.filter_append, List.filter_cons]; simp only [hin]; simp
          have hf : fresh (ds ++ [⟨i, dev, serialOf e.name, true, [], false, false⟩]) (usable before)
              = (fresh ds (usable before)).filter fun q => q.2 ≠ i := by
            unfold fresh
            rw [List.filter_filter]
            refine List.filter_congr fun x _ => ?_
            simp only [List.any_append, List.any_cons, List.any_nil, Bool.or_false, Bool.not_or, ne_eq, decide_not]
            rw [Bool.and_comm]
            by_cases hxi : x.2 = i
            · simp [hxi]
            · simp [hxi, Ne.symm hxi]
          rw [this, firstPerInode, hf, firstPerInode_filter (fun x => decide (x ≠ i))]
          simp; omega
    · rw [if_neg h40]
      simp only [reduceCtorEq, false_iff]
      rintro ⟨_, _, _, _, _, _, _, h⟩; omega

/-- A disk with its label. -/
def labelled (es : List LabelEntry) (d : Disk) : Disk :=
  match lastLabel es d.id with
  | some l => { d with label := l, labelInit := true }
  | none => d

theorem updateFirst_unique (ino : Int) (f : Disk → Disk) (ds : List Disk) (hd : ds.Pairwise fun a b => a.id ≠ b.id) :
    updateFirst (fun d => d.id = ino) f ds = ds.map fun d => if d.id = ino then f d else d := by
  induction ds with
  | nil => rfl
  | cons a ds ih =>
    rw [List.pairwise_cons] at hd
    rw [updateFirst, List.map_cons]
    by_cases h : a.id = ino
    · rw [if_pos (by simpa using h), if_pos h]
      congr 1
      refine (List.map_congr_left fun d hdm => ?_).trans (List.map_id _) |>.symm
      have := hd.1 d hdm
      rw [if_neg (fun h2 => this (h.trans h2.symm))]; rfl
    · rw [if_neg (by simpa using h), if_neg h, ih hd.2]

theorem labelLoop_spec (es : List LabelEntry) : ∀ ds : List Disk, (ds.Pairwise fun a b => a.id ≠ b.id) →
    labelLoop es ds = ds.map (labelled es) := by
  induction es with
  | nil =>
    intro ds _
    have : labelled [] = id := by funext d; rfl
    rw [this, List.map_id]; rfl
  | cons e es ih =>
    intro ds hd
    rw [labelLoop]
    have skip : (∀ d ∈ ds, lastLabel (e :: es) d.id = lastLabel es d.id) → labelLoop es ds = ds.map (labelled (e :: es)) := by
      intro h
      rw [ih ds hd]
      exact List.map_congr_left fun d hdm => by unfold labelled; rw [h d hdm]
    by_cases hn : e.name = b!"." ∨ e.name = b!".."
    · rw [if_pos hn]
      exact skip fun d _ => by unfold lastLabel; rw [List.filterMap_cons, if_pos hn]
    · rw [if_neg hn]
      cases hi : e.inode with
      | none => exact skip fun d _ => by unfold lastLabel; rw [List.filterMap_cons, if_neg hn, hi]; simp
      | some ino =>
        dsimp only
        rw [updateFirst_unique _ _ _ hd, ih _ (by
          rw [List.pairwise_map]
          refine hd.imp fun {a b} hab => ?_
          split <;> split <;> simpa using hab), List.map_map]
        refine List.map_congr_left fun d _ => ?_
        have hid : (if d.id = ino then { d with label := e.name.take 254, labelInit := true } else d).id = d.id := by split <;> rfl
        simp only [Function.comp_apply, labelled, hid]
        have hl : lastLabel (e :: es) d.id = match lastLabel es d.id with
            | some l => some l
            | none => if d.id = ino then some (e.name.take 254) else none := by
          unfold lastLabel
          rw [List.filterMap_cons, if_neg hn, hi]
          by_cases h : d.id = ino
          · simp only [h, if_true]
            rw [List.getLast?_cons]
            cases (List.filterMap _ es).getLast? <;> rfl
          · have h' : ¬ some ino = some d.id := by simpa [eq_comm] using h
            simp only [h', h, if_false]
            cases (List.filterMap _ es).getLast? <;> rfl
        rw [hl]
        cases lastLabel es d.id with
        | some l => dsimp only; split <;> rfl
        | none =>
          dsimp only
          by_cases h : d.id = ino
          · simp [h]
          · simp [h]

theorem readDiskLabels_spec (h : DiskHost) (ds : List Disk) (hd : ds.Pairwise fun a b => a.id ≠ b.id) :
    readDiskLabels h ds = ds.map (labelled (labelDir h)) := by
  unfold readDiskLabels labelDir
  cases h.byLabel with
  | some es => exact labelLoop_spec es ds hd
  | none =>
    cases h.byPartLabel with
    | some es => exact labelLoop_spec es ds hd
    | none => exact labelLoop_spec [] ds hd

theorem firstPerInode_distinct (l : List (Bytes × Int)) : (firstPerInode l).Pairwise fun a b => a.2 ≠ b.2 := by
  induction l with
  | nil => exact .nil
  | cons p l ih =>
    rw [firstPerInode, List.pairwise_cons]
    refine ⟨fun q hq => ?_, ih.filter _⟩
    have := (List.mem_filter.mp hq).2
    have h2 : q.2 ≠ p.2 := by simpa using this
    exact fun h => h2 h.symm

theorem firstPerInode_nil (l : List (Bytes × Int)) : firstPerInode l = [] ↔ l = [] := by
  cases l with
  | nil => simp [firstPerInode]
  | cons p l => simp [firstPerInode]

/-- What the directory /dev/disk/by-uuid gives, before fstab is looked at. -/
theorem getDiskInfosDev_spec {h : DiskHost} {es : List UuidEntry} (he : h.byUuid = some es) {r : FuncRet} {ds : List Disk} {m : UuidMap}
    (hok : getDiskInfosDev h = .ok (r, ds, m)) :
    (r = .ok ↔ usable es ≠ []) ∧ (usable es = [] → r = .notAvail ∧ ds = [])
    ∧ (∃ pre post, es = pre ++ post ∧ m = usable pre ∧ (post = [] ∨ ds.length = 40))
    ∧ ds.length = ((firstPerInode (usable es)).take 40).length
    ∧ ∀ (i : Nat) (n : Bytes) (ino : Int), ((firstPerInode (usable es)).take 40)[i]? = some (n, ino) →
      ∃ d, ds[i]? = some d ∧ d.id = ino ∧ d.sn = serialOf n ∧ d.snInit = true ∧ d.preferred = false
        ∧ (d.labelInit = true ↔ (lastLabel (labelDir h) ino).isSome = true)
        ∧ ∀ l, lastLabel (labelDir h) ino = some l → d.label = l := by
  unfold getDiskInfosDev at hok
  rw [he] at hok
  obtain ⟨⟨ds0, m0⟩, h1, h2⟩ := Outcome.bind_eq_ok.mp hok
  simp only [Outcome.pure_eq, Outcome.ok.injEq, Prod.mk.injEq] at h2
  obtain ⟨hr, hds, rfl⟩ := h2
  obtain ⟨⟨new, hn1, hn2, hn3⟩, hlen, pre, post, hp1, hp2, hp3⟩ := uuidLoop_spec h1 (by simp)
  simp only [List.nil_append] at hn1
  subst hn1
  have hfresh : fresh [] (usable es) = usable es := by unfold fresh; simp
  rw [hfresh, List.length_nil, Nat.sub_zero] at hn3
  have hdist : ds0.Pairwise fun a b => a.id ≠ b.id := by
    have h3 : (ds0.map idSn).Pairwise fun a b => a.1 ≠ b.1 := by
      rw [hn3, List.pairwise_map]
      exact (firstPerInode_distinct _).take
    rw [List.pairwise_map] at h3; exact h3
  rw [readDiskLabels_spec h ds0 hdist] at hds
  have hl0 : ds0.length = ((firstPerInode (usable es)).take 40).length := by simpa using congrArg List.length hn3
  have hl : ds.length = ds0.length := by rw [← hds]; simp
  have hnil : ds0.length = 0 ↔ usable es = [] := by
    rw [hl0, List.length_eq_zero_iff, ← firstPerInode_nil (usable es)]
    cases firstPerInode (usable es) <;> simp
  refine ⟨?_, ?_, ⟨pre, post, hp1, by simpa using hp2, by rw [hl]; exact hp3⟩, by rw [hl, hl0], ?_⟩
  · rw [← hr]
    by_cases h0 : ds0.length > 0
    · simp only [h0, if_true, true_iff]; exact fun h => by have := hnil.mpr h; omega
    · simp only [h0, if_false]
      have : usable es = [] := hnil.mp (by omega)
      simp [this]
  · intro h0
    have h00 := hnil.mpr h0
    rw [if_neg (by omega)] at hr
    refine ⟨hr.symm, ?_⟩
    rw [List.length_eq_zero_iff] at h00; rw [← hds, h00]; rfl
  · intro i n ino hi
    have h4 : (ds0.map idSn)[i]? = some (ino, serialOf n) := by rw [hn3, List.getElem?_map, hi]; rfl
    rw [List.getElem?_map, Option.map_eq_some_iff] at h4
    obtain ⟨d, hd, hids⟩ := h4
    simp only [idSn, Prod.mk.injEq] at hids
    obtain ⟨rfl, hsn⟩ := hids
    have hprops := hn2 d (List.mem_of_getElem? hd)
    refine ⟨labelled (labelDir h) d, by rw [← hds, List.getElem?_map, hd]; rfl, ?_⟩
    unfold labelled
    cases hll : lastLabel (labelDir h) d.id with
    | none => simp [hsn, hprops]
    | some l => simp [hsn, hprops]

/-- **C53**: the disks listed from /dev/disk/by-uuid: for the first 40 different inodes, in the order of the directory, the
    serial number of the first name and the last label; without usable entry there is nothing. -/
theorem C53_disks {h : DiskHost} {es : List UuidEntry} (he : h.byUuid = some es) (hne : usable es ≠ []) {r : FuncRet} {ds : List Disk}
    (hok : getDiskInfos h = .ok (r, ds)) :
    r = .ok ∧ ds.length = ((firstPerInode (usable es)).take 40).length
    ∧ ∀ (i : Nat) (n : Bytes) (ino : Int), ((firstPerInode (usable es)).take 40)[i]? = some (n, ino) →
      ∃ d, ds[i]? = some d ∧ d.id = ino ∧ d.sn = serialOf n ∧ d.snInit = true
        ∧ (d.labelInit = true ↔ (lastLabel (labelDir h) ino).isSome = true)
        ∧ ∀ l, lastLabel (labelDir h) ino = some l → d.label = l := by
  unfold getDiskInfos at hok
  obtain ⟨⟨r0, ds0, m0⟩, h1, h2⟩ := Outcome.bind_eq_ok.mp hok
  obtain ⟨s1, _, _, s2, s3⟩ := getDiskInfosDev_spec he h1
  have hr0 : r0 = .ok := s1.mpr hne
  subst hr0
  simp only [ne_eq, not_true_eq_false, if_false, Outcome.ok_bind, if_true] at h2
  obtain ⟨ds1, h3, h4⟩ := Outcome.bind_eq_ok.mp h2
  simp only [Outcome.pure_eq, Outcome.ok.injEq, Prod.mk.injEq] at h4
  obtain ⟨rfl, rfl⟩ := h4
  obtain ⟨c1, c2⟩ := C44_preferred_iff h3
  refine ⟨rfl, by rw [c1, s2], fun i n ino hi => ?_⟩
  obtain ⟨d, d1, d2, d3, d4, _, d6, d7⟩ := s3 i n ino hi
  obtain ⟨b, hb, _⟩ := c2 i d d1
  exact ⟨_, hb, d2, d3, d4, d6, d7⟩

/-- **C53**: listing overruns memory iff a name without room is met. -/
theorem C53_undefined_iff {h : DiskHost} {es : List UuidEntry} (he : h.byUuid = some es) :
    getDiskInfosDev h = .ub ↔ Overruns es := by
  unfold getDiskInfosDev
  rw [he]
  rw [Outcome.bind_eq_ub]
  have hfresh : ∀ l : List (Bytes × Int), fresh [] l = l := by intro l; unfold fresh; simp
  have : ∀ x : List Disk × UuidMap, (pure (if x.1.length > 0 then FuncRet.ok else .notAvail, readDiskLabels h x.1, x.2) : Outcome _) ≠ .ub := by
    simp
  constructor
  · rintro (h1 | ⟨a, _, h1⟩)
    · rw [uuidLoop_ub (by simp)] at h1
      obtain ⟨b, e, a, i, h1, h2, h3, h4⟩ := h1
      exact ⟨b, e, a, i, h1, h2, h3, by simpa [hfresh] using h4⟩
    · exact absurd h1 (this a)
  · rintro ⟨b, e, a, i, h1, h2, h3, h4⟩
    left
    rw [uuidLoop_ub (by simp)]
    exact ⟨b, e, a, i, h1, h2, h3, by simpa [hfresh] using h4⟩

/-- **C53** (what this means in practice): if one of the volumes is NTFS - its name in the directory is just hexadecimal digits -
    and it is met before 40 disks have been found, memory is overrun. -/
theorem C53_ntfs_overruns {h : DiskHost} {before after : List UuidEntry} {n : Bytes} {ino : Int} {link : Bytes}
    (he : h.byUuid = some (before ++ ⟨n, some ino, some link⟩ :: after)) (hhex : ∀ b ∈ n, IsHex b)
    (hfew : (firstPerInode (usable before)).length < 40) : getDiskInfos h = .ub := by
  have hd : getDiskInfosDev h = .ub := by
    rw [C53_undefined_iff he]
    refine ⟨before, _, after, ino, rfl, ?_, ?_, hfew⟩
    · have hn : ¬ (n = b!"." ∨ n = b!".." ∨ n.take 3 = b!"usb") := by
        rintro (rfl | rfl | h)
        · exact absurd (hhex 46 (by simp)) (by decide)
        · exact absurd (hhex 46 (by simp)) (by decide)
        · have : (117 : UInt8) ∈ n := List.mem_of_mem_take (i := 3) (by rw [h]; simp)
          exact absurd (hhex 117 this) (by decide)
      simp only [usable, List.filterMap_cons, if_neg hn, List.filterMap_nil]
    · have hh : hexDigits n = n := by unfold hexDigits; exact List.filter_eq_self.mpr (by simpa using hhex)
      unfold roomNeeded; rw [hh]; dsimp only; omega
  unfold getDiskInfos
  rw [hd]; rfl

theorem find_of_mem {l : List (Bytes × Int)} (hn : l.Pairwise fun a b => a.1 ≠ b.1) {u : Bytes} {i : Int} :
    UuidMap.find? l u = some i ↔ (u, i) ∈ l := by
  induction l with
  | nil => simp [UuidMap.find?]
  | cons p l ih =>
    rw [List.pairwise_cons] at hn
    have ih := ih hn.2
    unfold UuidMap.find? at ih ⊢
    rw [List.find?_cons]
    by_cases hp : p.1 = u
    · simp only [hp, decide_true, Option.map_some, Option.some.injEq, List.mem_cons]
      constructor
      · rintro rfl; exact .inl (by rw [← hp])
      · rintro (h | h)
        · rw [← h]
        · exact absurd hp (hn.1 _ h)
    · simp only [hp, decide_false, ih, List.mem_cons]
      constructor
      · exact .inr
      · rintro (h | h)
        · exact absurd (by rw [← h]) hp
        · exact h

/-- **C44**: with fewer than 40 disks in /dev/disk/by-uuid, a disk is preferred iff fstab names it by one of its UUIDs or by its
    label (if it is the first disk with that label). -/
theorem C44_by_uuid {h : DiskHost} {es : List UuidEntry} (he : h.byUuid = some es) (hne : usable es ≠ [])
    (hnames : (usable es).Pairwise fun a b => a.1 ≠ b.1) (hfew : (firstPerInode (usable es)).length < 40)
    {r : FuncRet} {ds : List Disk} (hok : getDiskInfos h = .ok (r, ds)) {i : Nat} {d : Disk} (hd : ds[i]? = some d) :
    d.preferred = true ↔ ∃ tab, h.fstab = some tab ∧
      ((∃ u, (b!"UUID=" ++ u) ∈ tab ∧ (u, d.id) ∈ usable es)
       ∨ ∃ l, (b!"LABEL=" ++ l) ∈ tab ∧ d.label = l ∧ ∀ (j : Nat) (x : Disk), j < i → ds[j]? = some x → x.label ≠ l) := by
  unfold getDiskInfos at hok
  obtain ⟨⟨r0, ds0, m0⟩, h1, h2⟩ := Outcome.bind_eq_ok.mp hok
  obtain ⟨s1, _, ⟨pre, post, p1, p2, p3⟩, s2, s3⟩ := getDiskInfosDev_spec he h1
  have hr0 : r0 = .ok := s1.mpr hne
  subst hr0
  simp only [ne_eq, not_true_eq_false, if_false, Outcome.ok_bind, if_true] at h2
  obtain ⟨ds1, h3, h4⟩ := Outcome.bind_eq_ok.mp h2
  simp only [Outcome.pure_eq, Outcome.ok.injEq, Prod.mk.injEq] at h4
  obtain ⟨rfl, rfl⟩ := h4
  have hpost : post = [] := by
    rcases p3 with h | h
    · exact h
    · rw [s2, List.length_take] at h; omega
  subst hpost
  rw [List.append_nil] at p1
  subst p1
  subst p2
  obtain ⟨c1, c2⟩ := C44_preferred_iff h3
  have hdist : ∀ (j : Nat) (x : Disk), j ≠ i → ds0[j]? = some x → ∀ y, ds0[i]? = some y → x.id ≠ y.id := by
    have hp := firstPerInode_distinct (usable es)
    rw [List.pairwise_iff_getElem] at hp
    have hget : ∀ (k : Nat) (x : Disk), ds0[k]? = some x → ∃ n, (firstPerInode (usable es))[k]? = some (n, x.id) := by
      intro k x hx
      have hk : k < ((firstPerInode (usable es)).take 40).length := by
        rw [← s2]; exact (List.getElem?_eq_some_iff.mp hx).1
      cases hL : ((firstPerInode (usable es)).take 40)[k]? with
      | none => rw [List.getElem?_eq_none_iff] at hL; omega
      | some p =>
        obtain ⟨n, ino⟩ := p
        obtain ⟨d, d1, d2, _⟩ := s3 k n ino hL
        rw [hx] at d1; simp at d1; subst d1; subst d2
        rw [List.getElem?_take] at hL
        split at hL
        · exact ⟨n, hL⟩
        · simp at hL
    intro j x hj hx y hy
    obtain ⟨n, hn⟩ := hget j x hx
    obtain ⟨n', hn'⟩ := hget i y hy
    obtain ⟨hj1, hj2⟩ := List.getElem?_eq_some_iff.mp hn
    obtain ⟨hi1, hi2⟩ := List.getElem?_eq_some_iff.mp hn'
    rcases Nat.lt_or_gt_of_ne hj with hlt | hlt
    · have := hp j i hj1 hi1 hlt; rw [hj2, hi2] at this; exact this
    · have := hp i j hi1 hj1 hlt; rw [hj2, hi2] at this; exact this.symm
  have hi0 : i < ds0.length := by rw [← c1]; exact (List.getElem?_eq_some_iff.mp hd).1
  obtain ⟨b, hb1, hb2⟩ := c2 i ds0[i] (List.getElem?_eq_getElem hi0)
  rw [hb1] at hd; simp only [Option.some.injEq] at hd
  have hpre : ds0[i].preferred = false := by
    have hk : i < ((firstPerInode (usable es)).take 40).length := by rw [← s2]; exact hi0
    obtain ⟨x, x1, _, _, _, x5, _⟩ := s3 i _ _ (List.getElem?_eq_getElem hk)
    rw [List.getElem?_eq_getElem hi0] at x1; simp at x1; rw [x1]; exact x5
  have hlab : ∀ l, (∀ (j : Nat) (x : Disk), j < i → ds0[j]? = some x → x.label ≠ l) ↔
      ∀ (j : Nat) (x : Disk), j < i → ds1[j]? = some x → x.label ≠ l := by
    intro l
    constructor
    · intro hh j x hj hx
      obtain ⟨b', hb', _⟩ := c2 j ds0[j] (List.getElem?_eq_getElem (by omega))
      rw [hb'] at hx; simp at hx; subst hx
      exact hh j ds0[j] hj (List.getElem?_eq_getElem (by omega))
    · intro hh j x hj hx
      obtain ⟨b', hb', _⟩ := c2 j x hx
      exact hh j { x with preferred := b' } hj hb'
  subst hd
  dsimp only
  rw [hb2, hpre]
  simp only [Bool.false_eq_true, false_or]
  constructor
  · rintro ⟨tab, ht, ⟨u, id, h5, h6, h7, _⟩ | ⟨l, h5, h6, h7⟩⟩
    · subst h7; exact ⟨tab, ht, .inl ⟨u, h5, (find_of_mem hnames).mp h6⟩⟩
    · exact ⟨tab, ht, .inr ⟨l, h5, h6, (hlab l).mp h7⟩⟩
  · rintro ⟨tab, ht, ⟨u, h5, h6⟩ | ⟨l, h5, h6, h7⟩⟩
    · exact ⟨tab, ht, .inl ⟨u, _, h5, (find_of_mem hnames).mpr h6, rfl, fun j x hj hx =>
        hdist j x (by omega) hx _ (List.getElem?_eq_getElem hi0)⟩⟩
    · exact ⟨tab, ht, .inr ⟨l, h5, h6, (hlab l).mpr h7⟩⟩

/-- **C44**: the root disk of a machine whose fstab names it by UUID is marked. -/
theorem C44_root_disk {h : DiskHost} {es : List UuidEntry} (he : h.byUuid = some es)
    (hnames : (usable es).Pairwise fun a b => a.1 ≠ b.1) (hfew : (firstPerInode (usable es)).length < 40)
    {u : Bytes} {ino : Int} (hu : (u, ino) ∈ usable es) {tab : List Bytes} (ht : h.fstab = some tab) (hroot : (b!"UUID=" ++ u) ∈ tab)
    {r : FuncRet} {ds : List Disk} (hok : getDiskInfos h = .ok (r, ds)) :
    ∃ d ∈ ds, d.id = ino ∧ d.preferred = true := by
  have hne : usable es ≠ [] := fun h0 => by rw [h0] at hu; simp at hu
  have hin : ∀ l : List (Bytes × Int), ∀ p ∈ l, ∃ q ∈ firstPerInode l, q.2 = p.2 := by
    intro l
    induction l with
    | nil => simp
    | cons a l ih =>
      intro p hp
      rw [firstPerInode]
      by_cases hpa : a.2 = p.2
      · exact ⟨a, by simp, hpa⟩
      · rcases List.mem_cons.mp hp with rfl | hp
        · exact absurd rfl hpa
        · obtain ⟨q, hq, hqp⟩ := ih p hp
          refine ⟨q, ?_, hqp⟩
          rw [List.mem_cons, List.mem_filter]
          exact .inr ⟨hq, by simp; rw [hqp]; exact fun h => hpa h.symm⟩
  obtain ⟨q, hq, hq2⟩ := hin _ _ hu
  obtain ⟨i, hi, hqi⟩ := List.mem_iff_getElem.mp hq
  obtain ⟨_, _, hall⟩ := C53_disks he hne hok
  obtain ⟨d, hd, hid, _⟩ := hall i q.1 q.2 (by
    rw [List.getElem?_take, if_pos (by omega), List.getElem?_eq_getElem hi, hqi])
  refine ⟨d, List.mem_of_getElem? hd, by rw [hid, hq2], ?_⟩
  rw [C44_by_uuid he hne hnames hfew hok hd]
  exact ⟨tab, ht, .inl ⟨u, hroot, by rw [hid, hq2]; exact hu⟩⟩

def sampleDisks : DiskHost where
  byUuid := some [⟨b!".", some 1, none⟩, ⟨b!"A1B2-C3D4", some 11, some b!"../../sda1"⟩,
    ⟨b!"c4e8dc21-6ab4-4d8f-9f5a-0123456789ab", some 12, some b!"../../sda2"⟩]
  byLabel := some [⟨b!"EFI", some 11⟩, ⟨b!"root", some 12⟩]
  byPartLabel := none
  blkidRun := none
  blkidEtc := none
  fstab := some [b!"UUID=c4e8dc21-6ab4-4d8f-9f5a-0123456789ab", b!"/dev/sda1"]

example : getDiskInfos sampleDisks = .ok (.ok,
    [⟨11, b!"sda1", ⟨0xa1, 0xb2, 0xc3, 0xd4, 0, 0, 0, 0⟩, true, b!"EFI", true, false⟩,
     ⟨12, b!"sda2", ⟨0x5b, 0xb2, 0xdd, 0x02, 0x2f, 0xd3, 0xc4, 0x24⟩, true, b!"root", true, true⟩]) := by decide +kernel
example : usable ((sampleDisks.byUuid).getD []) = [(b!"A1B2-C3D4", 11), (b!"c4e8dc21-6ab4-4d8f-9f5a-0123456789ab", 12)]
    ∧ (firstPerInode (usable ((sampleDisks.byUuid).getD []))).length < 40 := by decide +kernel
/-- An unlabelled disk and an fstab entry by label. -/
example : getDiskInfos { sampleDisks with byLabel := none, fstab := some [b!"LABEL=root"] } = .ub := by decide +kernel

end Licensecc
