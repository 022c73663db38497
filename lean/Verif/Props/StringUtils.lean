import Verif.Spec.DateNotation
import Verif.Model.StringUtils
import Verif.Spec.Regex
/-!
# Properties of the string helpers (C33, C35, C36, C37, C42)
-/
namespace Licensecc

theorem all_takeWhile {α : Type} (p : α → Bool) (l : List α) : ∀ x ∈ l.takeWhile p, p x = true := by
  induction l with
  | nil => simp
  | cons a l ih =>
    simp only [List.takeWhile_cons]
    split
    · intro x hx; rcases List.mem_cons.mp hx with rfl | hx
      · assumption
      · exact ih x hx
    · simp

theorem head_dropWhile {α : Type} (p : α → Bool) (l : List α) : ∀ x, (l.dropWhile p).head? = some x → p x = false := by
  induction l with
  | nil => simp
  | cons a l ih =>
    intro x
    simp only [List.dropWhile_cons]
    split
    · exact ih x
    · rename_i h; simp; rintro rfl; simpa using h

theorem dropWhile_eq_self {α : Type} (p : α → Bool) (l : List α) (h : ∀ x, l.head? = some x → p x = false) :
    l.dropWhile p = l := by
  cases l with
  | nil => rfl
  | cons a l => simp [h a (by simp)]

theorem dropWhile_nil_iff {α : Type} (p : α → Bool) (l : List α) : l.dropWhile p = [] ↔ ∀ x ∈ l, p x = true := by
  induction l with
  | nil => simp
  | cons a l ih =>
    simp only [List.dropWhile_cons]
    split
    · rename_i h; simp [ih, h]
    · rename_i h; simp [h]

/-! ## C35 trim and toupper -/

/-- White space of the "C" locale. -/
def Spec.White (b : UInt8) : Prop := b ∈ b!" \t\n" ∨ b = 11 ∨ b = 12 ∨ b = 13

theorem forall_byte {P : UInt8 → Prop} (h : ∀ n : Fin 256, P (UInt8.ofNat n.val)) (b : UInt8) : P b := by
  have := h ⟨b.toNat, b.toNat_lt⟩
  simpa using this

instance (b : UInt8) : Decidable (Spec.White b) := by unfold Spec.White; infer_instance

theorem isSpace_iff (b : UInt8) : isSpace b = true ↔ Spec.White b := by
  revert b; apply forall_byte; decide +kernel

/-- **C35**: `trim_copy` removes exactly the leading white space and the trailing white space and NULs. -/
theorem C35_trim_spec (s : Bytes) :
    ∃ pre post, s = pre ++ trimCopy s ++ post
      ∧ (∀ b ∈ pre, Spec.White b) ∧ (∀ b ∈ post, Spec.White b ∨ b = 0)
      ∧ (∀ b, (trimCopy s).head? = some b → ¬ Spec.White b)
      ∧ (∀ b, (trimCopy s).getLast? = some b → ¬ Spec.White b ∧ b ≠ 0) := by
  refine ⟨s.takeWhile isSpace,
    ((s.dropWhile isSpace).reverse.takeWhile (fun b => isSpace b || b == 0)).reverse, ?_, ?_, ?_, ?_, ?_⟩
  · unfold trimCopy
    rw [List.append_assoc, ← List.reverse_append, List.takeWhile_append_dropWhile, List.reverse_reverse,
      List.takeWhile_append_dropWhile]
  · intro b hb; exact (isSpace_iff b).mp (all_takeWhile _ _ b hb)
  · intro b hb
    have := all_takeWhile _ _ b (List.mem_reverse.mp hb)
    simp at this
    rcases this with h | h
    · exact .inl ((isSpace_iff b).mp h)
    · exact .inr h
  · intro b hb
    rw [← isSpace_iff]
    have hpre : (trimCopy s) <+: s.dropWhile isSpace := by
      unfold trimCopy
      have := (List.dropWhile_suffix (l := (s.dropWhile isSpace).reverse) (fun b => isSpace b || b == 0))
      have := List.reverse_prefix.mpr this
      simpa using this
    obtain ⟨t, ht⟩ := hpre
    have : (s.dropWhile isSpace).head? = some b := by
      rw [← ht]; simp [hb]
    simp [head_dropWhile _ _ _ this]
  · intro b hb
    rw [← isSpace_iff]
    unfold trimCopy at hb
    rw [List.getLast?_reverse] at hb
    have := head_dropWhile _ _ _ hb
    simp at this
    simpa using this

example : trimCopy [32, 9, 65, 32, 66, 0, 10] = [65, 32, 66] := by decide

/-- A text without white space at its ends is left alone. -/
theorem trimCopy_eq_self (s : Bytes) (h1 : ∀ b, s.head? = some b → isSpace b = false)
    (h2 : ∀ b, s.getLast? = some b → (isSpace b || b == 0) = false) : trimCopy s = s := by
  unfold trimCopy
  rw [dropWhile_eq_self _ _ h1, dropWhile_eq_self _ s.reverse, List.reverse_reverse]
  intro x hx; rw [List.head?_reverse] at hx; exact h2 x hx

/-- **C35**: trimming is idempotent. -/
theorem C35_trim_idempotent (s : Bytes) : trimCopy (trimCopy s) = trimCopy s := by
  obtain ⟨_, _, _, _, _, h1, h2⟩ := C35_trim_spec s
  apply trimCopy_eq_self
  · intro b hb; have := h1 b hb; rw [← isSpace_iff] at this; simpa using this
  · intro b hb; have := h2 b hb; rw [← isSpace_iff] at this; simpa using this

/-- **C35**: surrounding white space never matters. -/
theorem C35_trim_ignores_surroundings (s pre post : Bytes) (h1 : ∀ b ∈ pre, Spec.White b)
    (h2 : ∀ b ∈ post, Spec.White b) : trimCopy (pre ++ s ++ post) = trimCopy s := by
  have h1' : ∀ b ∈ pre, isSpace b = true := fun b hb => (isSpace_iff b).mpr (h1 b hb)
  have h2' : ∀ b ∈ post, isSpace b = true := fun b hb => (isSpace_iff b).mpr (h2 b hb)
  have e1 : ∀ t, (pre ++ t).dropWhile isSpace = t.dropWhile isSpace := by
    intro t
    rw [List.dropWhile_append_of_pos h1']
  unfold trimCopy
  rw [List.append_assoc, e1]
  by_cases hs : ∀ b ∈ s, isSpace b = true
  · have e2 : (s ++ post).dropWhile isSpace = [] := by
      rw [dropWhile_nil_iff]; intro x hx; rcases List.mem_append.mp hx with h | h
      · exact hs x h
      · exact h2' x h
    have e3 : s.dropWhile isSpace = [] := by rw [dropWhile_nil_iff]; exact hs
    rw [e2, e3]
  · have e4 : (s ++ post).dropWhile isSpace = s.dropWhile isSpace ++ post := by
      rw [List.dropWhile_append]
      have : s.dropWhile isSpace ≠ [] := by rw [ne_eq, dropWhile_nil_iff]; exact hs
      simp [this]
    rw [e4, List.reverse_append, List.dropWhile_append_of_pos]
    intro x hx; simp [h2' x (List.mem_reverse.mp hx)]

/-- **C35**: `toupper_copy` keeps the length, is idempotent, and maps exactly a..z to A..Z. -/
theorem C35_toupper (s : Bytes) :
    (toUpperCopy s).length = s.length ∧ toUpperCopy (toUpperCopy s) = toUpperCopy s
    ∧ ∀ i (h : i < s.length), (toUpperCopy s)[i]? =
        some (if 97 ≤ s[i].toNat ∧ s[i].toNat ≤ 122 then UInt8.ofNat (s[i].toNat - 32) else s[i]) := by
  refine ⟨by simp [toUpperCopy], ?_, ?_⟩
  · unfold toUpperCopy
    rw [List.map_map]
    apply List.map_congr_left
    intro b _
    revert b
    have : ∀ b, (toUpperByte ∘ toUpperByte) b = toUpperByte b := by
      apply forall_byte; decide +kernel
    intro b _; exact this b
  · intro i h
    have key : ∀ b : UInt8, toUpperByte b = if 97 ≤ b.toNat ∧ b.toNat ≤ 122 then UInt8.ofNat (b.toNat - 32) else b := by
      apply forall_byte; decide +kernel
    simp [toUpperCopy, h, key]

/-! ## C36 split -/

/-- The text obtained by writing the segments with separators between them. -/
def Spec.joinWith (c : UInt8) : List Bytes → Bytes
  | [] => []
  | [s] => s
  | s :: t => s ++ c :: joinWith c t

theorem splitAux_mem (c : UInt8) (s : Bytes) : ∀ acc, c ∉ acc → ∀ seg ∈ splitAux c acc s, c ∉ seg := by
  induction s with
  | nil => intro acc h; simp only [splitAux]; split <;> simp [h]
  | cons x xs ih =>
    intro acc h
    simp only [splitAux]
    split
    · intro seg hs
      rcases List.mem_cons.mp hs with rfl | hs
      · simpa using h
      · exact ih [] (by simp) seg hs
    · rename_i hx
      exact ih (x :: acc) (by simp [h]; exact fun hc => hx hc.symm)

/-- **C36**: no segment contains the separator. -/
theorem C36_split_no_separator (s : Bytes) (c : UInt8) : ∀ seg ∈ splitString s c, c ∉ seg :=
  splitAux_mem c s [] (by simp)

theorem splitAux_join (c : UInt8) (s : Bytes) : ∀ acc,
    (splitAux c acc s = [] → acc.reverse ++ s = [])
    ∧ (acc.reverse ++ s = Spec.joinWith c (splitAux c acc s)
      ∨ acc.reverse ++ s = Spec.joinWith c (splitAux c acc s) ++ [c]) := by
  induction s with
  | nil =>
    intro acc; simp only [splitAux]
    split <;> simp_all [Spec.joinWith]
  | cons x xs ih =>
    intro acc
    simp only [splitAux]
    split
    · rename_i hx; subst hx
      refine ⟨by simp, ?_⟩
      obtain ⟨i1, i2⟩ := ih []
      simp at i1 i2
      cases hsp : splitAux x [] xs with
      | nil => 
        have := i1 hsp
        subst this
        right; simp [Spec.joinWith]
      | cons g gs =>
        rw [hsp] at i2
        simp only [Spec.joinWith]
        rcases i2 with i2 | i2
        · left; rw [← i2]
        · right; rw [List.append_assoc, List.cons_append, ← i2]
    · obtain ⟨i1, i2⟩ := ih (x :: acc)
      simp only [List.reverse_cons, List.append_assoc, List.cons_append, List.nil_append] at i1 i2
      exact ⟨i1, i2⟩

/-- **C36**: joining the segments gives back the text, up to one separator at the very end. -/
theorem C36_split_join (s : Bytes) (c : UInt8) :
    s = Spec.joinWith c (splitString s c) ∨ s = Spec.joinWith c (splitString s c) ++ [c] := by
  have := (splitAux_join c s []).2
  simpa [splitString] using this

theorem splitAux_seg (c : UInt8) (seg rest : Bytes) (h : c ∉ seg) : ∀ acc,
    splitAux c acc (seg ++ c :: rest) = (acc.reverse ++ seg) :: splitAux c [] rest := by
  induction seg with
  | nil => intro acc; simp [splitAux]
  | cons x xs ih =>
    intro acc
    simp at h
    simp only [List.cons_append, splitAux]
    rw [if_neg (fun hx => h.1 hx.symm), ih h.2]
    simp

theorem splitAux_last (c : UInt8) (seg : Bytes) (h : c ∉ seg) : ∀ acc,
    splitAux c acc seg = if acc.reverse ++ seg = [] then [] else [acc.reverse ++ seg] := by
  induction seg with
  | nil => intro acc; simp [splitAux]
  | cons x xs ih =>
    intro acc
    simp at h
    simp only [splitAux]
    rw [if_neg (fun hx => h.1 hx.symm), ih h.2]
    simp

/-- **C36**: writing separator-free paths with separators between them and splitting returns exactly these
    paths in order (the last one must not be empty). -/
theorem C36_split_of_join (segs : List Bytes) (c : UInt8) (h : ∀ seg ∈ segs, c ∉ seg)
    (hl : ∀ seg, segs.getLast? = some seg → seg ≠ []) :
    splitString (Spec.joinWith c segs) c = segs := by
  induction segs with
  | nil => rfl
  | cons g gs ih =>
    unfold splitString
    cases gs with
    | nil =>
      simp only [Spec.joinWith]
      rw [splitAux_last c g (h g (by simp))]
      have := hl g (by simp)
      simp [this]
    | cons g' gs' =>
      simp only [Spec.joinWith]
      rw [splitAux_seg c g _ (h g (by simp))]
      have := ih (fun s hs => h s (by simp [hs])) (fun s hs => hl s (by simpa using hs))
      unfold splitString at this
      simpa using this

example : splitString b!"/a;;/b" 59 = [b!"/a", [], b!"/b"] ∧ splitString b!"/a;" 59 = [b!"/a"] := by decide

/-! ## C37 bounded copies -/

/-- **C37**: on a terminated string `mstrnlen_s` is the length capped at `maxsize`. -/
theorem C37_mstrnlen_terminated (s rest : Bytes) (h : 0 ∉ s) (max : Nat) :
    mstrnlen (some (s ++ 0 :: rest)) max = .ok (min s.length max) := by
  simp only [mstrnlen]
  induction s generalizing max with
  | nil => simp [mstrnlenLoop]
  | cons x xs ih =>
    simp at h
    simp only [List.cons_append, mstrnlenLoop]
    rw [if_neg (fun hx => h.1 hx.symm)]
    cases max with
    | zero => simp
    | succ m => simp [ih h.2 m, Nat.succ_min_succ]

/-- **C37**: on memory without NUL the read goes one byte past `maxsize`: undefined behaviour exactly when the
    object has at most `maxsize` bytes. -/
theorem C37_mstrnlen_unterminated (s : Bytes) (h : 0 ∉ s) (max : Nat) :
    mstrnlen (some s) max = if s.length ≤ max then .ub else .ok max := by
  simp only [mstrnlen]
  induction s generalizing max with
  | nil => simp [mstrnlenLoop]
  | cons x xs ih =>
    simp at h
    simp only [mstrnlenLoop]
    rw [if_neg (fun hx => h.1 hx.symm)]
    cases max with
    | zero => simp
    | succ m =>
      dsimp only
      rw [ih h.2 m]
      simp only [List.length_cons, Nat.add_le_add_iff_right]
      by_cases hle : xs.length ≤ m <;> simp [hle]

/-- Every memory block is one or the other. -/
theorem nul_cases (m : Bytes) : (∃ s rest, m = s ++ 0 :: rest ∧ 0 ∉ s) ∨ 0 ∉ m := by
  by_cases h : (0 : UInt8) ∈ m
  · left
    obtain ⟨s, t, hst, hs⟩ := List.eq_append_cons_of_mem h
    exact ⟨s, t, hst, hs⟩
  · exact .inr h

/-- **C37** (negation of "reads at most maxsize bytes"): a full, unterminated 16-byte array. -/
theorem C37_mstrnlen_overread : mstrnlen (some (List.replicate 16 65)) 16 = .ub := by decide

theorem mstrlcpyLoop_spec (s rest : Bytes) (h : 0 ∉ s) : ∀ n (dst : Bytes), n < dst.length →
    mstrlcpyLoop n dst (s ++ 0 :: rest) = .ok (s.take n ++ 0 :: dst.drop (min s.length n + 1), min s.length n) := by
  induction s with
  | nil =>
    intro n dst hn
    match n, dst, hn with
    | 0, d :: ds, _ => simp [mstrlcpyLoop]
    | n + 1, d :: ds, _ => simp [mstrlcpyLoop]
  | cons x xs ih =>
    intro n dst hn
    simp at h
    match n, dst, hn with
    | 0, d :: ds, _ => simp [mstrlcpyLoop]
    | n + 1, d :: ds, hn =>
      simp only [List.cons_append, mstrlcpyLoop]
      rw [if_neg (fun hx => h.1 hx.symm), ih h.2 n ds (by simpa using hn)]
      simp [Nat.succ_min_succ]

/-- **C37**: `mstrlcpy` of a terminated string into a buffer of at least `n > 0` bytes: the destination receives
    the longest prefix that fits followed by a NUL, bytes after that are untouched (in particular nothing at or
    beyond index `n`), and the number of bytes written is returned. -/
theorem C37_mstrlcpy (dst s rest : Bytes) (n : Nat) (h : 0 ∉ s) (hn : 0 < n) (hd : n ≤ dst.length) :
    mstrlcpy dst (s ++ 0 :: rest) n
      = .ok (s.take (n - 1) ++ 0 :: dst.drop (min s.length (n - 1) + 1), min s.length (n - 1) + 1) := by
  match n, hn with
  | m + 1, _ =>
    simp only [mstrlcpy]
    rw [mstrlcpyLoop_spec s rest h m dst (by omega)]
    simp

example : mstrlcpy [9, 9, 9, 9, 9] (b!"abcdef" ++ 0 :: []) 4 = .ok ([97, 98, 99, 0, 9], 4) := by decide

/-- **C37**: with `n = 0` nothing is written. -/
theorem C37_mstrlcpy_zero (dst src : Bytes) : mstrlcpy dst src 0 = .ok (dst, 0) := rfl

/-- **C37**: whatever the source, the destination keeps its size and its bytes from index `n` on. -/
theorem C37_mstrlcpy_in_bounds (dst src r : Bytes) (n k : Nat) (h : mstrlcpy dst src n = .ok (r, k)) :
    r.length = dst.length ∧ r.drop n = dst.drop n := by
  have key : ∀ n (dst src r : Bytes) k, mstrlcpyLoop n dst src = .ok (r, k) →
      r.length = dst.length ∧ r.drop (n + 1) = dst.drop (n + 1) := by
    intro n dst src
    fun_induction mstrlcpyLoop n dst src with
    | case1 => intro r k h; simp at h
    | case2 => intro r k h; simp at h; obtain ⟨rfl, rfl⟩ := h; simp
    | case3 => intro r k h; simp at h
    | case4 => intro r k h; simp at h; obtain ⟨rfl, rfl⟩ := h; simp
    | case5 n d ds s ss hs r' k' h' ih =>
      intro r k h; simp at h; obtain ⟨rfl, rfl⟩ := h
      have := ih r' k' h'; simp [this]
    | case6 => intro r k h; simp at h
    | case7 => intro r k h; simp at h
  unfold mstrlcpy at h
  split at h
  · simp at h; obtain ⟨rfl, rfl⟩ := h; simp
  · split at h
    · rename_i hh; simp at h; obtain ⟨rfl, rfl⟩ := h; exact key _ _ _ _ _ hh
    · simp at h
    · simp at h

/-! ## C42 identify_format -/

open Spec in
theorem isB64Char_iff (b : UInt8) : isB64Char b = cls b := by
  revert b; apply forall_byte; decide +kernel

open Spec in
theorem matches_chr {p : UInt8 → Bool} {x : Bytes} : Re.Matches (.chr p) x ↔ ∃ c, x = [c] ∧ p c = true := by
  constructor
  · rintro ⟨h⟩; exact ⟨_, rfl, by assumption⟩
  · rintro ⟨c, rfl, h⟩; exact .chr h

open Spec in
theorem matches_seq {a b : Re} {x : Bytes} : Re.Matches (.seq a b) x ↔ ∃ u v, x = u ++ v ∧ a.Matches u ∧ b.Matches v := by
  constructor
  · rintro ⟨h⟩; exact ⟨_, _, rfl, by assumption, by assumption⟩
  · rintro ⟨u, v, rfl, h1, h2⟩; exact .seq h1 h2

open Spec in
theorem matches_alt {a b : Re} {x : Bytes} : Re.Matches (.alt a b) x ↔ a.Matches x ∨ b.Matches x := by
  constructor
  · intro h; cases h with
    | altl h => exact .inl h
    | altr h => exact .inr h
  · rintro (h | h)
    · exact .altl h
    · exact .altr h

open Spec in
theorem matches_eps {x : Bytes} : Re.Matches .eps x ↔ x = [] := by
  constructor
  · intro h; cases h; rfl
  · rintro rfl; exact .eps

open Spec in
/-- Four characters in sequence. -/
theorem matches_four {p q r s : UInt8 → Bool} {x : Bytes} :
    Re.Matches (.seq (.chr p) (.seq (.chr q) (.seq (.chr r) (.chr s)))) x
      ↔ ∃ a b c d, x = [a, b, c, d] ∧ p a = true ∧ q b = true ∧ r c = true ∧ s d = true := by
  simp only [matches_seq, matches_chr]
  constructor
  · rintro ⟨_, _, rfl, ⟨a, rfl, ha⟩, _, _, rfl, ⟨b, rfl, hb⟩, _, _, rfl, ⟨c, rfl, hc⟩, d, rfl, hd⟩
    exact ⟨a, b, c, d, rfl, ha, hb, hc, hd⟩
  · rintro ⟨a, b, c, d, rfl, ha, hb, hc, hd⟩
    exact ⟨[a], [b, c, d], rfl, ⟨a, rfl, ha⟩, [b], [c, d], rfl, ⟨b, rfl, hb⟩, [c], [d], rfl, ⟨c, rfl, hc⟩, d, rfl, hd⟩

open Spec in
theorem star_cons_inv {a : Re} {x : Bytes} (h : Re.Matches (.star a) x) :
    x = [] ∨ ∃ u v, x = u ++ v ∧ a.Matches u ∧ Re.Matches (.star a) v := by
  cases h with
  | starNil => exact .inl rfl
  | starCons h1 h2 => exact .inr ⟨_, _, rfl, h1, h2⟩

open Spec in
theorem matchB64_sound (s : Bytes) (h : matchB64 s = true) : base64Re.Matches s := by
  have c : ∀ b, isB64Char b = cls b := isB64Char_iff
  fun_induction matchB64 s with
  | case1 => exact .seq (x := []) .starNil (.altr .eps)
  | case2 x1 x2 x3 x4 rest ih =>
    simp at h
    rcases h with (⟨⟨⟨⟨h1, h2⟩, h3⟩, h4⟩, h5⟩ | ⟨⟨⟨⟨h0, h1⟩, h2⟩, h3⟩, h4⟩) | ⟨⟨⟨⟨h0, h1⟩, h2⟩, h3⟩, h4⟩
    · have := ih h5
      unfold base64Re at this ⊢
      rw [matches_seq] at this
      obtain ⟨u, v, huv, hu, hv⟩ := this
      have : x1 :: x2 :: x3 :: x4 :: rest = ([x1, x2, x3, x4] ++ u) ++ v := by simp [huv]
      rw [this]
      refine .seq (.starCons ?_ hu) hv
      exact matches_four.mpr ⟨_, _, _, _, rfl, by simpa [← c], by simpa [← c], by simpa [← c], by simpa [← c]⟩
    · subst h0 h4
      refine .seq (x := []) .starNil (.altl (.altr ?_))
      exact matches_four.mpr ⟨_, _, _, _, rfl, by simpa [← c], by simpa [← c], by simpa [← c], by simp⟩
    · subst h0 h4 h3
      refine .seq (x := []) .starNil (.altl (.altl ?_))
      exact matches_four.mpr ⟨_, _, _, _, rfl, by simpa [← c], by simpa [← c], by simp, by simp⟩
  | case3 => simp at h

open Spec in
theorem matchB64_complete (s : Bytes) (h : base64Re.Matches s) : matchB64 s = true := by
  have c : ∀ b, cls b = isB64Char b := fun b => (isB64Char_iff b).symm
  unfold base64Re at h
  rw [matches_seq] at h
  obtain ⟨u, v, rfl, hu, hv⟩ := h
  generalize hn : u.length = n
  induction n using Nat.strongRecOn generalizing u with
  | ind n ih =>
    rcases star_cons_inv hu with rfl | ⟨x, y, rfl, hx, hy⟩
    · simp only [matches_alt, lit, matches_four, matches_eps] at hv
      rcases hv with (⟨a, b, c', d, rfl, h1, h2, h3, h4⟩ | ⟨a, b, c', d, rfl, h1, h2, h3, h4⟩) | rfl
      · simp at h3 h4; simp [c] at h1 h2; simp [matchB64, h1, h2, h3, h4]
      · simp at h4; simp [c] at h1 h2 h3; simp [matchB64, h1, h2, h3, h4]
      · rfl
    · obtain ⟨a, b, c', d, rfl, h1, h2, h3, h4⟩ := matches_four.mp hx
      have := ih y.length (by simp at hn; omega) y hy rfl
      simp [c] at h1 h2 h3 h4
      simp [matchB64, h1, h2, h3, h4, this]

open Spec in
theorem star_chr {p : UInt8 → Bool} {x : Bytes} : Re.Matches (.star (.chr p)) x ↔ ∀ b ∈ x, p b = true := by
  induction x with
  | nil => simp; exact .starNil
  | cons a x ih =>
    constructor
    · intro h
      rcases star_cons_inv h with h0 | ⟨u, v, huv, hu, hv⟩
      · simp at h0
      · obtain ⟨c, rfl, hc⟩ := matches_chr.mp hu
        simp at huv
        obtain ⟨rfl, rfl⟩ := huv
        have := ih.mp hv
        simpa using ⟨hc, this⟩
    · intro h
      exact .starCons (x := [a]) (.chr (h a (by simp))) (ih.mpr (fun b hb => h b (by simp [hb])))

open Spec in
theorem section_matches {x : Bytes} :
    sectionRe.Matches x ↔ ∃ m, x = 91 :: (m ++ [93]) ∧ ∀ b ∈ m, b ≠ 10 ∧ b ≠ 13 := by
  unfold sectionRe lit
  simp only [matches_seq, matches_chr, star_chr]
  constructor
  · rintro ⟨_, _, rfl, ⟨c, rfl, hc⟩, m, _, rfl, hm, d, rfl, hd⟩
    simp at hc hd; subst hc hd
    exact ⟨m, by simp, by simpa using hm⟩
  · rintro ⟨m, rfl, hm⟩
    exact ⟨[91], m ++ [93], by simp, ⟨91, rfl, by simp⟩, m, [93], rfl, by simpa using hm, 93, rfl, by simp⟩

theorem mem_takeWhile_iff {α : Type} [DecidableEq α] (p : α → Bool) (y : α) (l : List α) (hy : p y = true) :
    y ∈ l.takeWhile p ↔ ∃ m r, l = m ++ y :: r ∧ ∀ b ∈ m, p b = true := by
  induction l with
  | nil => simp
  | cons a l ih =>
    simp only [List.takeWhile_cons]
    by_cases ha : p a = true
    · rw [if_pos ha, List.mem_cons, ih]
      constructor
      · rintro (rfl | ⟨m, r, rfl, hm⟩)
        · exact ⟨[], l, rfl, by simp⟩
        · exact ⟨a :: m, r, rfl, by simpa using ⟨ha, hm⟩⟩
      · rintro ⟨m, r, h, hm⟩
        cases m with
        | nil => simp at h; exact .inl h.1.symm
        | cons b m => simp at h; exact .inr ⟨m, r, h.2, fun b hb => hm b (by simp [hb])⟩
    · rw [if_neg ha]
      simp only [List.not_mem_nil, false_iff]
      rintro ⟨m, r, h, hm⟩
      cases m with
      | nil => simp at h; rw [h.1] at ha; exact ha hy
      | cons b m => simp at h; rw [h.1] at ha; exact ha (hm b (by simp))

open Spec in
theorem searchIniSection_iff (s : Bytes) : searchIniSection s = true ↔ sectionRe.Found s := by
  unfold Re.Found
  simp only [section_matches]
  induction s with
  | nil => simp [searchIniSection]
  | cons b rest ih =>
    simp only [searchIniSection, Bool.or_eq_true, ih, Bool.and_eq_true, beq_iff_eq, List.contains_iff_mem]
    rw [mem_takeWhile_iff _ _ _ (by decide)]
    constructor
    · rintro (⟨rfl, m, r, rfl, hm⟩ | ⟨pre, _, post, rfl, m, rfl, hm⟩)
      · exact ⟨[], _, r, by simp, m, rfl, by simpa using hm⟩
      · exact ⟨b :: pre, _, post, by simp, m, rfl, hm⟩
    · rintro ⟨pre, _, post, h, m, rfl, hm⟩
      cases pre with
      | nil => simp at h; left; exact ⟨h.1, m, post, by simpa using h.2, by simpa using hm⟩
      | cons p pre => simp at h; right; exact ⟨pre, _, post, by simpa using h.2, m, rfl, hm⟩

/-- **C42**: `identify_format` is the standard meaning of the two regular expressions. -/
theorem C42_identify_format (s : Bytes) :
    (identifyFormat s = .base64 ↔ Spec.base64Re.Matches s)
    ∧ (identifyFormat s = .ini ↔ ¬ Spec.base64Re.Matches s ∧ Spec.sectionRe.Found s)
    ∧ (identifyFormat s = .unknown ↔ ¬ Spec.base64Re.Matches s ∧ ¬ Spec.sectionRe.Found s) := by
  have h1 : matchB64 s = true ↔ Spec.base64Re.Matches s := ⟨matchB64_sound s, matchB64_complete s⟩
  have h2 := searchIniSection_iff s
  rw [← h1, ← h2]
  unfold identifyFormat
  by_cases a : matchB64 s = true <;> by_cases b : searchIniSection s = true <;> simp [a, b]

example : identifyFormat b!"[PRODUCT]" = .ini ∧ identifyFormat b!"QUJD" = .base64 ∧ identifyFormat b!"hello" = .unknown
    ∧ identifyFormat [] = .base64 ∧ identifyFormat b!"[a\n]" = .unknown := by decide

/-! ## C33 dates -/


theorem digit_props (n : Fin 10) : isDigit (Spec.digit n) = true ∧ isSpace (Spec.digit n) = false
    ∧ (Spec.digit n).toNat - 48 = n.val ∧ (Spec.digit n == 45) = false ∧ (Spec.digit n == 43) = false
    ∧ Spec.digit n ≠ 0 ∧ (Spec.digit n == 47) = false := by
  revert n; decide

open Spec in
theorem scanInt_digits4 (a b c d : Fin 10) (rest : Bytes) :
    scanInt 4 (digit a :: digit b :: digit c :: digit d :: rest)
      = some ((1000 * a.val + 100 * b.val + 10 * c.val + d.val : Int), rest) := by
  obtain ⟨a1, a2, a3, a4, a5, _⟩ := digit_props a
  obtain ⟨b1, b2, b3, b4, b5, _⟩ := digit_props b
  obtain ⟨c1, c2, c3, c4, c5, _⟩ := digit_props c
  obtain ⟨d1, d2, d3, d4, d5, _⟩ := digit_props d
  simp [scanInt, a2, a4, a5, scanDigits, a1, b1, c1, d1, a3, b3, c3, d3]
  omega

open Spec in
theorem scanInt_digits2 (a b : Fin 10) (rest : Bytes) :
    scanInt 2 (digit a :: digit b :: rest) = some ((10 * a.val + b.val : Int), rest) := by
  obtain ⟨a1, a2, a3, a4, a5, _⟩ := digit_props a
  obtain ⟨b1, b2, b3, b4, b5, _⟩ := digit_props b
  simp [scanInt, a2, a4, a5, scanDigits, a1, b1, a3, b3]
  omega

/-- **C33**: the three documented notations denote the same day. -/
theorem C33_date_notations (mktime : Int → Int → Int → Int) (d : Spec.DateDigits) :
    secondsFromEpoch mktime d.compact = .ok (mktime d.year d.month d.day)
    ∧ secondsFromEpoch mktime (d.separated 45) = .ok (mktime d.year d.month d.day)
    ∧ secondsFromEpoch mktime (d.separated 47) = .ok (mktime d.year d.month d.day) := by
  have nz : ∀ n, Spec.digit n ≠ 0 := fun n => (digit_props n).2.2.2.2.2.1
  refine ⟨?_, ?_, ?_⟩
  · simp [secondsFromEpoch, parseDate, Spec.DateDigits.compact, scanCompact, nz, scanInt_digits4, scanInt_digits2,
      Spec.DateDigits.year, Spec.DateDigits.month, Spec.DateDigits.day]
  · simp [secondsFromEpoch, parseDate, Spec.DateDigits.separated, scanSeparated, nz, scanInt_digits4, scanInt_digits2,
      Spec.DateDigits.year, Spec.DateDigits.month, Spec.DateDigits.day, scanLit]
  · simp [secondsFromEpoch, parseDate, Spec.DateDigits.separated, scanSeparated, nz, scanInt_digits4, scanInt_digits2,
      Spec.DateDigits.year, Spec.DateDigits.month, Spec.DateDigits.day, scanLit]

example : (Spec.DateDigits.compact ⟨2, 0, 5, 0, 1, 2, 3, 1⟩) = b!"20501231" := by decide

/-- **C33**: strings of any other length are rejected, with `std::invalid_argument`. -/
theorem C33_date_wrong_length (mktime : Int → Int → Int → Int) (s : Bytes) (h8 : s.length ≠ 8) (h10 : s.length ≠ 10) :
    secondsFromEpoch mktime s = .throw .invalidArgument := by
  simp [secondsFromEpoch, parseDate, h8, h10]

example : (b!"2020-1-15").length ≠ 8 ∧ (b!"2020-1-15").length ≠ 10 := by decide

/-- **C33** (negation of "everything else is rejected"): hyphenated single digits of total length 8 are read as
    negative month and day. -/
theorem C33_malformed_date_accepted (mktime : Int → Int → Int → Int) :
    secondsFromEpoch mktime b!"2020-1-1" = .ok (mktime 2020 (-1) (-1)) := by
  have : parseDate b!"2020-1-1" = .ok (2020, -1, -1) := by decide
  simp [secondsFromEpoch, this]

/-- **C33** (negation): month 99 and day 99 are accepted, as is trailing garbage. -/
theorem C33_malformed_date_accepted' :
    parseDate b!"20209999" = .ok (2020, 99, 99) ∧ parseDate b!"2020-1-1xx" = .ok (2020, 1, 1)
    ∧ parseDate b!"2020 1 1" = .ok (2020, 1, 1) := by decide

theorem secondsFromEpoch_no_ub (mktime : Int → Int → Int → Int) (s : Bytes) : secondsFromEpoch mktime s ≠ .ub := by
  unfold secondsFromEpoch parseDate
  repeat' split
  all_goals simp_all
  all_goals (repeat' split at *) <;> simp_all

end Licensecc
