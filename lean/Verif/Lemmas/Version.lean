import Verif.Model.Ini
import Verif.Spec.Version
import Verif.Lemmas.Base64
/-!
# The version test of the reader: exactly the ways to write 200
-/
namespace Licensecc
open Spec

namespace Ini

theorem blank_space (c : UInt8) : isSpace c = true ↔ c ∈ ([32, 9, 10, 11, 12, 13] : Bytes) := by
  revert c; exact forall_uint8 (by decide +kernel)

theorem dropBlank (sp t : Bytes) (h : blank sp) (ht : ∀ c, t.head? = some c → isSpace c = false) :
    (sp ++ t).dropWhile isSpace = t := by
  induction sp with
  | nil => cases t with
    | nil => rfl
    | cons c t => simp [List.dropWhile_cons, ht c rfl]
  | cons a sp ih =>
    rw [List.cons_append, List.dropWhile_cons, (blank_space a).mpr (h a (by simp))]
    exact ih (fun c hc => h c (by simp [hc]))

theorem digits_ge (base : Nat) (hb : 1 ≤ base) (s : Bytes) : ∀ v, v ≤ digits base s v := by
  induction s with
  | nil => intro v; exact Nat.le_refl v
  | cons c s ih =>
    intro v
    simp only [digits]
    split
    · rename_i n _
      exact Nat.le_trans (Nat.le_trans (Nat.le_mul_of_pos_right v hb) (Nat.le_add_right _ n)) (ih _)
    · exact Nat.le_refl v

theorem digits_zeros (base : Nat) (hb : base = 10 ∨ base = 16) (k : Nat) (s : Bytes) :
    digits base (List.replicate k 48 ++ s) 0 = digits base s 0 := by
  induction k with
  | zero => simp
  | succ k ih =>
    rw [List.replicate_succ, List.cons_append, digits]
    rcases hb with rfl | rfl <;> simpa [digit] using ih

/-- Leading zeros split off. -/
theorem zeros_split (w : Bytes) : ∃ k t, w = List.replicate k 48 ++ t ∧ ∀ c, t.head? = some c → c ≠ 48 := by
  induction w with
  | nil => exact ⟨0, [], rfl, by simp⟩
  | cons c w ih =>
    by_cases h : c = 48
    · obtain ⟨k, t, rfl, ht⟩ := ih
      exact ⟨k + 1, t, by simp [List.replicate_succ, h], ht⟩
    · exact ⟨0, c :: w, rfl, by simpa using h⟩

theorem digit10 (c : UInt8) : ((digit 10 c).isSome = true → ∃ n, digit 10 c = some n ∧ n ≤ 9 ∧ (c ≠ 48 → 1 ≤ n)
    ∧ (n = 2 → c = 50) ∧ (n = 0 → c = 48)) := by
  revert c
  have : ∀ c : UInt8, ((digit 10 c).isSome = true → (digit 10 c).getD 0 ≤ 9 ∧ (c ≠ 48 → 1 ≤ (digit 10 c).getD 0)
      ∧ ((digit 10 c).getD 0 = 2 → c = 50) ∧ ((digit 10 c).getD 0 = 0 → c = 48)) := forall_uint8 (by decide +kernel)
  intro c h
  have h2 := this c h
  cases hd : digit 10 c with
  | none => rw [hd] at h; simp at h
  | some n => rw [hd] at h2; exact ⟨n, rfl, h2⟩

theorem digit16 (c : UInt8) : ((digit 16 c).isSome = true → ∃ n, digit 16 c = some n ∧ n ≤ 15 ∧ (c ≠ 48 → 1 ≤ n)
    ∧ (n = 12 → c = 99 ∨ c = 67) ∧ (n = 8 → c = 56)) := by
  revert c
  have : ∀ c : UInt8, ((digit 16 c).isSome = true → (digit 16 c).getD 0 ≤ 15 ∧ (c ≠ 48 → 1 ≤ (digit 16 c).getD 0)
      ∧ ((digit 16 c).getD 0 = 12 → c = 99 ∨ c = 67) ∧ ((digit 16 c).getD 0 = 8 → c = 56)) := forall_uint8 (by decide +kernel)
  intro c h
  have h2 := this c h
  cases hd : digit 16 c with
  | none => rw [hd] at h; simp at h
  | some n => rw [hd] at h2; exact ⟨n, rfl, h2⟩

/-- Decimal digit strings worth 200. -/
theorem decimal_200 (w : Bytes) (hw : ∀ c ∈ w, (digit 10 c).isSome = true) :
    digits 10 w 0 = 200 ↔ ∃ k, w = List.replicate k 48 ++ b!"200" := by
  constructor
  · intro h
    obtain ⟨k, t, rfl, ht⟩ := zeros_split w
    rw [digits_zeros 10 (.inl rfl)] at h
    refine ⟨k, ?_⟩
    congr 1
    have ht2 : ∀ c ∈ t, (digit 10 c).isSome = true := fun c hc => hw c (by simp [hc])
    rcases t with _ | ⟨a, _ | ⟨b, _ | ⟨c, _ | ⟨d, t⟩⟩⟩⟩
    · simp [digits] at h
    · obtain ⟨n, h1, h2, _⟩ := digit10 a (ht2 a (by simp))
      simp [digits, h1] at h; omega
    · obtain ⟨n, h1, h2, _⟩ := digit10 a (ht2 a (by simp))
      obtain ⟨n', h1', h2', _⟩ := digit10 b (ht2 b (by simp))
      simp [digits, h1, h1'] at h; omega
    · obtain ⟨n, h1, h2, _, h3, h4⟩ := digit10 a (ht2 a (by simp))
      obtain ⟨n', h1', h2', _, h3', h4'⟩ := digit10 b (ht2 b (by simp))
      obtain ⟨n2, h12, h22, _, h32, h42⟩ := digit10 c (ht2 c (by simp))
      simp [digits, h1, h1', h12] at h
      rw [h3 (by omega), h4' (by omega), h42 (by omega)]
    · obtain ⟨n, h1, h2, h5, h3, h4⟩ := digit10 a (ht2 a (by simp))
      obtain ⟨n', h1', h2', _, h3', h4'⟩ := digit10 b (ht2 b (by simp))
      obtain ⟨n2, h12, h22, _, h32, h42⟩ := digit10 c (ht2 c (by simp))
      obtain ⟨n3, h13, h23, _, h33, h43⟩ := digit10 d (ht2 d (by simp))
      simp only [digits, h1, h1', h12, h13] at h
      have := h5 (ht a rfl)
      have hge := digits_ge 10 (by omega) t ((((0 * 10 + n) * 10 + n') * 10 + n2) * 10 + n3)
      omega
  · rintro ⟨k, rfl⟩
    rw [digits_zeros 10 (.inl rfl)]; decide

/-- Hexadecimal digit strings worth 200. -/
theorem hex_200 (w : Bytes) (hw : ∀ c ∈ w, (digit 16 c).isSome = true) :
    digits 16 w 0 = 200 ↔ ∃ k c, w = List.replicate k 48 ++ [c, 56] ∧ (c = 99 ∨ c = 67) := by
  constructor
  · intro h
    obtain ⟨k, t, rfl, ht⟩ := zeros_split w
    rw [digits_zeros 16 (.inr rfl)] at h
    have ht2 : ∀ c ∈ t, (digit 16 c).isSome = true := fun c hc => hw c (by simp [hc])
    rcases t with _ | ⟨a, _ | ⟨b, _ | ⟨c, t⟩⟩⟩
    · simp [digits] at h
    · obtain ⟨n, h1, h2, _⟩ := digit16 a (ht2 a (by simp))
      simp [digits, h1] at h; omega
    · obtain ⟨n, h1, h2, _, h3, h4⟩ := digit16 a (ht2 a (by simp))
      obtain ⟨n', h1', h2', _, h3', h4'⟩ := digit16 b (ht2 b (by simp))
      simp [digits, h1, h1'] at h
      refine ⟨k, a, ?_, h3 (by omega)⟩
      rw [h4' (by omega)]
    · obtain ⟨n, h1, h2, h5, h3, h4⟩ := digit16 a (ht2 a (by simp))
      obtain ⟨n', h1', h2', _, h3', h4'⟩ := digit16 b (ht2 b (by simp))
      obtain ⟨n2, h12, h22, _, h32, h42⟩ := digit16 c (ht2 c (by simp))
      simp only [digits, h1, h1', h12] at h
      have := h5 (ht a rfl)
      have hge := digits_ge 16 (by omega) t (((0 * 16 + n) * 16 + n') * 16 + n2)
      omega
  · rintro ⟨k, c, rfl, rfl | rfl⟩
    · rw [digits_zeros 16 (.inr rfl)]; decide
    · rw [digits_zeros 16 (.inr rfl)]; decide

theorem dropWhile_nil {p : UInt8 → Bool} (l : Bytes) : l.dropWhile p = [] ↔ ∀ c ∈ l, p c = true := by
  induction l with
  | nil => simp
  | cons a l ih =>
    rw [List.dropWhile_cons]
    by_cases h : p a = true
    · simp [h, ih]
    · simp [h]

/-- The optional `0x` that strtol skips in base 16. -/
def stripHex (base : Nat) (u : Bytes) : Bytes :=
  match u with
  | 48 :: x :: h :: r => if base = 16 && (x == 120 || x == 88) && (digit 16 h).isSome then h :: r else u
  | _ => u

/-- strtol after blanks and sign. -/
def strtolTail (base : Nat) (neg : Bool) (u s0 : Bytes) : Int × Bytes :=
  if ((stripHex base u).takeWhile fun c => (digit base c).isSome) = [] then (0, s0)
  else (max (-(2 : Int) ^ 63) (min ((2 : Int) ^ 63 - 1) (if neg then -((digits base (stripHex base u) 0 : Nat) : Int)
      else ((digits base (stripHex base u) 0 : Nat) : Int))), (stripHex base u).dropWhile fun c => (digit base c).isSome)

theorem strtol_minus (base : Nat) (s r : Bytes) (h : s.dropWhile isSpace = 45 :: r) : strtol base s = strtolTail base true r s := by
  unfold strtol; rw [h]; rfl

theorem strtol_plus (base : Nat) (s r : Bytes) (h : s.dropWhile isSpace = 43 :: r) : strtol base s = strtolTail base false r s := by
  unfold strtol; rw [h]; rfl

theorem strtol_nil (base : Nat) (s : Bytes) (h : s.dropWhile isSpace = []) : strtol base s = strtolTail base false [] s := by
  unfold strtol; rw [h]; rfl

theorem strtol_other (base : Nat) (s t : Bytes) (c : UInt8) (h : s.dropWhile isSpace = c :: t) (h1 : c ≠ 45) (h2 : c ≠ 43) :
    strtol base s = strtolTail base false (c :: t) s := by
  have key : (match c :: t with
      | 45 :: r => (true, r)
      | 43 :: r => (false, r)
      | r => (false, r) : Bool × Bytes) = (false, c :: t) := by
    split
    · rename_i hh; simp only [List.cons.injEq] at hh; exact absurd hh.1 h1
    · rename_i hh; simp only [List.cons.injEq] at hh; exact absurd hh.1 h2
    · rfl
  unfold strtol
  rw [h]
  exact congrArg (fun p : Bool × Bytes => strtolTail base p.1 p.2 s) key

/-- strtol consumes the whole text and returns 200. -/
theorem strtol_200 (base : Nat) (s : Bytes) : strtol base s = (200, []) ↔
    ∃ sp sign u, s = sp ++ sign ++ u ∧ blank sp ∧ (sign = [] ∨ sign = b!"+") ∧ (∀ c, (sign ++ u).head? = some c → isSpace c = false)
      ∧ (sign = [] → ∀ c, u.head? = some c → c ≠ 45 ∧ c ≠ 43)
      ∧ stripHex base u ≠ [] ∧ (∀ c ∈ stripHex base u, (digit base c).isSome = true) ∧ digits base (stripHex base u) 0 = 200 := by
  have core : ∀ (neg : Bool) (u : Bytes) (s0 : Bytes),
      strtolTail base neg u s0 = (200, []) ↔ neg = false ∧ stripHex base u ≠ [] ∧ (∀ c ∈ stripHex base u, (digit base c).isSome = true)
            ∧ digits base (stripHex base u) 0 = 200 := by
    intro neg u s0
    unfold strtolTail
    generalize stripHex base u = w
    constructor
    · intro h
      split at h
      · simp at h
      · rename_i hne
        simp only [Prod.mk.injEq] at h
        have hall := (dropWhile_nil w).mp h.2
        cases neg with
        | true =>
          exfalso
          have := h.1; simp only [if_true] at this; omega
        | false =>
          refine ⟨rfl, ?_, hall, ?_⟩
          · rintro rfl; simp at hne
          · have := h.1; simp only [Bool.false_eq_true, if_false] at this; omega
    · rintro ⟨rfl, h1, h2, h3⟩
      rw [if_neg, h3, (dropWhile_nil w).mpr h2]
      · decide
      · cases w with
        | nil => exact absurd rfl h1
        | cons c w => rw [List.takeWhile_cons, h2 c (by simp)]; simp
  constructor
  · intro h
    have hsp : blank (s.takeWhile isSpace) := by
      intro c hc
      exact (blank_space c).mp (by
        have := List.all_takeWhile (p := isSpace) (l := s)
        exact List.all_eq_true.mp this c hc)
    have hcat := List.takeWhile_append_dropWhile (p := isSpace) (l := s)
    have hhd : ∀ c, (s.dropWhile isSpace).head? = some c → isSpace c = false := by
      intro c hc
      have := List.head?_dropWhile_not isSpace s
      rw [hc] at this; simpa using this
    cases ht : s.dropWhile isSpace with
    | nil =>
      exfalso
      rw [strtol_nil base s ht, core] at h
      exact h.2.1 rfl
    | cons c t =>
      rw [ht] at hcat hhd
      by_cases h1 : c = 45
      · subst h1
        rw [strtol_minus base s t ht, core] at h
        simp at h
      · by_cases h2 : c = 43
        · subst h2
          rw [strtol_plus base s t ht, core] at h
          exact ⟨_, b!"+", t, by simpa using hcat.symm, hsp, .inr rfl, by simpa using hhd, by simp, h.2⟩
        · rw [strtol_other base s t c ht h1 h2, core] at h
          exact ⟨_, [], c :: t, by simpa using hcat.symm, hsp, .inl rfl, by simpa using hhd,
            fun _ x hx => by simp at hx; subst hx; exact ⟨h1, h2⟩, h.2⟩
  · rintro ⟨sp, sign, u, rfl, hsp, hsign, hhd, hns, h1, h2, h3⟩
    have hd : (sp ++ sign ++ u).dropWhile isSpace = sign ++ u := by
      rw [List.append_assoc]; exact dropBlank sp _ hsp hhd
    rw [← (core false u (sp ++ sign ++ u)).mpr ⟨rfl, h1, h2, h3⟩]
    rcases hsign with rfl | rfl
    · cases u with
      | nil => exact absurd rfl h1
      | cons c t =>
        have hc := hns rfl c rfl
        exact strtol_other _ _ _ _ hd hc.1 hc.2
    · exact strtol_plus _ _ _ hd

theorem digit_plain (c : UInt8) : ((digit 10 c).isSome = true ∨ (digit 16 c).isSome = true) →
    isSpace c = false ∧ c ≠ 45 ∧ c ≠ 43 ∧ c ≠ 120 ∧ c ≠ 88 := by
  revert c; exact forall_uint8 (by decide +kernel)

theorem strip10 (u : Bytes) : stripHex 10 u = u := by
  unfold stripHex; split
  · simp
  · rfl

theorem strtol10_200 (s : Bytes) : strtol 10 s = (200, []) ↔
    ∃ sp sign k, s = sp ++ sign ++ List.replicate k 48 ++ b!"200" ∧ blank sp ∧ (sign = [] ∨ sign = b!"+") := by
  rw [strtol_200]
  simp only [strip10]
  constructor
  · rintro ⟨sp, sign, u, rfl, h1, h2, _, _, _, h5, h6⟩
    obtain ⟨k, rfl⟩ := (decimal_200 u h5).mp h6
    exact ⟨sp, sign, k, by simp, h1, h2⟩
  · rintro ⟨sp, sign, k, rfl, h1, h2⟩
    have hall : ∀ c ∈ List.replicate k (48 : UInt8) ++ b!"200", (digit 10 c).isSome = true := by
      intro c hc
      simp only [List.mem_append, List.mem_replicate, List.mem_cons, List.not_mem_nil, or_false] at hc
      rcases hc with ⟨_, rfl⟩ | rfl | rfl | rfl <;> decide
    have hhead : ∀ c, (List.replicate k (48 : UInt8) ++ b!"200").head? = some c → isSpace c = false ∧ c ≠ 45 ∧ c ≠ 43 ∧ c ≠ 120 ∧ c ≠ 88 :=
      fun c hc => digit_plain c (.inl (hall c (List.mem_of_head? hc)))
    refine ⟨sp, sign, List.replicate k 48 ++ b!"200", by simp, h1, h2, ?_, ?_, by simp, hall, (decimal_200 _ hall).mpr ⟨k, rfl⟩⟩
    · rcases h2 with rfl | rfl
      · intro c hc; exact (hhead c hc).1
      · intro c hc; simp at hc; subst hc; decide
    · intro _ c hc; exact ⟨(hhead c hc).2.1, (hhead c hc).2.2.1⟩

theorem strtol16_200 (s : Bytes) : strtol 16 s = (200, []) ↔
    ∃ sp sign pre k c, s = sp ++ sign ++ pre ++ List.replicate k 48 ++ [c, 56] ∧ blank sp ∧ (sign = [] ∨ sign = b!"+")
      ∧ (pre = [] ∨ pre = b!"0x" ∨ pre = b!"0X") ∧ (c = 99 ∨ c = 67) := by
  rw [strtol_200]
  constructor
  · rintro ⟨sp, sign, u, rfl, h1, h2, _, _, _, h5, h6⟩
    obtain ⟨k, c, hk, hc⟩ := (hex_200 _ h5).mp h6
    have hpre : ∃ pre, (pre = [] ∨ pre = b!"0x" ∨ pre = b!"0X") ∧ u = pre ++ stripHex 16 u := by
      unfold stripHex
      split
      · rename_i x h r
        split
        · rename_i hx
          simp only [decide_true, Bool.true_and, Bool.and_eq_true, Bool.or_eq_true, beq_iff_eq] at hx
          rcases hx.1 with rfl | rfl
          · exact ⟨b!"0x", .inr (.inl rfl), rfl⟩
          · exact ⟨b!"0X", .inr (.inr rfl), rfl⟩
        · exact ⟨[], .inl rfl, rfl⟩
      · exact ⟨[], .inl rfl, rfl⟩
    obtain ⟨pre, hp, hu⟩ := hpre
    rw [hk] at hu
    exact ⟨sp, sign, pre, k, c, by rw [hu]; simp, h1, h2, hp, hc⟩
  · rintro ⟨sp, sign, pre, k, c, rfl, h1, h2, hp, hc⟩
    have hall : ∀ d ∈ List.replicate k (48 : UInt8) ++ [c, 56], (digit 16 d).isSome = true := by
      intro d hd
      simp only [List.mem_append, List.mem_replicate, List.mem_cons, List.not_mem_nil, or_false] at hd
      rcases hd with ⟨_, rfl⟩ | rfl | rfl
      · decide
      · rcases hc with rfl | rfl <;> decide
      · decide
    have hstrip : stripHex 16 (pre ++ (List.replicate k 48 ++ [c, 56])) = List.replicate k 48 ++ [c, 56] := by
      generalize hw : List.replicate k (48 : UInt8) ++ [c, 56] = w at hall
      cases w with
      | nil => simp at hw
      | cons a w =>
        have ha := hall a (by simp)
        rcases hp with rfl | rfl | rfl
        · rw [List.nil_append]
          unfold stripHex
          split
          · rename_i x h r hh
            rw [if_neg]
            have hx : x ∈ a :: w := by rw [hh]; simp
            have := (digit_plain x (.inr (hall x hx))).2.2.2
            simp [this.1, this.2]
          · rfl
        · simp [stripHex, ha]
        · simp [stripHex, ha]
    have hhead : ∀ d, (pre ++ (List.replicate k (48 : UInt8) ++ [c, 56])).head? = some d → isSpace d = false ∧ d ≠ 45 ∧ d ≠ 43 := by
      intro d hd
      rcases hp with rfl | rfl | rfl
      · rw [List.nil_append] at hd
        have := digit_plain d (.inr (hall d (List.mem_of_head? hd)))
        exact ⟨this.1, this.2.1, this.2.2.1⟩
      · simp at hd; subst hd; decide
      · simp at hd; subst hd; decide
    refine ⟨sp, sign, pre ++ (List.replicate k 48 ++ [c, 56]), by simp, h1, h2, ?_, ?_, by rw [hstrip]; simp, by rw [hstrip]; exact hall,
      by rw [hstrip]; exact (hex_200 _ hall).mpr ⟨k, c, rfl, hc⟩⟩
    · rcases h2 with rfl | rfl
      · intro d hd; exact (hhead d hd).1
      · intro d hd; simp at hd; subst hd; decide
    · intro _ d hd; exact (hhead d hd).2

theorem two_hundred_not_x (sp sign : Bytes) (k : Nat) (x : UInt8) (r : Bytes) (hsp : blank sp) (hs : sign = [] ∨ sign = b!"+")
    (h : sp ++ sign ++ List.replicate k 48 ++ b!"200" = 48 :: x :: r) : x ≠ 120 ∧ x ≠ 88 := by
  have hx : x ∈ sp ++ sign ++ List.replicate k 48 ++ b!"200" := by rw [h]; simp
  simp only [List.mem_append, List.mem_replicate, List.mem_cons, List.not_mem_nil, or_false] at hx
  rcases hx with ((hx | hx) | ⟨_, rfl⟩) | rfl | rfl | rfl
  · exact forall_uint8 (P := fun x => x ∈ ([32, 9, 10, 11, 12, 13] : Bytes) → x ≠ 120 ∧ x ≠ 88) (by decide +kernel) x (hsp x hx)
  · rcases hs with rfl | rfl
    · simp at hx
    · simp at hx; subst hx; decide
  all_goals decide

/-- The version test of the reader. -/
theorem toLong_200 (v : Option Bytes) : toLong v (-1) = 200 ↔ ∃ s, v = some s ∧ Means200 s := by
  cases v with
  | none => simp [toLong]
  | some s =>
    simp only [Option.some.injEq, exists_eq_left']
    have fin : ∀ p : Int × Bytes, (if p.2 = [] then p.1 else -1) = 200 ↔ p = (200, []) := by
      rintro ⟨n, t⟩; dsimp only; split <;> simp_all
    by_cases hl : s.length + 1 > 64
    · have h1 : toLong (some s) (-1) = -1 := by
        cases s with
        | nil => rfl
        | cons c s => simp only [toLong]; rw [if_pos hl]
      rw [h1]
      simp only [Means200]
      constructor
      · intro h; simp at h
      · rintro ⟨h, _⟩; omega
    · cases s with
      | nil =>
        simp only [toLong, Means200]
        constructor
        · intro h; simp at h
        · rintro ⟨_, ⟨_, _, _, h, _⟩ | ⟨_, _, _, _, _, _, h, _⟩⟩ <;> simp at h
      | cons c s =>
        have hlen : (c :: s).length ≤ 63 := by omega
        by_cases hx : ∃ x r, c = 48 ∧ s = x :: r ∧ (x = 120 ∨ x = 88)
        · obtain ⟨x, r, rfl, rfl, hx⟩ := hx
          have hxb : (x == 120 || x == 88) = true := by rcases hx with rfl | rfl <;> rfl
          have htl : toLong (some (48 :: x :: r)) (-1) = if r = [] then -1 else (if (strtol 16 r).2 = [] then (strtol 16 r).1 else -1) := by
            simp only [toLong]
            rw [if_neg hl, if_pos hxb]
            split
            · rename_i h; split at h
              · rename_i hr; rw [if_pos hr]
              · simp at h
            · rename_i n t h; split at h
              · simp at h
              · rename_i hr
                simp only [Option.some.injEq] at h
                rw [if_neg hr, h]
          rw [htl]
          constructor
          · intro h
            split at h
            · simp at h
            · obtain ⟨sp, sign, pre, k, c, rfl, h1, h2, h3, h4⟩ := (strtol16_200 r).mp ((fin _).mp h)
              exact ⟨hlen, .inr ⟨x, sp, sign, pre, k, c, rfl, hx, h1, h2, h3, h4⟩⟩
          · rintro ⟨_, ⟨sp, sign, k, h, h1, h2⟩ | ⟨x', sp, sign, pre, k, c, h, h1, h2, h3, h4, h5⟩⟩
            · have := two_hundred_not_x sp sign k x r h1 h2 h.symm
              rcases hx with h | h
              · exact absurd h this.1
              · exact absurd h this.2
            · simp only [List.cons.injEq, true_and] at h
              obtain ⟨_, rfl⟩ := h
              rw [if_neg (by simp)]
              exact (fin _).mpr ((strtol16_200 _).mpr ⟨sp, sign, pre, k, c, rfl, h2, h3, h4, h5⟩)
        · have htl : toLong (some (c :: s)) (-1) = (if (strtol 10 (c :: s)).2 = [] then (strtol 10 (c :: s)).1 else -1) := by
            simp only [toLong]
            rw [if_neg hl]
            split
            · rename_i h; split at h
              · rename_i x r hh
                simp only [List.cons.injEq] at hh
                rw [if_neg] at h
                · simp at h
                · intro hxx; exact hx ⟨x, r, hh.1, hh.2, by simpa using hxx⟩
              · simp at h
            · rename_i n t h; split at h
              · rename_i x r hh
                simp only [List.cons.injEq] at hh
                rw [if_neg] at h
                · simp only [Option.some.injEq] at h; rw [h]
                · intro hxx; exact hx ⟨x, r, hh.1, hh.2, by simpa using hxx⟩
              · simp only [Option.some.injEq] at h; rw [h]
          rw [htl, fin, strtol10_200]
          constructor
          · rintro ⟨sp, sign, k, h, h1, h2⟩
            exact ⟨hlen, .inl ⟨sp, sign, k, h, h1, h2⟩⟩
          · rintro ⟨_, h | ⟨x', sp, sign, pre, k, c', h, h1, _⟩⟩
            · exact h
            · simp only [List.cons.injEq] at h
              exact absurd ⟨x', _, h.1, h.2, h1⟩ hx

end Ini

example : Means200 b!"200" := ⟨by decide, .inl ⟨[], [], 0, rfl, by simp [blank], .inl rfl⟩⟩
example : Means200 b!"0x 0xC8" := ⟨by decide, .inr ⟨_, b!" ", [], b!"0x", 0, _, rfl, .inl rfl, by simp [blank], .inl rfl, .inr (.inl rfl), .inr rfl⟩⟩
example : ¬ Means200 b!"200x" := by
  intro h
  have := (Ini.toLong_200 (some b!"200x")).mpr ⟨_, rfl, h⟩
  revert this; decide +kernel

end Licensecc
