import Verif.Props.IniStore
import Verif.Spec.IniNumber
import Verif.Model.IniNumber
/-!
# C76: numbers and truth values read from INI objects

`GetLongValue` and `GetBoolValue` on every text; the library reads the version of a license with the first.
-/
namespace Licensecc
open Ini hiding getValue getAllKeys getSectionSize setKey load
open IniStore Spec.IniStore Spec.IniNumber

namespace IniStore

theorem digit_of_isDigit {base d : Nat} {c : UInt8} (hb : base = 10 ∨ base = 16) : IsDigit base d c ↔ digit base c = some d := by
  have h10 : ∀ c : UInt8, ∀ d < 16, (IsDigit 10 d c ↔ digit 10 c = some d) := by
    intro c
    unfold IsDigit
    revert c
    exact forall_uint8 (by decide +kernel)
  have h16 : ∀ c : UInt8, ∀ d < 16, (IsDigit 16 d c ↔ digit 16 c = some d) := by
    intro c
    unfold IsDigit
    revert c
    exact forall_uint8 (by decide +kernel)
  by_cases hd : d < 16
  · rcases hb with rfl | rfl
    · exact h10 c d hd
    · exact h16 c d hd
  · have hn : ∀ b, (b = 10 ∨ b = 16) → digit b c ≠ some d := by
      intro b hb h
      unfold digit at h
      obtain ⟨n, _, h⟩ := Option.bind_eq_some_iff.mp h
      split at h
      · simp at h; omega
      · simp at h
    constructor
    · intro h; have := h.1; omega
    · intro h; exact absurd h (hn base hb)

theorem numeral_iff {base : Nat} (hb : base = 10 ∨ base = 16) (s : Bytes) (n : Nat) :
    Numeral base s n ↔ s ≠ [] ∧ (∀ c ∈ s, (digit base c).isSome = true) ∧ digits base s 0 = n := by
  constructor
  · intro h
    induction h with
    | one h =>
      have := (digit_of_isDigit hb).mp h
      simp [digits, this]
    | more h hd ih =>
      have := (digit_of_isDigit hb).mp hd
      obtain ⟨_, h2, h3⟩ := ih
      refine ⟨by simp, ?_, ?_⟩
      · intro c hc
        rcases List.mem_append.mp hc with hc | hc
        · exact h2 c hc
        · rw [List.mem_singleton.mp hc, this]; rfl
      · rw [digits_append base _ _ h2, h3]
        simp [digits, this, Nat.mul_comm]
  · rintro ⟨h1, h2, h3⟩
    have key : ∀ (k : Nat) (s : Bytes), s.length = k + 1 → (∀ c ∈ s, (digit base c).isSome = true) → Numeral base s (digits base s 0) := by
      intro k
      induction k with
      | zero =>
        intro s hl hs
        obtain ⟨c, rfl⟩ := List.length_eq_one_iff.mp hl
        obtain ⟨d, hd⟩ := Option.isSome_iff_exists.mp (hs c (by simp))
        have := Numeral.one ((digit_of_isDigit hb).mpr hd)
        simpa [digits, hd] using this
      | succ k ih =>
        intro s hl hs
        have hne : s ≠ [] := by rintro rfl; simp at hl
        obtain ⟨d, hd⟩ := Option.isSome_iff_exists.mp (hs _ (List.getLast_mem hne))
        have hi := ih s.dropLast (by rw [List.length_dropLast]; omega) (fun c hc => hs c (List.dropLast_subset s hc))
        have hm := Numeral.more hi ((digit_of_isDigit hb).mpr hd)
        rw [List.dropLast_concat_getLast hne] at hm
        have he : digits base s 0 = base * digits base s.dropLast 0 + d := by
          conv => lhs; rw [← List.dropLast_concat_getLast hne]
          rw [digits_append base _ _ (fun c hc => hs c (List.dropLast_subset s hc))]
          simp [digits, hd, Nat.mul_comm]
        rw [he]; exact hm
    rw [← h3]
    refine key (s.length - 1) s ?_ h2
    have := List.length_pos_iff.mpr h1
    omega

theorem nearest_eq (z : Int) : nearest z = max (-(2 : Int) ^ 63) (min ((2 : Int) ^ 63 - 1) z) := by
  unfold nearest
  split
  · omega
  · split <;> omega

/-- strtol behind blanks and sign takes everything. -/
theorem strtolTail_all (base : Nat) (neg : Bool) (u s0 : Bytes) (h0 : s0 ≠ []) (z : Int) :
    strtolTail base neg u s0 = (z, []) ↔ stripHex base u ≠ [] ∧ (∀ c ∈ stripHex base u, (digit base c).isSome = true)
      ∧ z = nearest (if neg then -(digits base (stripHex base u) 0 : Int) else digits base (stripHex base u) 0) := by
  unfold strtolTail
  rw [nearest_eq]
  generalize stripHex base u = w
  constructor
  · intro h
    split at h
    · simp only [Prod.mk.injEq] at h; exact absurd h.2 h0
    · rename_i hne
      simp only [Prod.mk.injEq] at h
      refine ⟨?_, (dropWhile_nil w).mp h.2, h.1.symm⟩
      rintro rfl; simp at hne
  · rintro ⟨h1, h2, h3⟩
    rw [if_neg, ← h3, (dropWhile_nil w).mpr h2]
    cases w with
    | nil => exact absurd rfl h1
    | cons c w => rw [List.takeWhile_cons, h2 c (by simp)]; simp

theorem digit_plain' {base : Nat} (hb : base = 10 ∨ base = 16) (c : UInt8) (h : (digit base c).isSome = true) :
    isSpace c = false ∧ c ≠ 45 ∧ c ≠ 43 ∧ c ≠ 120 ∧ c ≠ 88 := by
  rcases hb with rfl | rfl
  · exact digit_plain c (.inl h)
  · exact digit_plain c (.inr h)

theorem stripHex_mark {base : Nat} (hb : base = 10 ∨ base = 16) {mark body : Bytes} (hm : mark = [] ∨ base = 16 ∧ (mark = b!"0x" ∨ mark = b!"0X"))
    (h : ∀ c ∈ body, (digit base c).isSome = true) (hne : body ≠ []) : stripHex base (mark ++ body) = body := by
  cases body with
  | nil => exact absurd rfl hne
  | cons a w =>
    have ha := h a (by simp)
    rcases hm with rfl | ⟨rfl, rfl | rfl⟩
    · rw [List.nil_append]
      unfold stripHex
      split
      · rename_i x y r hh
        rw [if_neg]
        have hx : x ∈ a :: w := by rw [hh]; simp
        have := (digit_plain' hb x (h x hx)).2.2.2
        simp [this.1, this.2]
      · rfl
    · simp [stripHex, ha]
    · simp [stripHex, ha]

theorem stripHex_split (base : Nat) (u : Bytes) :
    ∃ mark, (mark = [] ∨ base = 16 ∧ (mark = b!"0x" ∨ mark = b!"0X")) ∧ u = mark ++ stripHex base u := by
  unfold stripHex
  split
  · rename_i x h r
    split
    · rename_i hx
      simp only [Bool.and_eq_true, Bool.or_eq_true, beq_iff_eq, decide_eq_true_eq] at hx
      rcases hx.1.2 with rfl | rfl
      · exact ⟨b!"0x", .inr ⟨hx.1.1, .inl rfl⟩, rfl⟩
      · exact ⟨b!"0X", .inr ⟨hx.1.1, .inr rfl⟩, rfl⟩
    · exact ⟨[], .inl rfl, rfl⟩
  · exact ⟨[], .inl rfl, rfl⟩

theorem space_iff (c : UInt8) : isSpace c = true ↔ c ∈ ([9, 10, 11, 12, 13, 32] : Bytes) := by
  revert c; exact forall_uint8 (by decide +kernel)

/-- strtol takes the whole text, and its value, for the texts of the specification and no others. -/
theorem strtol_iff {base : Nat} (hb : base = 10 ∨ base = 16) {s : Bytes} (h0 : s ≠ []) (z : Int) : strtol base s = (z, []) ↔ Signed base s z := by
  constructor
  · intro h
    have hsp : ∀ c ∈ s.takeWhile isSpace, c ∈ ([9, 10, 11, 12, 13, 32] : Bytes) := by
      intro c hc
      exact (space_iff c).mp (List.all_eq_true.mp (List.all_takeWhile (p := isSpace) (l := s)) c hc)
    have hcat := List.takeWhile_append_dropWhile (p := isSpace) (l := s)
    have fin : ∀ (sign u : Bytes) (neg : Bool), s.dropWhile isSpace = sign ++ u → strtolTail base neg u s = (z, []) →
        (neg = false ∧ (sign = [] ∨ sign = b!"+") ∨ neg = true ∧ sign = b!"-") → Signed base s z := by
      intro sign u neg hd ht hs
      obtain ⟨h1, h2, h3⟩ := (strtolTail_all base neg u s h0 z).mp ht
      obtain ⟨mark, hm, hu⟩ := stripHex_split base u
      refine ⟨_, sign, mark, stripHex base u, digits base (stripHex base u) 0, ?_, hsp, hm, (numeral_iff hb _ _).mpr ⟨h1, h2, rfl⟩, ?_⟩
      · rw [List.append_assoc, ← hu, List.append_assoc, ← hd, hcat]
      · rcases hs with ⟨rfl, hs⟩ | ⟨rfl, hs⟩
        · exact .inl ⟨hs, by simpa using h3⟩
        · exact .inr ⟨hs, by simpa using h3⟩
    cases ht : s.dropWhile isSpace with
    | nil =>
      rw [strtol_nil base s ht] at h
      exact fin [] [] false (by simpa using ht) h (.inl ⟨rfl, .inl rfl⟩)
    | cons c t =>
      by_cases h1 : c = 45
      · subst h1
        rw [strtol_minus base s t ht] at h
        exact fin b!"-" t true (by simpa using ht) h (.inr ⟨rfl, rfl⟩)
      · by_cases h2 : c = 43
        · subst h2
          rw [strtol_plus base s t ht] at h
          exact fin b!"+" t false (by simpa using ht) h (.inl ⟨rfl, .inr rfl⟩)
        · rw [strtol_other base s t c ht h1 h2] at h
          exact fin [] (c :: t) false (by simpa using ht) h (.inl ⟨rfl, .inl rfl⟩)
  · rintro ⟨sp, sign, mark, body, n, rfl, hsp, hm, hbody, hz⟩
    obtain ⟨h1, h2, h3⟩ := (numeral_iff hb _ _).mp hbody
    have hstrip := stripHex_mark hb hm h2 h1
    have hhead : ∀ c, (mark ++ body).head? = some c → isSpace c = false ∧ c ≠ 45 ∧ c ≠ 43 := by
      intro c hc
      rcases hm with rfl | ⟨_, rfl | rfl⟩
      · rw [List.nil_append] at hc
        have := digit_plain' hb c (h2 c (List.mem_of_head? hc))
        exact ⟨this.1, this.2.1, this.2.2.1⟩
      · simp at hc; subst hc; decide
      · simp at hc; subst hc; decide
    have hd : sign = [] ∨ sign = b!"+" ∨ sign = b!"-" → (sp ++ sign ++ mark ++ body).dropWhile isSpace = sign ++ (mark ++ body) := by
      intro hs
      rw [List.append_assoc, List.append_assoc, dropBlank sp]
      · intro c hc
        exact (blank_space c).mp ((space_iff c).mpr (hsp c hc))
      · intro c hc
        rcases hs with rfl | rfl | rfl
        · exact (hhead c hc).1
        · simp at hc; subst hc; decide
        · simp at hc; subst hc; decide
    rcases hz with ⟨hs | hs, hz⟩ | ⟨hs, hz⟩
    · have hd := hd (.inl hs)
      subst hs
      have hne : mark ++ body ≠ [] := by simp [h1]
      obtain ⟨c, t, hct⟩ := List.exists_cons_of_ne_nil hne
      have hc := hhead c (by rw [hct]; rfl)
      rw [hct, List.nil_append] at hd
      rw [strtol_other _ _ t c hd hc.2.1 hc.2.2, ← hct]
      exact (strtolTail_all base false _ _ h0 z).mpr (by rw [hstrip]; exact ⟨h1, h2, by simpa [h3] using hz⟩)
    · have hd := hd (.inr (.inl hs))
      subst hs
      rw [strtol_plus _ _ (mark ++ body) hd]
      exact (strtolTail_all base false _ _ h0 z).mpr (by rw [hstrip]; exact ⟨h1, h2, by simpa [h3] using hz⟩)
    · have hd := hd (.inr (.inr hs))
      subst hs
      rw [strtol_minus _ _ (mark ++ body) hd]
      exact (strtolTail_all base true _ _ h0 z).mpr (by rw [hstrip]; exact ⟨h1, h2, by simpa [h3] using hz⟩)

theorem signed_ne_nil {base : Nat} (hb : base = 10 ∨ base = 16) {z : Int} : ¬ Signed base [] z := by
  rintro ⟨sp, sign, mark, body, n, h, _, _, hbody, _⟩
  have := ((numeral_iff hb _ _).mp hbody).1
  have h : sp ++ sign ++ mark ++ body = [] := h.symm
  simp at h
  exact this h.2.2.2

/-- `GetLongValue` on a text: its number, if it is one. -/
theorem toLong_iff (s : Bytes) (dflt : Int) :
    (∀ z, Number s z → toLong (some s) dflt = z) ∧ ((¬ ∃ z, Number s z) → toLong (some s) dflt = dflt) := by
  by_cases hl : s.length + 1 > 64
  · have h1 : toLong (some s) dflt = dflt := by
      cases s with
      | nil => rfl
      | cons c s => simp only [toLong]; rw [if_pos hl]
    rw [h1]
    exact ⟨fun z hz => absurd hz.1 (by omega), fun _ => rfl⟩
  · by_cases hx : ∃ r, HexMark s r
    · obtain ⟨r, hr⟩ := hx
      have hlen : s.length ≤ 63 := by omega
      have htl : toLong (some s) dflt = if r = [] then dflt else (if (strtol 16 r).2 = [] then (strtol 16 r).1 else dflt) := by
        have main : ∀ x : UInt8, (x == 120 || x == 88) = true → s = 48 :: x :: r →
            toLong (some s) dflt = if r = [] then dflt else (if (strtol 16 r).2 = [] then (strtol 16 r).1 else dflt) := by
          rintro x hxb rfl
          simp only [toLong]
          rw [if_neg hl, if_pos hxb]
          split
          · rename_i h; split at h
            · rename_i hr; rw [if_pos hr]
            · simp at h
          · rename_i n t h; split at h
            · simp at h
            · rename_i hr
              simp only [Option.some.injEq] at h
              rw [if_neg hr, h]
        rcases hr with hr | hr
        · exact main 120 rfl hr
        · exact main 88 rfl hr
      have hu : ∀ z, Number s z ↔ Signed 16 r z := by
        intro z
        constructor
        · rintro ⟨_, ⟨r', hr', h⟩ | ⟨h, _⟩⟩
          · have : r' = r := by
              rcases hr with hr | hr <;> rcases hr' with hr' | hr' <;> rw [hr] at hr' <;> simp at hr' <;> exact hr'.symm
            rw [← this]; exact h
          · exact absurd ⟨r, hr⟩ h
        · intro h; exact ⟨hlen, .inl ⟨r, hr, h⟩⟩
      rw [htl]
      by_cases hr0 : r = []
      · rw [if_pos hr0]
        exact ⟨fun z hz => absurd ((hu z).mp hz) (by rw [hr0]; exact signed_ne_nil (.inr rfl)), fun _ => rfl⟩
      · rw [if_neg hr0]
        refine ⟨fun z hz => ?_, fun hn => ?_⟩
        · rw [(strtol_iff (.inr rfl) hr0 z).mpr ((hu z).mp hz), if_pos rfl]
        · rw [if_neg]
          intro h
          exact hn ⟨_, (hu _).mpr ((strtol_iff (.inr rfl) hr0 (strtol 16 r).1).mp (by rw [← h]))⟩
    · have hlen : s.length ≤ 63 := by omega
      have hu : ∀ z, Number s z ↔ Signed 10 s z := by
        intro z
        constructor
        · rintro ⟨_, ⟨r', hr', h⟩ | ⟨_, h⟩⟩
          · exact absurd ⟨r', hr'⟩ hx
          · exact h
        · intro h; exact ⟨hlen, .inr ⟨hx, h⟩⟩
      cases s with
      | nil =>
        refine ⟨fun z hz => absurd ((hu z).mp hz) (signed_ne_nil (.inl rfl)), fun _ => rfl⟩
      | cons c s =>
        have hx' : ∀ x r, c = 48 → s = x :: r → ¬ (x == 120 || x == 88) = true := by
          rintro x r rfl rfl h
          simp only [Bool.or_eq_true, beq_iff_eq] at h
          rcases h with rfl | rfl
          · exact hx ⟨r, .inl rfl⟩
          · exact hx ⟨r, .inr rfl⟩
        have htl : toLong (some (c :: s)) dflt = (if (strtol 10 (c :: s)).2 = [] then (strtol 10 (c :: s)).1 else dflt) := by
          simp only [toLong]
          rw [if_neg hl]
          split
          · rename_i h; split at h
            · rename_i x r hh
              simp only [List.cons.injEq] at hh
              rw [if_neg (hx' x r hh.1 hh.2)] at h
              simp at h
            · simp at h
          · rename_i n t h; split at h
            · rename_i x r hh
              simp only [List.cons.injEq] at hh
              rw [if_neg (hx' x r hh.1 hh.2)] at h
              simp only [Option.some.injEq] at h; rw [h]
            · simp only [Option.some.injEq] at h; rw [h]
        rw [htl]
        refine ⟨fun z hz => ?_, fun hn => ?_⟩
        · rw [(strtol_iff (.inl rfl) (by simp) z).mpr ((hu z).mp hz), if_pos rfl]
        · rw [if_neg]
          intro h
          exact hn ⟨_, (hu _).mpr ((strtol_iff (.inl rfl) (by simp) (strtol 10 (c :: s)).1).mp (by rw [← h]))⟩

theorem toBool_iff (v : Bytes) (dflt : Bool) :
    (∀ b, Truth v b → toBool (some v) dflt = b) ∧ ((¬ ∃ b, Truth v b) → toBool (some v) dflt = dflt) := by
  have ht : (∃ b, Truth v b) ↔ Truth v true ∨ Truth v false := by
    constructor
    · rintro ⟨b, h⟩; cases b <;> simp [h]
    · rintro (h | h) <;> exact ⟨_, h⟩
  rw [ht]
  match v with
  | [] => simp [Truth, toBool]
  | [a] =>
    simp only [Truth, toBool, List.mem_cons, List.not_mem_nil, or_false, exists_eq_or_imp, exists_eq_left, List.cons_prefix_cons, List.prefix_nil,
      List.nil_prefix, and_true, Bool.forall_bool, reduceCtorEq, and_false]
    grind (splits := 60)
  | a :: b :: r =>
    simp only [Truth, toBool, List.mem_cons, List.not_mem_nil, or_false, exists_eq_or_imp, exists_eq_left, List.cons_prefix_cons, List.prefix_nil,
      List.nil_prefix, and_true, Bool.forall_bool, reduceCtorEq, and_false]
    grind (splits := 60)

/-- The number of digits. -/
theorem revDigits_length {base : Nat} (hb : 2 ≤ base) : ∀ (fuel n k : Nat), n < base ^ fuel → 0 < fuel → 0 < k →
    ((revDigits base fuel n).length ≤ k ↔ n < base ^ k)
  | 0, _, _, _, h, _ => by omega
  | fuel + 1, n, k, hn, _, hk => by
    have hb0 : 0 < base := by omega
    rw [revDigits]
    split
    · rename_i hz
      have hlt : n < base := by
        rcases Nat.lt_or_ge n base with h | h
        · exact h
        · have := Nat.div_pos h hb0; omega
      have : base ^ 1 ≤ base ^ k := Nat.pow_le_pow_right hb0 hk
      rw [Nat.pow_one] at this
      simp only [List.length_singleton]
      omega
    · rename_i hz
      have hge : base ≤ n := by
        rcases Nat.lt_or_ge n base with h | h
        · exact absurd (Nat.div_eq_of_lt h) hz
        · exact h
      have hf : 0 < fuel := by
        rcases Nat.eq_zero_or_pos fuel with h | h
        · subst h
          rw [Nat.zero_add, Nat.pow_one] at hn
          omega
        · exact h
      have hlt : n / base < base ^ fuel := by
        rw [Nat.div_lt_iff_lt_mul hb0]
        rw [Nat.pow_succ] at hn; exact hn
      rw [List.length_cons]
      match k, hk with
      | 1, _ =>
        rw [Nat.pow_one]
        have : (revDigits base fuel (n / base)).length ≠ 0 := by
          cases fuel with
          | zero => omega
          | succ f => rw [revDigits]; split <;> simp
        omega
      | k + 2, _ =>
        have := revDigits_length hb fuel (n / base) (k + 1) hlt hf (by omega)
        rw [Nat.pow_succ, ← Nat.div_lt_iff_lt_mul hb0]
        omega

theorem roundDiv_near (n d : Nat) (hd : 0 < d) : 2 * (roundDiv n d * d) ≤ 2 * n + d ∧ 2 * n ≤ 2 * (roundDiv n d * d) + d := by
  have h := Nat.div_add_mod n d
  have h2 := Nat.mod_lt n hd
  rw [Nat.mul_comm] at h
  unfold roundDiv
  split
  · rw [Nat.add_mul, Nat.one_mul]; omega
  · omega

theorem roundDiv_even (n d : Nat) (hd : 0 < d) (h : 2 * (roundDiv n d * d) = 2 * n + d ∨ 2 * n = 2 * (roundDiv n d * d) + d) :
    roundDiv n d % 2 = 0 := by
  have h1 := Nat.div_add_mod n d
  have h2 := Nat.mod_lt n hd
  rw [Nat.mul_comm] at h1
  unfold roundDiv at *
  split at h <;> rename_i hc
  · rw [if_pos hc]
    rw [Nat.add_mul, Nat.one_mul] at h
    omega
  · rw [if_neg hc]
    omega

theorem sixDigits_numeral (f : Nat) (hf : f < 10 ^ 6) : Numeral 10 (sixDigits f) f := by
  have hd : ∀ d < 10, IsDigit 10 d (UInt8.ofNat (48 + d)) := by unfold IsDigit; decide
  have hm : ∀ n, IsDigit 10 (n % 10) (UInt8.ofNat (48 + n % 10)) := fun n => hd _ (Nat.mod_lt n (by decide))
  have h := Numeral.more (Numeral.more (Numeral.more (Numeral.more (Numeral.more (Numeral.one (hm (f / 100000))) (hm (f / 10000))) (hm (f / 1000)))
    (hm (f / 100))) (hm (f / 10))) (hm f)
  have he : 10 * (10 * (10 * (10 * (10 * (f / 100000 % 10) + f / 10000 % 10) + f / 1000 % 10) + f / 100 % 10) + f / 10 % 10) + f % 10 = f := by omega
  rw [he] at h
  exact h

theorem millionths_whole (m : Nat) {e : Int} (he : 0 ≤ e) : millionths m e / 10 ^ 6 = m * 2 ^ e.toNat := by
  unfold millionths
  rw [if_pos he, Nat.mul_div_cancel _ (by decide)]

theorem millionths_small {m : Nat} {e : Int} (hm : m < 2 ^ 53) (he : e < 0) : millionths m e / 10 ^ 6 < 10 ^ 16 := by
  unfold millionths
  rw [if_neg (by omega)]
  have hd : 2 ^ 1 ≤ 2 ^ (-e).toNat := Nat.pow_le_pow_right (by decide) (by omega)
  have hn := (roundDiv_near (m * 10 ^ 6) (2 ^ (-e).toNat) (by omega)).1
  generalize roundDiv (m * 10 ^ 6) (2 ^ (-e).toNat) = q at hn ⊢
  generalize 2 ^ (-e).toNat = d at hn hd
  have h1 : 2 * (q * 2) ≤ 2 * (q * d) := Nat.mul_le_mul_left 2 (Nat.mul_le_mul_left q hd)
  have h2 : d * 1 ≤ d * (2 * q - 1) ∨ q = 0 := by
    rcases Nat.eq_zero_or_pos q with h | h
    · exact .inr h
    · exact .inl (Nat.mul_le_mul_left d (by omega))
  rcases h2 with h2 | h2
  · have h3 : 2 * (q * d) = d * (2 * q - 1) + d := by
      have : 0 < q := by
        rcases Nat.eq_zero_or_pos q with h | h
        · subst h; simp at h2; omega
        · exact h
      have h4 : 2 * q = (2 * q - 1) + 1 := by omega
      conv => lhs; rw [← Nat.mul_assoc, h4, Nat.mul_comm, Nat.mul_add, Nat.mul_one]
    have h4 : 2 * (2 * q - 1) ≤ d * (2 * q - 1) := Nat.mul_le_mul_right _ (by omega)
    omega
  · subst h2; decide

end IniStore

/-- C76. `GetLongValue` gives the number that the value of the key says; the default if there is no such key or its value is not a number. -/
theorem C76_long (o : Options) (h : List Change) (s k : Bytes) (dflt : Int) :
    (∀ v z, (valuesOf o.multiKey s k h).head? = some v → Number v z → getLongValue o (run o h) s k dflt = z)
    ∧ ((¬ ∃ v z, (valuesOf o.multiKey s k h).head? = some v ∧ Number v z) → getLongValue o (run o h) s k dflt = dflt) := by
  unfold getLongValue
  rw [C74_value]
  simp only []
  cases hv : (valuesOf o.multiKey s k h).head? with
  | none => exact ⟨fun v z h => (nomatch h), fun _ => rfl⟩
  | some v =>
    refine ⟨fun v' z he hz => ?_, fun hn => ?_⟩
    · cases he; exact (toLong_iff v dflt).1 z hz
    · exact (toLong_iff v dflt).2 (fun ⟨z, hz⟩ => hn ⟨v, z, rfl, hz⟩)

/-- C76. A text is read as at most one number. -/
theorem C76_unique {v : Bytes} {z z' : Int} (h : Number v z) (h' : Number v z') : z = z' :=
  ((toLong_iff v 0).1 z h).symm.trans ((toLong_iff v 0).1 z' h')

/-- C76. The texts that the library takes as the version of a license are those that are read as the number 200. -/
theorem C76_version (v : Bytes) : Spec.Means200 v ↔ Number v 200 := by
  have h := toLong_200 (some v)
  simp only [Option.some.injEq, exists_eq_left'] at h
  rw [← h]
  constructor
  · intro h2
    open Classical in
    by_cases hn : ∃ z, Number v z
    · obtain ⟨z, hz⟩ := hn
      rw [← h2, (toLong_iff v (-1)).1 z hz]; exact hz
    · rw [(toLong_iff v (-1)).2 hn] at h2; simp at h2
  · intro h2; exact (toLong_iff v (-1)).1 200 h2

/-- C76. `GetBoolValue` gives the truth value that the value of the key says; the default if there is no such key or its value is none. -/
theorem C76_bool (o : Options) (h : List Change) (s k : Bytes) (dflt : Bool) :
    (∀ v b, (valuesOf o.multiKey s k h).head? = some v → Truth v b → getBoolValue o (run o h) s k dflt = b)
    ∧ ((¬ ∃ v b, (valuesOf o.multiKey s k h).head? = some v ∧ Truth v b) → getBoolValue o (run o h) s k dflt = dflt) := by
  unfold getBoolValue
  rw [C74_value]
  simp only []
  cases hv : (valuesOf o.multiKey s k h).head? with
  | none => exact ⟨fun v z h => (nomatch h), fun _ => rfl⟩
  | some v =>
    refine ⟨fun v' z he hz => ?_, fun hn => ?_⟩
    · cases he; exact (toBool_iff v dflt).1 z hz
    · exact (toBool_iff v dflt).2 (fun ⟨z, hz⟩ => hn ⟨v, z, rfl, hz⟩)

namespace IniStore

theorem digitChar_byte (base : Nat) (hb : base = 10 ∨ base = 16) (n : Nat) :
    UInt8.ofNat (Nat.digitChar (n % base)).toNat = UInt8.ofNat (if n % base < 10 then 48 + n % base else 87 + n % base) := by
  have h : ∀ k < 16, UInt8.ofNat (Nat.digitChar k).toNat = UInt8.ofNat (if k < 10 then 48 + k else 87 + k) := by decide +kernel
  exact h _ (by rcases hb with rfl | rfl <;> omega)

theorem toDigitsCore_rev (base : Nat) (hb : base = 10 ∨ base = 16) : ∀ (fuel fuel' n : Nat) (ds : List Char), n < base ^ fuel → 0 < fuel → n < fuel' →
    (Nat.toDigitsCore base fuel' n ds).map (fun c => UInt8.ofNat c.toNat)
      = (revDigits base fuel n).reverse ++ ds.map fun c => UInt8.ofNat c.toNat := by
  intro fuel
  induction fuel with
  | zero => intro _ _ _ _ h; omega
  | succ fuel ih =>
    intro fuel' n ds hn _ hf
    obtain ⟨f, rfl⟩ : ∃ f, fuel' = f + 1 := ⟨fuel' - 1, by omega⟩
    rw [Nat.toDigitsCore, revDigits]
    by_cases h0 : n / base = 0
    · rw [if_pos h0, if_pos h0]
      simp [digitChar_byte base hb]
    · rw [if_neg h0, if_neg h0]
      have hb1 : 1 < base := by omega
      have hlt : n / base < base ^ fuel := Nat.div_lt_of_lt_mul (by rw [Nat.pow_succ, Nat.mul_comm] at hn; exact hn)
      have hpos : 0 < n := by
        rcases Nat.eq_zero_or_pos n with h | h
        · subst h; simp at h0
        · exact h
      have hfu : 0 < fuel := by
        rcases Nat.eq_zero_or_pos fuel with h | h
        · subst h; exact absurd (Nat.lt_one_iff.mp (by simpa using hlt)) h0
        · exact h
      rw [ih f (n / base) _ hlt hfu (by have := Nat.div_lt_self hpos hb1; omega)]
      simp [digitChar_byte base hb]

theorem longText_spec (hex : Bool) (n : Int) (hn : -(2 : Int) ^ 63 ≤ n ∧ n < 2 ^ 63) : longText hex n = if hex then hexText n else decimalText n := by
  unfold longText hexText decimalText Nat.toDigits
  rw [toDigitsCore_rev 16 (.inr rfl) 16 _ _ _ (by omega) (by decide) (Nat.lt_succ_self _), toDigitsCore_rev 10 (.inl rfl) 20 _ _ _ (by omega) (by decide) (Nat.lt_succ_self _)]
  cases hex <;> simp
  split <;> simp

end IniStore

/-- C76. What `SetLongValue` writes is the number in decimal notation, or its 64 bits in hexadecimal notation. -/
theorem C76_long_text (o : Options) (h : List Change) (s k : Bytes) (n : Int) (c : Option Bytes) (hex : Bool)
    (hn : -(2 : Int) ^ 63 ≤ n ∧ n < 2 ^ 63) :
    (getValue o (setLongValue o s k n c hex true (run o h)).2 s k).1 = some (if hex then hexText n else decimalText n) := by
  have hv : getValue o (setLongValue o s k n c hex true (run o h)).2 s k = (some (longText hex n), false) :=
    C74_set_get o h (v := longText hex n) (c := c) (sameCI_iff.mpr (sameName_refl s)) (sameCI_iff.mpr (sameName_refl k)) (.inr rfl)
  rw [hv, longText_spec hex n hn]

example : decimalText (-200) = b!"-200" ∧ decimalText 0 = b!"0" ∧ hexText 3054 = b!"0xbee" := by decide +kernel

/-- C76. The text of every number of 64 bits fits into the 64 bytes of `SetLongValue`, with its end. -/
theorem C76_long_fits (n : Int) (hn : -(2 : Int) ^ 63 ≤ n ∧ n < 2 ^ 63) (hex : Bool) : (longText hex n).length ≤ 20 := by
  cases hex with
  | true =>
    have h := (digits_revDigits 16 (.inr rfl) 16 (n % 2 ^ 64).toNat (by omega) (by decide)).2.2.2
    show ((b!"0x" : Bytes) ++ _).length ≤ 20
    rw [List.length_append]
    have : (b!"0x" : Bytes).length = 2 := rfl
    omega
  | false =>
    have h := (revDigits_length (base := 10) (by decide) 20 n.natAbs 19 (by omega) (by decide) (by decide)).mpr (by omega)
    simp only [longText, Bool.false_eq_true, if_false]
    split
    · rw [List.length_append, List.length_reverse]
      have : (b!"-" : Bytes).length = 1 := rfl
      omega
    · rw [List.length_reverse]; omega

set_option exponentiation.threshold 1000 in
/-- C76 (the property "setting a number is safe" fails for `double`). `SetDoubleValue` writes beyond its 64 bytes exactly for the numbers from
    10^56 on, and those from -10^55 down. -/
theorem C76_double_overrun (o : Options) (s k : Bytes) (x : Double) (hx : x.Ok) (c : Option Bytes) (force : Bool) (st : Store) :
    setDoubleValue o s k x c force st = .ub ↔ ∃ neg m e, x = .finite neg m e ∧ 0 ≤ e ∧ 10 ^ (if neg then 55 else 56) ≤ m * 2 ^ e.toNat := by
  have hu : setDoubleValue o s k x c force st = .ub ↔ ¬ (doubleText x).length < 64 := by
    unfold setDoubleValue
    split <;> simp_all
  rw [hu]
  cases x with
  | infinite neg => cases neg <;> simp [doubleText]
  | nan neg => cases neg <;> simp [doubleText]
  | finite neg m e =>
    obtain ⟨hm, he1, he2⟩ := hx
    have hbig : millionths m e / 10 ^ 6 < 10 ^ 320 := by
      by_cases he : e < 0
      · have := millionths_small hm he; omega
      · have h1 : 2 ^ e.toNat ≤ 2 ^ 971 := Nat.pow_le_pow_right (by decide) (by omega)
        have h2 : m * 2 ^ e.toNat ≤ 2 ^ 53 * 2 ^ 971 := Nat.mul_le_mul (by omega) h1
        rw [millionths_whole m (by omega)]
        have : 2 ^ 53 * 2 ^ 971 < 10 ^ 320 := by decide +kernel
        omega
    have hlen : (doubleText (.finite neg m e)).length = (if neg then 1 else 0) + (revDigits 10 320 (millionths m e / 10 ^ 6)).length + 7 := by
      unfold doubleText sixDigits
      cases neg <;> simp <;> omega
    have key : ¬ (doubleText (.finite neg m e)).length < 64 ↔ 10 ^ (if neg then 55 else 56) ≤ millionths m e / 10 ^ 6 := by
      rw [hlen]
      have h := revDigits_length (base := 10) (by decide) 320 (millionths m e / 10 ^ 6) (if neg then 55 else 56) hbig (by decide) (by split <;> decide)
      rw [← Nat.not_lt, ← h]
      cases neg <;> simp <;> omega
    rw [key]
    constructor
    · intro h
      by_cases he : e < 0
      · have := millionths_small hm he
        have h55 : 10 ^ 55 ≤ 10 ^ (if neg then 55 else 56) := Nat.pow_le_pow_right (by decide) (by split <;> decide)
        have : 10 ^ 16 < 10 ^ 55 := by decide +kernel
        omega
      · refine ⟨neg, m, e, rfl, by omega, ?_⟩
        rw [millionths_whole m (by omega)] at h
        exact h
    · rintro ⟨neg', m', e', hxx, he, h⟩
      cases hxx
      rw [millionths_whole m he]
      exact h

set_option exponentiation.threshold 1000 in
/-- C76. Otherwise what is set is the sign, a decimal numeral, a point and six digits, nearest to the number: for `m * 2 ^ e` the numeral and the digits
    say a number of millionths that differs from it by a half at most; if by a half, the even one. -/
theorem C76_double_text (o : Options) (h : List Change) (s k : Bytes) {neg : Bool} {m : Nat} {e : Int} (hx : (Double.finite neg m e).Ok)
    (c : Option Bytes) {r : Bool × Store} (hr : setDoubleValue o s k (.finite neg m e) c true (run o h) = .ok r) :
    ∃ whole part i f, (getValue o r.2 s k).1 = some ((if neg then b!"-" else []) ++ whole ++ b!"." ++ part)
      ∧ Numeral 10 whole i ∧ Numeral 10 part f ∧ part.length = 6
      ∧ (0 ≤ e → i * 1000000 + f = m * 2 ^ e.toNat * 1000000)
      ∧ (e < 0 → 2 * ((i * 1000000 + f) * 2 ^ (-e).toNat) ≤ 2 * (m * 1000000) + 2 ^ (-e).toNat
        ∧ 2 * (m * 1000000) ≤ 2 * ((i * 1000000 + f) * 2 ^ (-e).toNat) + 2 ^ (-e).toNat
        ∧ (2 * ((i * 1000000 + f) * 2 ^ (-e).toNat) = 2 * (m * 1000000) + 2 ^ (-e).toNat
          ∨ 2 * (m * 1000000) = 2 * ((i * 1000000 + f) * 2 ^ (-e).toNat) + 2 ^ (-e).toNat → (i * 1000000 + f) % 2 = 0)) := by
  obtain ⟨hm, he1, he2⟩ := hx
  have hbig : millionths m e / 10 ^ 6 < 10 ^ 320 := by
    by_cases he : e < 0
    · have := millionths_small hm he; omega
    · have h1 : 2 ^ e.toNat ≤ 2 ^ 971 := Nat.pow_le_pow_right (by decide) (by omega)
      have h2 : m * 2 ^ e.toNat ≤ 2 ^ 53 * 2 ^ 971 := Nat.mul_le_mul (by omega) h1
      rw [millionths_whole m (by omega)]
      have : 2 ^ 53 * 2 ^ 971 < 10 ^ 320 := by decide +kernel
      omega
  obtain ⟨d1, d2, d3, _⟩ := digits_revDigits 10 (.inl rfl) 320 (millionths m e / 10 ^ 6) hbig (by decide)
  refine ⟨(revDigits 10 320 (millionths m e / 10 ^ 6)).reverse, sixDigits (millionths m e % 10 ^ 6), millionths m e / 10 ^ 6, millionths m e % 10 ^ 6,
    ?_, (numeral_iff (.inl rfl) _ _).mpr ⟨d3, d1, d2⟩, sixDigits_numeral _ (Nat.mod_lt _ (by decide)), rfl, ?_, ?_⟩
  · unfold setDoubleValue at hr
    split at hr
    · cases hr
      have := C74_set_get o h (v := doubleText (.finite neg m e)) (c := c) (sameCI_iff.mpr (sameName_refl s)) (sameCI_iff.mpr (sameName_refl k)) (force := true) (.inr rfl)
      exact congrArg Prod.fst this
    · cases hr
  · intro he
    have hq : millionths m e = m * 2 ^ e.toNat * 10 ^ 6 := by unfold millionths; rw [if_pos he]
    rw [hq]; omega
  · intro he
    have hq : millionths m e = roundDiv (m * 10 ^ 6) (2 ^ (-e).toNat) := by unfold millionths; rw [if_neg (by omega)]
    have hi : millionths m e / 10 ^ 6 * 1000000 + millionths m e % 10 ^ 6 = millionths m e := by omega
    rw [hi, hq]
    exact ⟨(roundDiv_near _ _ (Nat.pow_pos (by decide))).1, (roundDiv_near _ _ (Nat.pow_pos (by decide))).2,
      roundDiv_even _ _ (Nat.pow_pos (by decide))⟩

/-! ## Examples -/

example : Number b!" \t-0042" (-42) := ⟨by decide, .inr ⟨by rintro ⟨r, h | h⟩ <;> simp at h, b!" \t", b!"-", [], b!"0042", 42, rfl, by decide, .inl rfl,
  (numeral_iff (.inl rfl) _ _).mpr (by decide), .inr ⟨rfl, rfl⟩⟩⟩
example : Number b!"0x-ff" (-255) := ⟨by decide, .inl ⟨b!"-ff", .inl rfl, [], b!"-", [], b!"ff", 255, rfl, by decide, .inl rfl,
  (numeral_iff (.inr rfl) _ _).mpr (by decide), .inr ⟨rfl, rfl⟩⟩⟩
example : ¬ ∃ z, Number b!"12:" z := by
  rintro ⟨z, h⟩
  have h1 := (toLong_iff b!"12:" 0).1 z h
  have h2 := (toLong_iff b!"12:" 1).1 z h
  have h3 : toLong (some b!"12:") 0 = 0 := by decide +kernel
  have h4 : toLong (some b!"12:") 1 = 1 := by decide +kernel
  omega
example : Truth b!"Yes" true := ⟨b!"Y", by decide, by decide⟩
example : Truth b!"OFF" false := ⟨b!"OF", by decide, by decide⟩
/-- 0.1, a tie (0.0000005 is not a `double`, 2^-7 is: 0.0078125), and 10^56 next above. -/
example : doubleText (.finite false 7205759403792794 (-56)) = b!"0.100000" ∧ doubleText (.finite true 1 (-7)) = b!"-0.007812"
    ∧ (doubleText (.finite false (2 ^ 52) 136)).length = 64 := by decide +kernel
example : setDoubleValue {} b!"s" b!"k" (.finite false (2 ^ 52) 136) none true {} = .ub := by decide +kernel

end Licensecc
