import Verif.Props.IniNumber
import Verif.Spec.IniDouble
/-!
# C76: numbers with a fraction

`GetDoubleValue` on every text, and what comes back of the numbers that `SetDoubleValue` stores.
-/
namespace Licensecc
open Ini hiding getValue getAllKeys getSectionSize setKey load
open IniStore Spec.IniStore Spec.IniNumber

namespace IniStore

/-! ## Rounding -/

theorem leastExponent_spec (n d : Nat) : ∀ fuel j, j ≤ leastExponent n d fuel j ∧ leastExponent n d fuel j ≤ j + fuel
    ∧ (∀ i, j ≤ i → i < leastExponent n d fuel j → d * 2 ^ (53 + i) ≤ n)
    ∧ (leastExponent n d fuel j < j + fuel → n < d * 2 ^ (53 + leastExponent n d fuel j)) := by
  intro fuel
  induction fuel with
  | zero =>
    intro j
    simp only [leastExponent]
    exact ⟨Nat.le_refl _, Nat.le_refl _, fun i h1 h2 => by omega, fun h => by omega⟩
  | succ fuel ih =>
    intro j
    rw [leastExponent]
    by_cases h : n < d * 2 ^ (53 + j)
    · rw [if_pos h]
      exact ⟨Nat.le_refl _, by omega, fun i h1 h2 => by omega, fun _ => h⟩
    · rw [if_neg h]
      obtain ⟨h1, h2, h3, h4⟩ := ih (j + 1)
      refine ⟨by omega, by omega, fun i hi hl => ?_, fun hl => h4 (by omega)⟩
      by_cases hj : i = j
      · subst hj; omega
      · exact h3 i (by omega) hl

/-- The distance of `s` units from `n / d` units. -/
def dist (n d s : Nat) : Nat := ((s * d : Nat) - (n : Nat) : Int).natAbs

theorem roundDiv_le (n d b : Nat) (hd : 0 < d) (h : n < d * b) : roundDiv n d ≤ b := by
  have : n / d < b := Nat.div_lt_of_lt_mul h
  unfold roundDiv; split <;> omega

theorem le_roundDiv (n d b : Nat) (hd : 0 < d) (h : d * b ≤ n) : b ≤ roundDiv n d := by
  have : b ≤ n / d := (Nat.le_div_iff_mul_le hd).mpr (by rw [Nat.mul_comm]; exact h)
  unfold roundDiv; split <;> omega

/-- Rounded to 53 bits at the least exponent, the result is the nearest. -/
theorem round_nearest {n d j : Nat} (hd : 0 < d) (hmin : j = 0 ∨ d * 2 ^ (52 + j) ≤ n) {m' j' : Nat} (hm' : m' < 2 ^ 53) :
    dist n d (roundDiv n (d * 2 ^ j) * 2 ^ j) ≤ dist n d (m' * 2 ^ j')
    ∧ (dist n d (roundDiv n (d * 2 ^ j) * 2 ^ j) = dist n d (m' * 2 ^ j') → m' * 2 ^ j' ≠ roundDiv n (d * 2 ^ j) * 2 ^ j →
      roundDiv n (d * 2 ^ j) % 2 = 0) := by
  have hA : 0 < d * 2 ^ j := Nat.mul_pos hd (Nat.pow_pos (by decide))
  have hnear := roundDiv_near n (d * 2 ^ j) hA
  have heven := roundDiv_even n (d * 2 ^ j) hA
  have hlow : j ≠ 0 → 2 ^ 52 ≤ roundDiv n (d * 2 ^ j) := fun h => le_roundDiv _ _ _ hA (by
    have := hmin.resolve_left h
    rw [Nat.pow_add, Nat.mul_comm (2 ^ 52), ← Nat.mul_assoc] at this
    exact this)
  generalize hm : roundDiv n (d * 2 ^ j) = m at *
  have e1 : m * 2 ^ j * d = m * (d * 2 ^ j) := by rw [Nat.mul_assoc, Nat.mul_comm d]
  unfold dist
  rw [e1]
  generalize hAe : d * 2 ^ j = A at *
  by_cases hj : j ≤ j'
  · have e2 : m' * 2 ^ j' * d = m' * 2 ^ (j' - j) * A := by
      obtain ⟨k, rfl⟩ := Nat.exists_eq_add_of_le hj
      rw [Nat.add_sub_cancel_left, ← hAe, Nat.pow_add]
      ac_rfl
    have e3 : m' * 2 ^ j' = m' * 2 ^ (j' - j) * 2 ^ j := by
      obtain ⟨k, rfl⟩ := Nat.exists_eq_add_of_le hj
      rw [Nat.add_sub_cancel_left, Nat.pow_add]
      ac_rfl
    rw [e2, e3]
    generalize m' * 2 ^ (j' - j) = M
    rcases Nat.lt_trichotomy M m with h | h | h
    · have : M * A + A ≤ m * A := by rw [← Nat.succ_mul]; exact Nat.mul_le_mul_right _ h
      exact ⟨by omega, fun h1 _ => heven (by omega)⟩
    · subst h; exact ⟨Nat.le_refl _, fun _ h => absurd rfl h⟩
    · have : m * A + A ≤ M * A := by rw [← Nat.succ_mul]; exact Nat.mul_le_mul_right _ h
      exact ⟨by omega, fun h1 _ => heven (by omega)⟩
  · have hj0 : j ≠ 0 := by omega
    have h1 := hmin.resolve_left hj0
    have h2 := hlow hj0
    have e4 : d * 2 ^ (52 + j) = 2 ^ 52 * A := by rw [← hAe, Nat.pow_add]; simp only [Nat.mul_left_comm]
    rw [e4] at h1
    have h3 : m' * 2 ^ j' * d < 2 ^ 52 * A := by
      rw [← e4, Nat.mul_comm d]
      apply Nat.mul_lt_mul_of_pos_right _ hd
      calc m' * 2 ^ j' < 2 ^ 53 * 2 ^ j' := Nat.mul_lt_mul_of_pos_right hm' (Nat.pow_pos (by decide))
        _ = 2 ^ (53 + j') := by rw [Nat.pow_add]
        _ ≤ 2 ^ (52 + j) := Nat.pow_le_pow_right (by decide) (by omega)
    generalize m' * 2 ^ j' * d = z at *
    rcases Nat.eq_or_lt_of_le h2 with h | h
    · subst h
      generalize 2 ^ 52 * A = w at *
      exact ⟨by omega, fun h1 _ => by decide⟩
    · have h5 : 2 ^ 52 * A + A ≤ m * A := by rw [← Nat.succ_mul]; exact Nat.mul_le_mul_right _ h
      generalize 2 ^ 52 * A = w at *
      exact ⟨by omega, fun h1 _ => by omega⟩

theorem units_pos : 0 < units := Nat.pow_pos (by decide)

set_option exponentiation.threshold 3000 in
/-- The limit behind which numbers become infinite, in units. -/
theorem limit_units (n d : Nat) : n < d * (2 ^ 1024 - 2 ^ 970) ↔ n * units < d * 2 ^ 2044 * (2 ^ 54 - 1) := by
  have h : (2 ^ 1024 - 2 ^ 970) * units = 2 ^ 2044 * (2 ^ 54 - 1) := by decide +kernel
  rw [Nat.mul_assoc d (2 ^ 2044), ← h, ← Nat.mul_assoc]
  exact (Nat.mul_lt_mul_right units_pos).symm

/-- The mantissa and the exponent (from the least one) of the nearest number, with 53 bits. -/
theorem round_bits (N d T : Nat) (hd : 0 < d) (j m : Nat) (hj : leastExponent N d (T + 2) 0 = j) (hm : roundDiv N (d * 2 ^ j) = m) :
    (m < 2 ^ 53 → j ≤ T + 1 → N < d * 2 ^ T * (2 ^ 54 - 1) ∧ (j ≠ 0 → 2 ^ 52 ≤ m))
    ∧ (m < 2 ^ 53 → ¬ j ≤ T + 1 → d * 2 ^ T * (2 ^ 54 - 1) ≤ N)
    ∧ (¬ m < 2 ^ 53 → j + 1 ≤ T + 1 → m = 2 ^ 53 ∧ N < d * 2 ^ T * (2 ^ 54 - 1))
    ∧ (¬ m < 2 ^ 53 → ¬ j + 1 ≤ T + 1 → d * 2 ^ T * (2 ^ 54 - 1) ≤ N)
    ∧ (∀ m' j', m' < 2 ^ 53 → dist N d (m * 2 ^ j) ≤ dist N d (m' * 2 ^ j')
        ∧ (dist N d (m * 2 ^ j) = dist N d (m' * 2 ^ j') → m' * 2 ^ j' ≠ m * 2 ^ j → m % 2 = 0)) := by
  obtain ⟨_, s2, s3, s4⟩ := leastExponent_spec N d (T + 2) 0
  rw [Nat.zero_add, hj] at s2 s4
  rw [hj] at s3
  have hmin : j = 0 ∨ d * 2 ^ (52 + j) ≤ N := by
    rcases Nat.eq_zero_or_pos j with h | h
    · exact .inl h
    · right
      have := s3 (j - 1) (by omega) (by omega)
      rwa [show 53 + (j - 1) = 52 + j by omega] at this
  have hA : 0 < d * 2 ^ j := Nat.mul_pos hd (Nat.pow_pos (by decide))
  have hB : 0 < d * 2 ^ T := Nat.mul_pos hd (Nat.pow_pos (by decide))
  have hround := fun {m' j'} h => round_nearest (n := N) (m' := m') (j' := j') hd hmin h
  have hnear := roundDiv_near N (d * 2 ^ j) hA
  have heven := roundDiv_even N (d * 2 ^ j) hA
  have hlow : j ≠ 0 → 2 ^ 52 ≤ roundDiv N (d * 2 ^ j) := fun h => le_roundDiv _ _ _ hA (by
    have := hmin.resolve_left h
    rwa [Nat.pow_add, Nat.mul_comm (2 ^ 52), ← Nat.mul_assoc] at this)
  have htop : j < T + 2 → roundDiv N (d * 2 ^ j) ≤ 2 ^ 53 := fun h => roundDiv_le _ _ _ hA (by
    have := s4 h
    rwa [Nat.pow_add, Nat.mul_comm (2 ^ 53), ← Nat.mul_assoc] at this)
  have hsmall : j ≤ T → N < d * 2 ^ T * (2 ^ 54 - 1) := by
    intro h
    have h1 := s4 (by omega)
    have h2 : d * 2 ^ (53 + j) ≤ d * 2 ^ (53 + T) := Nat.mul_le_mul_left _ (Nat.pow_le_pow_right (by decide) (by omega))
    have h3 : d * 2 ^ (53 + T) = d * 2 ^ T * 2 ^ 53 := by rw [Nat.pow_add]; ac_rfl
    rw [h3] at h2
    generalize d * 2 ^ T = B at *
    omega
  have hlarge : T + 1 < j → d * 2 ^ T * (2 ^ 54 - 1) ≤ N := by
    intro h
    have h1 := s3 (T + 1) (by omega) (by omega)
    have h3 : d * 2 ^ (53 + (T + 1)) = d * 2 ^ T * 2 ^ 54 := by
      rw [show 53 + (T + 1) = T + 54 by omega, Nat.pow_add]; ac_rfl
    rw [h3] at h1
    exact Nat.le_trans (Nat.mul_le_mul_left _ (by decide)) h1
  have hlast : j = T + 1 → d * 2 ^ j = 2 * (d * 2 ^ T) := by
    rintro rfl
    rw [Nat.pow_succ]; ac_rfl
  rw [hm] at hround hnear heven hlow htop
  refine ⟨?_, fun _ h => hlarge (by omega), fun h1 h2 => ⟨by have := htop (by omega); omega, hsmall (by omega)⟩, ?_, fun m' j' h => hround h⟩
  · intro hm53 hj2
    refine ⟨?_, hlow⟩
    by_cases h : j ≤ T
    · exact hsmall h
    · rw [hlast (by omega)] at hnear heven
      generalize d * 2 ^ T = B at *
      by_cases h2 : m = 2 ^ 53 - 1
      · subst h2; omega
      · have h1 : m * (2 * B) ≤ (2 ^ 53 - 2) * (2 * B) := Nat.mul_le_mul_right _ (by omega)
        omega
  · intro hm53 hj2
    by_cases h : T + 1 < j
    · exact hlarge h
    · rw [hlast (by omega)] at hnear
      generalize d * 2 ^ T = B at *
      have h3 : 2 ^ 53 * (2 * B) ≤ m * (2 * B) := Nat.mul_le_mul_right _ (by omega)
      omega

theorem size_of (m i : Nat) : size m ((i : Int) - 1074) = m * 2 ^ i := by
  unfold size
  rw [show ((i : Int) - 1074 + 1074).toNat = i by omega]

theorem away_eq (n d m : Nat) (e : Int) : away n d m e = dist (n * units) d (size m e) := rfl

theorem nearest_of {n d m i : Nat} (hm : m < 2 ^ 53) (hi : i ≤ 2045) (hn : i ≠ 0 → 2 ^ 52 ≤ m)
    (h : ∀ m' j', m' < 2 ^ 53 → dist (n * units) d (m * 2 ^ i) ≤ dist (n * units) d (m' * 2 ^ j')
        ∧ (dist (n * units) d (m * 2 ^ i) = dist (n * units) d (m' * 2 ^ j') → m' * 2 ^ j' ≠ m * 2 ^ i → m % 2 = 0)) :
    Nearest n d m ((i : Int) - 1074) := by
  refine ⟨⟨hm, by omega, by omega⟩, ?_, ?_⟩
  · by_cases h0 : i = 0
    · right; omega
    · exact .inl (hn h0)
  · intro m' e' hok
    rw [away_eq, away_eq, size_of]
    exact h m' _ hok.1

theorem roundFloat_rounded (neg : Bool) (n d : Nat) (hd : 0 < d) : Rounded (.quotient neg n d) (roundFloat neg n d) := by
  have hlim := limit_units n d
  obtain ⟨b1, b2, b3, b4, b5⟩ := round_bits (n * units) d 2044 hd (leastExponent (n * units) d 2046 0)
    (roundDiv (n * units) (d * 2 ^ leastExponent (n * units) d 2046 0)) (congrArg (fun f => leastExponent (n * units) d f 0) (show 2044 + 2 = 2046 from rfl)) (Eq.refl _)
  rw [roundFloat]
  generalize leastExponent (n * units) d 2046 0 = j at *
  generalize roundDiv (n * units) (d * 2 ^ j) = m at *
  generalize d * 2 ^ 2044 * (2 ^ 54 - 1) = L at *
  unfold pack
  by_cases hm : m < 2 ^ 53
  · rw [if_pos hm]
    by_cases hj2 : j ≤ 2045
    · rw [if_pos hj2]
      obtain ⟨c1, c2⟩ := b1 hm hj2
      exact .finite (hlim.mpr c1) (nearest_of hm hj2 c2 b5)
    · rw [if_neg hj2]
      exact .large (Nat.le_of_not_lt fun h => by have := hlim.mp h; have := b2 hm hj2; omega)
  · rw [if_neg hm]
    by_cases hj2 : j + 1 ≤ 2045
    · rw [if_pos hj2]
      obtain ⟨c1, c2⟩ := b3 hm hj2
      refine .finite (hlim.mpr c2) (nearest_of (by decide) hj2 (fun _ => Nat.le_refl _) ?_)
      subst c1
      intro m' j' h
      rw [show 2 ^ 52 * 2 ^ (j + 1) = 2 ^ 53 * 2 ^ j by rw [Nat.pow_succ 2 j]; omega]
      exact ⟨(b5 m' j' h).1, fun _ _ => by decide⟩
    · rw [if_neg hj2]
      exact .large (Nat.le_of_not_lt fun h => by have := hlim.mp h; have := b4 hm hj2; omega)

/-! ## Reading -/

theorem takeDrop_stops {base : Nat} {w r : Bytes} (hw : ∀ c ∈ w, (digit base c).isSome = true) (hr : ∀ c, r.head? = some c → (digit base c).isSome = false) :
    (w ++ r).takeWhile (isDig base) = w ∧ (w ++ r).dropWhile (isDig base) = r := by
  induction w with
  | nil =>
    cases r with
    | nil => exact ⟨rfl, rfl⟩
    | cons c r =>
      have := hr c rfl
      simp [isDig, this]
  | cons c w ih =>
    obtain ⟨h1, h2⟩ := ih (fun c hc => hw c (by simp [hc]))
    have := hw c (by simp)
    simp [isDig, this]
    exact ⟨h1, h2⟩

theorem takeWhile_dig {base : Nat} (s : Bytes) : ∀ c ∈ s.takeWhile (isDig base), (digit base c).isSome = true :=
  fun c hc => List.all_eq_true.mp (List.all_takeWhile (p := isDig base) (l := s)) c hc

theorem mantissa_some {base : Nat} (hb : base = 10 ∨ base = 16) {s : Bytes} {v k : Nat} {r : Bytes} (h : mantissa base s = some (v, k, r)) :
    ∃ t, s = t ++ r ∧ Fraction base t v k := by
  have hcat := List.takeWhile_append_dropWhile (p := isDig base) (l := s)
  have hw := takeWhile_dig (base := base) s
  unfold mantissa at h
  simp only [] at h
  generalize s.takeWhile (isDig base) = w at *
  split at h
  · rename_i r' hd
    have hcat' := List.takeWhile_append_dropWhile (p := isDig base) (l := r')
    have hf := takeWhile_dig (base := base) r'
    generalize r'.takeWhile (isDig base) = f at *
    split at h
    · cases h
    · rename_i hne
      simp only [Option.some.injEq, Prod.mk.injEq] at h
      obtain ⟨rfl, rfl, rfl⟩ := h
      refine ⟨w ++ b!"." ++ f, ?_, w, f, (numeral_iff hb _ _).mpr ⟨hne, ?_, rfl⟩, rfl, .inl rfl⟩
      · rw [← hcat, hd]
        conv => lhs; rw [← hcat']
        simp
      · intro c hc
        rcases List.mem_append.mp hc with hc | hc
        · exact hw c hc
        · exact hf c hc
  · split at h
    · cases h
    · rename_i hne
      simp only [Option.some.injEq, Prod.mk.injEq] at h
      obtain ⟨rfl, rfl, rfl⟩ := h
      exact ⟨w, hcat.symm, w, [], (numeral_iff hb _ _).mpr ⟨by simpa using hne, by simpa using hw, by simp⟩, rfl, .inr ⟨rfl, rfl⟩⟩

theorem mantissa_of {base : Nat} (hb : base = 10 ∨ base = 16) {t r : Bytes} {v k : Nat} (h : Fraction base t v k)
    (hr : ∀ c, r.head? = some c → (digit base c).isSome = false ∧ c ≠ 46) : mantissa base (t ++ r) = some (v, k, r) := by
  obtain ⟨w, f, hn, rfl, ht⟩ := h
  obtain ⟨h1, h2, h3⟩ := (numeral_iff hb _ _).mp hn
  have hpt : (digit base 46).isSome = false := by rcases hb with rfl | rfl <;> decide
  have hw : ∀ c ∈ w, (digit base c).isSome = true := fun c hc => h2 c (by simp [hc])
  have hf : ∀ c ∈ f, (digit base c).isSome = true := fun c hc => h2 c (by simp [hc])
  unfold mantissa
  rcases ht with rfl | ⟨rfl, rfl⟩
  · have e : w ++ b!"." ++ f ++ r = w ++ 46 :: (f ++ r) := by simp
    obtain ⟨a1, a2⟩ := takeDrop_stops (base := base) (w := w) (r := 46 :: (f ++ r)) hw (by intro c hc; simp at hc; subst hc; exact hpt)
    obtain ⟨b1, b2⟩ := takeDrop_stops (base := base) (w := f) (r := r) hf (fun c hc => (hr c hc).1)
    rw [e]
    simp only [a1, a2, b1, b2]
    rw [if_neg h1, h3]
  · obtain ⟨a1, a2⟩ := takeDrop_stops (base := base) (w := t) (r := r) hw (fun c hc => (hr c hc).1)
    simp only [a1, a2]
    simp only [List.append_nil] at h1 h3
    split
    · rename_i r' ; exact absurd rfl (hr 46 rfl).2
    · rw [if_neg h1, h3]; rfl

theorem signOf_split (s : Bytes) : ∃ sign, s = sign ++ (signOf s).2 ∧ ((sign = [] ∨ sign = b!"+") ∧ (signOf s).1 = false ∨ sign = b!"-" ∧ (signOf s).1 = true) := by
  unfold signOf
  split
  · exact ⟨b!"-", rfl, .inr ⟨rfl, rfl⟩⟩
  · exact ⟨b!"+", rfl, .inl ⟨.inr rfl, rfl⟩⟩
  · exact ⟨[], rfl, .inl ⟨.inl rfl, rfl⟩⟩

theorem signOf_of {sign t : Bytes} {neg : Bool} (h : (sign = [] ∨ sign = b!"+") ∧ neg = false ∨ sign = b!"-" ∧ neg = true)
    (ht : ∀ c, t.head? = some c → c ≠ 45 ∧ c ≠ 43) : signOf (sign ++ t) = (neg, t) := by
  rcases h with ⟨rfl | rfl, rfl⟩ | ⟨rfl, rfl⟩
  · unfold signOf
    rw [List.nil_append]
    split
    · exact absurd rfl (ht 45 rfl).1
    · exact absurd rfl (ht 43 rfl).2
    · rfl
  · rfl
  · rfl

theorem exponent_sound {l L : UInt8} (hL : L = l - 32) {s : Bytes} (h : (exponent l s).2 = []) : Exponent l L s (exponent l s).1 := by
  cases s with
  | nil => exact .inl ⟨rfl, rfl⟩
  | cons c r =>
    unfold exponent at h ⊢
    simp only [] at h ⊢
    split at h
    · rename_i hc
      rw [if_pos hc]
      split at h
      · cases h
      · rename_i hne
        rw [if_neg hne]
        obtain ⟨sign, h1, h2⟩ := signOf_split r
        have hall := (dropWhile_nil _).mp h
        refine .inr ⟨c, sign, (signOf r).2, digits 10 (signOf r).2 0, by rw [hL]; exact hc, by rw [← h1], (numeral_iff (.inl rfl) _ _).mpr ⟨?_, hall, rfl⟩, ?_⟩
        · intro h0; rw [h0] at hne; exact hne rfl
        · rcases h2 with ⟨h2, h3⟩ | ⟨h2, h3⟩
          · exact .inl ⟨h2, by rw [h3]; rfl⟩
          · exact .inr ⟨h2, by rw [h3]; rfl⟩
    · cases h

theorem exponent_complete {l L : UInt8} (hL : L = l - 32) {s : Bytes} {e : Int} (h : Exponent l L s e) : exponent l s = (e, []) := by
  rcases h with ⟨rfl, rfl⟩ | ⟨c, sign, ds, k, hc, rfl, hn, hs⟩
  · rfl
  · obtain ⟨h1, h2, h3⟩ := (numeral_iff (.inl rfl) _ _).mp hn
    have hd : ∀ c, ds.head? = some c → c ≠ 45 ∧ c ≠ 43 := by
      intro c hc
      have := digit_plain' (.inl rfl) c (h2 c (List.mem_of_head? hc))
      exact ⟨this.2.1, this.2.2.1⟩
    obtain ⟨a1, a2⟩ := takeDrop_stops (base := 10) (w := ds) (r := []) h2 (by simp)
    rw [List.append_nil] at a1 a2
    unfold exponent
    simp only []
    rw [if_pos (by rw [← hL]; exact hc)]
    rcases hs with ⟨hs, rfl⟩ | ⟨hs, rfl⟩
    · rw [signOf_of (.inl ⟨hs, rfl⟩) hd]
      simp only [a1, a2, h3, if_neg h1]
      simp
    · rw [signOf_of (.inr ⟨hs, rfl⟩) hd]
      simp only [a1, a2, h3, if_neg h1]
      simp

theorem isWord_iff (word t : Bytes) : IsWord word t ↔ t.map toUpperByte = word := by
  unfold IsWord
  have : (fun c : UInt8 => if 97 ≤ c ∧ c ≤ 122 then c - 32 else c) = toUpperByte := by
    funext c; unfold toUpperByte; simp
  rw [this]

theorem beginsWith_all {word s : Bytes} (h : beginsWith word s = true) (hd : s.drop word.length = []) : IsWord word s := by
  unfold beginsWith at h
  simp only [decide_eq_true_eq] at h
  have hl := List.drop_eq_nil_iff.mp hd
  rw [List.take_of_length_le hl] at h
  exact (isWord_iff _ _).mpr h

theorem beginsWith_append {word t r : Bytes} (h : IsWord word t) : beginsWith word (t ++ r) = true ∧ (t ++ r).drop word.length = r := by
  have h1 := (isWord_iff _ _).mp h
  have hl : word.length = t.length := by rw [← h1]; simp
  unfold beginsWith
  rw [hl]
  simp [h1]

/-- A text whose first character is another one does not begin with the word. -/
theorem beginsWith_head {word s : Bytes} {c w : UInt8} (hw : word.head? = some w) (hs : s.head? = some c) (h : toUpperByte c ≠ w) : beginsWith word s = false := by
  cases word with
  | nil => cases hw
  | cons a word =>
    cases s with
    | nil => cases hs
    | cons b s =>
      simp only [List.head?_cons, Option.some.injEq] at hw hs
      subst hw; subst hs
      simp [beginsWith, h]

theorem beginsWith_short {word s : Bytes} (h : s.length < word.length) : beginsWith word s = false := by
  unfold beginsWith
  rw [List.take_of_length_le (by omega)]
  simp only [decide_eq_false_iff_not]
  intro he
  rw [← he] at h
  simp at h

theorem power_iff (neg : Bool) (b v : Nat) (z : Int) : ∃ n d, power neg b v z = .quotient neg n d ∧ Power b v z n d := by
  unfold power Power
  split
  · exact ⟨_, _, rfl, .inl ⟨by assumption, rfl, rfl⟩⟩
  · exact ⟨_, _, rfl, .inr ⟨by omega, rfl, rfl⟩⟩

theorem power_of {b v : Nat} {z : Int} {n d : Nat} (neg : Bool) (h : Power b v z n d) : power neg b v z = .quotient neg n d := by
  unfold power
  rcases h with ⟨h, rfl, rfl⟩ | ⟨h, rfl, rfl⟩
  · rw [if_pos h]
  · rw [if_neg (by omega)]

theorem hexFloat_sound {neg : Bool} {s : Bytes} {v : FloatValue} (h : hexFloat neg s = some (v, [])) : Float neg s v := by
  unfold hexFloat at h
  split at h
  · rename_i x t
    split at h
    · rename_i hx
      obtain ⟨⟨n, k, r⟩, hm, he⟩ := Option.map_eq_some_iff.mp h
      simp only [Prod.mk.injEq] at he
      obtain ⟨t', ht, hf⟩ := mantissa_some (.inr rfl) hm
      obtain ⟨a, b, hp, hq⟩ := power_iff neg 2 n ((exponent 112 r).1 - 4 * k)
      rw [← he.1, hp]
      refine .hexadecimal (m := t') (x := r) ?_ hf (exponent_sound rfl he.2) hq
      rw [← ht]
      rcases hx with rfl | rfl
      · exact .inl rfl
      · exact .inr rfl
    · cases h
  · cases h

theorem floatBody_sound {neg : Bool} {s : Bytes} {v : FloatValue} (h : floatBody neg s = some (v, [])) : Float neg s v := by
  unfold floatBody at h
  split at h
  · rename_i hb
    simp only [Option.some.injEq, Prod.mk.injEq] at h
    rw [← h.1]
    exact .infinite (.inr (beginsWith_all hb h.2))
  · split at h
    · rename_i hb
      simp only [Option.some.injEq, Prod.mk.injEq] at h
      rw [← h.1]
      exact .infinite (.inl (beginsWith_all hb h.2))
    · split at h
      · rename_i hb
        simp only [Option.some.injEq, Prod.mk.injEq] at h
        rw [← h.1]
        have hr := h.2
        have hsplit := List.take_append_drop 3 s
        have hword : s.drop 3 ≠ [] → IsWord (b!"NAN") (s.take 3) := by
          intro hne
          unfold beginsWith at hb
          simp only [decide_eq_true_eq] at hb
          exact (isWord_iff _ _).mpr hb
        unfold nanRest at hr
        split at hr
        · rename_i t ht
          split at hr
          · rename_i u hu
            subst hr
            have hcat := List.takeWhile_append_dropWhile (p := isNanChar) (l := t)
            have hall : ∀ c ∈ t.takeWhile isNanChar, isNanChar c = true := fun c hc => List.all_eq_true.mp (List.all_takeWhile (p := isNanChar) (l := t)) c hc
            have he : s = s.take 3 ++ b!"(" ++ t.takeWhile isNanChar ++ b!")" := by
              conv => lhs; rw [← hsplit, ht, ← hcat, hu]
              simp
            rw [he]
            refine .nanWith (hword (by rw [ht]; simp)) fun c hc => ?_
            have := hall c hc
            unfold isNanChar at this
            simp only [Bool.or_eq_true, Bool.and_eq_true, decide_eq_true_eq, beq_iff_eq] at this
            rcases this with ((h | h) | h) | h
            · exact .inl h
            · exact .inr (.inl h)
            · exact .inr (.inr (.inl h))
            · exact .inr (.inr (.inr h))
          · rw [ht] at hr; cases hr
        · exact .nan (beginsWith_all hb hr)
      · split at h
        · rename_i x hx
          rw [h] at hx
          exact hexFloat_sound hx
        · unfold decimalFloat at h
          obtain ⟨⟨n, k, r⟩, hm, he⟩ := Option.map_eq_some_iff.mp h
          simp only [Prod.mk.injEq] at he
          obtain ⟨t', ht, hf⟩ := mantissa_some (.inl rfl) hm
          obtain ⟨a, b, hp, hq⟩ := power_iff neg 10 n ((exponent 101 r).1 - k)
          rw [← he.1, hp, ht]
          exact .decimal hf (exponent_sound rfl he.2) hq

theorem fraction_char {base : Nat} (hb : base = 10 ∨ base = 16) {t : Bytes} {v k : Nat} (h : Fraction base t v k) :
    t ≠ [] ∧ ∀ c ∈ t, (digit base c).isSome = true ∨ c = 46 := by
  obtain ⟨w, f, hn, _, ht⟩ := h
  obtain ⟨h1, h2, _⟩ := (numeral_iff hb _ _).mp hn
  rcases ht with rfl | ⟨rfl, rfl⟩
  · refine ⟨by simp, fun c hc => ?_⟩
    simp only [List.mem_append] at hc
    rcases hc with (hc | hc) | hc
    · exact .inl (h2 c (by simp [hc]))
    · right; simpa using hc
    · exact .inl (h2 c (by simp [hc]))
  · exact ⟨by simpa using h1, fun c hc => .inl (h2 c (by simp [hc]))⟩

theorem exponent_head {l L : UInt8} {x : Bytes} {e : Int} (h : Exponent l L x e) {c : UInt8} (hc : x.head? = some c) : c = l ∨ c = L := by
  rcases h with ⟨rfl, _⟩ | ⟨c', sign, ds, k, h, rfl, _⟩
  · cases hc
  · simp only [List.head?_cons, Option.some.injEq] at hc
    subst hc; exact h

theorem notWord (c : UInt8) (h : (digit 10 c).isSome = true ∨ c = 46) : toUpperByte c ≠ 73 ∧ toUpperByte c ≠ 78 := by
  revert c
  exact forall_uint8 (by decide +kernel)

theorem notHex (c : UInt8) (h : (digit 10 c).isSome = true ∨ c = 46) : c ≠ 120 ∧ c ≠ 88 := by
  revert c
  exact forall_uint8 (by decide +kernel)

theorem floatBody_complete {neg : Bool} {s : Bytes} {v : FloatValue} (h : Float neg s v) : floatBody neg s = some (v, []) := by
  have number : ∀ c, s.head? = some c → toUpperByte c ≠ 73 → toUpperByte c ≠ 78 →
      floatBody neg s = match hexFloat neg s with | some x => some x | none => decimalFloat neg s := by
    intro c hc h1 h2
    unfold floatBody
    rw [beginsWith_head (word := b!"INFINITY") rfl hc h1, beginsWith_head (word := b!"INF") rfl hc h1, beginsWith_head (word := b!"NAN") rfl hc h2]
    rfl
  cases h with
  | @decimal m x v k n d e hf hx hp =>
    obtain ⟨hne, hall⟩ := fraction_char (.inl rfl) hf
    obtain ⟨c, m', rfl⟩ := List.exists_cons_of_ne_nil hne
    have hw := notWord c (hall c (by simp))
    rw [number c rfl hw.1 hw.2]
    have hhex : hexFloat neg (c :: m' ++ x) = none := by
      unfold hexFloat
      split
      · rename_i y t he
        rw [if_neg]
        have hy : (m' ++ x).head? = some y := by
          simp only [List.cons_append, List.cons.injEq] at he
          rw [he.2]; rfl
        cases m' with
        | nil =>
          rcases exponent_head hx hy with rfl | rfl <;> decide
        | cons a m' =>
          simp only [List.cons_append, List.head?_cons, Option.some.injEq] at hy
          subst hy
          have := notHex a (hall a (by simp))
          simp [this]
      · rfl
    rw [hhex]
    simp only []
    unfold decimalFloat
    rw [mantissa_of (.inl rfl) hf (by
      intro c hc
      rcases exponent_head hx hc with rfl | rfl <;> decide)]
    simp only [Option.map_some]
    rw [exponent_complete rfl hx, power_of neg hp]
  | @hexadecimal _ m x v k n d e hm hf hx hp =>
    obtain ⟨t, y, rfl, hy, rfl⟩ : ∃ t y, s = 48 :: y :: t ∧ (y = 120 ∨ y = 88) ∧ t = m ++ x := by
      rcases hm with rfl | rfl
      · exact ⟨_, 120, rfl, .inl rfl, rfl⟩
      · exact ⟨_, 88, rfl, .inr rfl, rfl⟩
    rw [number 48 rfl (by decide) (by decide)]
    have : hexFloat neg (48 :: y :: (m ++ x)) = some (.quotient neg n d, []) := by
      unfold hexFloat
      simp only []
      rw [if_pos hy, mantissa_of (.inr rfl) hf (by
        intro c hc
        rcases exponent_head hx hc with rfl | rfl <;> decide)]
      simp only [Option.map_some]
      rw [exponent_complete rfl hx, power_of neg hp]
    rw [this]
  | infinite hw =>
    rcases hw with hw | hw
    · have hb := beginsWith_append (r := []) hw
      rw [List.append_nil] at hb
      have hl : s.length = 3 := by rw [← List.length_map (f := toUpperByte), (isWord_iff _ _).mp hw]; rfl
      unfold floatBody
      rw [beginsWith_short (word := b!"INFINITY") (by rw [hl]; decide), hb.1]
      simp only [Bool.false_eq_true, if_false, if_true]
      rw [← hb.2]; rfl
    · have hb := beginsWith_append (r := []) hw
      rw [List.append_nil] at hb
      unfold floatBody
      rw [hb.1]
      simp only [if_true]
      rw [← hb.2]; rfl
  | nan hw =>
    have hb := beginsWith_append (r := []) hw
    rw [List.append_nil] at hb
    have hup := (isWord_iff _ _).mp hw
    obtain ⟨c, s', rfl⟩ : ∃ c s', s = c :: s' := List.exists_cons_of_ne_nil (by rintro rfl; cases hup)
    have hc : toUpperByte c ≠ 73 := by
      simp only [List.map_cons] at hup
      rw [(List.cons.inj hup).1]; decide
    unfold floatBody
    rw [beginsWith_head (word := b!"INFINITY") rfl rfl hc, beginsWith_head (word := b!"INF") rfl rfl hc, hb.1]
    have h3 : (c :: s').drop 3 = [] := hb.2
    rw [h3]
    rfl
  | @nanWith t a hw ha =>
    have hb := beginsWith_append (r := b!"(" ++ a ++ b!")") hw
    rw [← List.append_assoc, ← List.append_assoc] at hb
    have hup := (isWord_iff _ _).mp hw
    obtain ⟨c, s', rfl⟩ : ∃ c s', t = c :: s' := List.exists_cons_of_ne_nil (by rintro rfl; cases hup)
    have hc : toUpperByte c ≠ 73 := by
      simp only [List.map_cons] at hup
      rw [(List.cons.inj hup).1]; decide
    unfold floatBody
    rw [beginsWith_head (word := b!"INFINITY") rfl rfl hc, beginsWith_head (word := b!"INF") rfl rfl hc, hb.1]
    have h3 : (c :: s' ++ b!"(" ++ a ++ b!")").drop 3 = b!"(" ++ a ++ b!")" := hb.2
    rw [h3]
    have hd : (a ++ b!")").dropWhile isNanChar = b!")" := by
      refine dropWhile_append_stops (fun c hc => ?_) (stops_cons (by decide))
      have := ha c hc
      unfold isNanChar
      simp only [Bool.or_eq_true, Bool.and_eq_true, decide_eq_true_eq, beq_iff_eq]
      rcases this with h | h | h | h
      · exact .inl (.inl (.inl h))
      · exact .inl (.inl (.inr h))
      · exact .inl (.inr h)
      · exact .inr h
    have : nanRest (b!"(" ++ a ++ b!")") = [] := by
      show nanRest (40 :: (a ++ b!")")) = []
      unfold nanRest
      simp only [hd]
    rw [this]
    rfl

theorem float_head {neg : Bool} {s : Bytes} {v : FloatValue} (h : Float neg s v) : ∃ c, s.head? = some c ∧ isSpace c = false ∧ c ≠ 45 ∧ c ≠ 43 := by
  have word : ∀ (w : UInt8) (c : UInt8), (w = 73 ∨ w = 78) → toUpperByte c = w → isSpace c = false ∧ c ≠ 45 ∧ c ≠ 43 := by
    intro w c hw
    rcases hw with rfl | rfl
    · revert c; exact forall_uint8 (by decide +kernel)
    · revert c; exact forall_uint8 (by decide +kernel)
  have first : ∀ (w : UInt8) (ws t r : Bytes), (w = 73 ∨ w = 78) → IsWord (w :: ws) t → ∃ c, (t ++ r).head? = some c ∧ isSpace c = false ∧ c ≠ 45 ∧ c ≠ 43 := by
    intro w ws t r hw ht
    have hup := (isWord_iff _ _).mp ht
    obtain ⟨c, t', rfl⟩ : ∃ c t', t = c :: t' := List.exists_cons_of_ne_nil (by rintro rfl; cases hup)
    simp only [List.map_cons] at hup
    exact ⟨c, rfl, word w c hw (List.cons.inj hup).1⟩
  cases h with
  | @decimal m x v k n d e hf hx hp =>
    obtain ⟨hne, hall⟩ := fraction_char (.inl rfl) hf
    obtain ⟨c, m', rfl⟩ := List.exists_cons_of_ne_nil hne
    refine ⟨c, rfl, ?_⟩
    have : ∀ c : UInt8, (digit 10 c).isSome = true ∨ c = 46 → isSpace c = false ∧ c ≠ 45 ∧ c ≠ 43 := forall_uint8 (by decide +kernel)
    exact this c (hall c (by simp))
  | hexadecimal hm _ _ _ =>
    rcases hm with rfl | rfl <;> exact ⟨48, rfl, by decide⟩
  | infinite hw =>
    rcases hw with hw | hw
    · have := first 73 _ _ [] (.inl rfl) hw; rwa [List.append_nil] at this
    · have := first 73 _ _ [] (.inl rfl) hw; rwa [List.append_nil] at this
  | nan hw => have := first 78 _ _ [] (.inr rfl) hw; rwa [List.append_nil] at this
  | @nanWith t a hw _ =>
    have := first 78 _ _ (b!"(" ++ a ++ b!")") (.inr rfl) hw
    rwa [← List.append_assoc, ← List.append_assoc] at this

/-- `strtod` takes the whole text for the texts of the specification and no others. -/
theorem readFloat_iff {s : Bytes} (h0 : s ≠ []) (hl : s.length ≤ 63) (v : FloatValue) : readFloat s = (v, []) ↔ FloatText s v := by
  constructor
  · intro h
    refine ⟨hl, ?_⟩
    have hsp : ∀ c ∈ s.takeWhile isSpace, c ∈ ([9, 10, 11, 12, 13, 32] : Bytes) := fun c hc =>
      (space_iff c).mp (List.all_eq_true.mp (List.all_takeWhile (p := isSpace) (l := s)) c hc)
    have hcat := List.takeWhile_append_dropWhile (p := isSpace) (l := s)
    obtain ⟨sign, h1, h2⟩ := signOf_split (s.dropWhile isSpace)
    unfold readFloat at h
    split at h
    · rename_i x hx
      subst h
      refine ⟨_, sign, _, _, ?_, hsp, h2, floatBody_sound hx⟩
      rw [List.append_assoc, ← h1, hcat]
    · simp only [Prod.mk.injEq] at h
      exact absurd h.2 h0
  · rintro ⟨_, sp, sign, body, neg, rfl, hsp, hs, hb⟩
    obtain ⟨c, hc, c1, c2, c3⟩ := float_head hb
    have hd : (sp ++ sign ++ body).dropWhile isSpace = sign ++ body := by
      rw [List.append_assoc, dropBlank sp]
      · intro c hc
        exact (blank_space c).mp ((space_iff c).mpr (hsp c hc))
      · intro c' hc'
        rcases hs with ⟨rfl | rfl, _⟩ | ⟨rfl, _⟩
        · rw [List.nil_append, hc] at hc'; cases hc'; exact c1
        · simp at hc'; subst hc'; decide
        · simp at hc'; subst hc'; decide
    unfold readFloat
    rw [hd, signOf_of hs (by intro c' hc'; rw [hc] at hc'; cases hc'; exact ⟨c2, c3⟩)]
    simp only [floatBody_complete hb]

theorem floatText_ne_nil {v : FloatValue} : ¬ FloatText [] v := by
  rintro ⟨_, sp, sign, body, neg, h, _, _, hb⟩
  obtain ⟨c, hc, _⟩ := float_head hb
  have h : sp ++ sign ++ body = [] := h.symm
  simp at h
  rw [h.2.2] at hc; cases hc

theorem float_den {neg : Bool} {s : Bytes} {b : Bool} {n d : Nat} (h : Float neg s (.quotient b n d)) : 0 < d := by
  have : ∀ {b v : Nat} {z : Int}, 0 < b → Power b v z n d → 0 < d := by
    intro b v z hb h
    rcases h with ⟨_, _, rfl⟩ | ⟨_, _, rfl⟩
    · decide
    · exact Nat.pow_pos hb
  cases h with
  | decimal _ _ h => exact this (by decide) h
  | hexadecimal _ _ _ h => exact this (by decide) h

theorem rounded_ok {s : Bytes} {v : FloatValue} (h : FloatText s v) : Rounded v v.rounded := by
  obtain ⟨_, _, _, _, _, _, _, _, hb⟩ := h
  cases v with
  | quotient neg n d => exact roundFloat_rounded neg n d (float_den hb)
  | infinite neg => exact .infinite
  | nan neg => exact .nan

theorem toDouble_iff (s : Bytes) (dflt : Double) :
    (∀ v, FloatText s v → toDouble (some s) dflt = v.rounded) ∧ ((¬ ∃ v, FloatText s v) → toDouble (some s) dflt = dflt) := by
  cases s with
  | nil => exact ⟨fun v h => absurd h floatText_ne_nil, fun _ => rfl⟩
  | cons c s =>
    unfold toDouble
    simp only []
    by_cases hl : (c :: s).length + 1 > 64
    · rw [if_pos hl]
      exact ⟨fun v h => absurd h.1 (by omega), fun _ => rfl⟩
    · rw [if_neg hl]
      have hiff := fun v => readFloat_iff (s := c :: s) (by simp) (by omega) v
      refine ⟨fun v h => ?_, fun h => ?_⟩
      · rw [(hiff v).mpr h]; simp
      · rw [if_neg]
        intro h2
        exact h ⟨(readFloat (c :: s)).1, (hiff _).mp (by rw [← h2])⟩

end IniStore

/-- C76. `GetDoubleValue` gives the `double` nearest to the number that the value of the key says; the default if there is no such key or its
    value is not a number. -/
theorem C76_get_double (o : Options) (h : List Change) (s k : Bytes) (dflt : Double) :
    (∀ t v, (valuesOf o.multiKey s k h).head? = some t → FloatText t v → Rounded v (getDoubleValue o (run o h) s k dflt))
    ∧ ((¬ ∃ t v, (valuesOf o.multiKey s k h).head? = some t ∧ FloatText t v) → getDoubleValue o (run o h) s k dflt = dflt) := by
  unfold getDoubleValue
  rw [C74_value]
  simp only []
  cases hv : (valuesOf o.multiKey s k h).head? with
  | none => exact ⟨fun v z h => (nomatch h), fun _ => rfl⟩
  | some t =>
    refine ⟨fun t' v he hz => ?_, fun hn => ?_⟩
    · cases he; rw [(toDouble_iff t dflt).1 v hz]; exact rounded_ok hz
    · exact (toDouble_iff t dflt).2 (fun ⟨z, hz⟩ => hn ⟨t, z, rfl, hz⟩)

end Licensecc
