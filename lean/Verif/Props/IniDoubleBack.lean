import Verif.Props.IniDouble
/-!
# C76: what comes back of a number with a fraction

What `GetDoubleValue` gives after `SetDoubleValue`: six digits behind the point are kept.
-/
namespace Licensecc
open Ini hiding getValue getAllKeys getSectionSize setKey load
open IniStore Spec.IniStore Spec.IniNumber

namespace IniStore

/-- A quotient less than a half away from a whole number is rounded to it. -/
theorem roundDiv_unique {n d q : Nat} (hd : 0 < d) (h1 : 2 * n < 2 * (q * d) + d) (h2 : 2 * (q * d) < 2 * n + d) : roundDiv n d = q := by
  obtain ⟨a, b⟩ := roundDiv_near n d hd
  generalize roundDiv n d = p at *
  rcases Nat.lt_trichotomy p q with h | h | h
  · have : p * d + d ≤ q * d := by rw [← Nat.succ_mul]; exact Nat.mul_le_mul_right _ h
    omega
  · exact h
  · have : q * d + d ≤ p * d := by rw [← Nat.succ_mul]; exact Nat.mul_le_mul_right _ h
    omega

theorem roundDiv_mul (n d c : Nat) (hc : 0 < c) : roundDiv (n * c) (d * c) = roundDiv n d := by
  unfold roundDiv
  rw [Nat.mul_mod_mul_right, Nat.mul_div_mul_right _ _ hc]
  have e1 : d * c < 2 * (n % d * c) ↔ d < 2 * (n % d) := by rw [← Nat.mul_assoc]; exact Nat.mul_lt_mul_right hc
  have e2 : d * c = 2 * (n % d * c) ↔ d = 2 * (n % d) := by rw [← Nat.mul_assoc]; exact Nat.mul_left_inj (by omega)
  simp only [e1, e2]

theorem units_split {e : Int} (he : -1074 ≤ e) (h0 : e < 0) : units = 2 ^ (-e).toNat * 2 ^ (e + 1074).toNat := by
  unfold units
  rw [← Nat.pow_add]
  congr 1
  omega

/-- Millionths, by the size of the number alone. -/
theorem millionths_size (m : Nat) {e : Int} (he : -1074 ≤ e) : millionths m e = roundDiv (size m e * 10 ^ 6) units := by
  unfold millionths size
  by_cases h : 0 ≤ e
  · rw [if_pos h]
    have hu : 2 ^ (e + 1074).toNat = 2 ^ e.toNat * units := by
      unfold units
      rw [← Nat.pow_add]; congr 1; omega
    rw [hu]
    have hp := units_pos
    generalize units = U at *
    have e1 : m * (2 ^ e.toNat * U) * 10 ^ 6 = m * 2 ^ e.toNat * 10 ^ 6 * U := by ac_rfl
    rw [e1]
    exact (roundDiv_unique hp (by omega) (by omega)).symm
  · rw [if_neg h]
    have hu := units_split he (by omega)
    generalize units = U at *
    have hp : 0 < 2 ^ (e + 1074).toNat := Nat.pow_pos (by decide)
    rw [hu]
    generalize 2 ^ (e + 1074).toNat = c at *
    rw [show m * c * 10 ^ 6 = m * 10 ^ 6 * c by ac_rfl, roundDiv_mul _ _ _ hp]

theorem digits_from (base : Nat) (t : Bytes) (ht : ∀ c ∈ t, (digit base c).isSome = true) : ∀ v, digits base t v = v * base ^ t.length + digits base t 0 := by
  induction t with
  | nil => intro v; simp [digits]
  | cons c t ih =>
    intro v
    obtain ⟨n, hn⟩ := Option.isSome_iff_exists.mp (ht c (by simp))
    have ih := ih (fun c hc => ht c (by simp [hc]))
    rw [digits, digits, hn]
    simp only []
    rw [ih, ih (0 * base + n), List.length_cons, Nat.pow_succ]
    grind

theorem size_lt {m : Nat} {e : Int} (h : (Double.finite false m e).Ok) : size m e < 2 ^ 53 * 2 ^ 2045 := by
  obtain ⟨h1, h2, h3⟩ := h
  unfold size
  calc m * 2 ^ (e + 1074).toNat < 2 ^ 53 * 2 ^ (e + 1074).toNat := Nat.mul_lt_mul_of_pos_right h1 (Nat.pow_pos (by decide))
    _ ≤ 2 ^ 53 * 2 ^ 2045 := Nat.mul_le_mul_left _ (Nat.pow_le_pow_right (by decide) (by omega))

theorem millionths_big {m : Nat} {e : Int} (hx : (Double.finite false m e).Ok) : millionths m e / 10 ^ 6 < 10 ^ 320 := by
  obtain ⟨hm, he1, he2⟩ := hx
  by_cases he : e < 0
  · have := millionths_small hm he
    have : 10 ^ 16 < 10 ^ 320 := Nat.pow_lt_pow_right (by decide) (by decide)
    generalize 10 ^ 320 = z at *
    omega
  · have h1 : 2 ^ e.toNat ≤ 2 ^ 971 := Nat.pow_le_pow_right (by decide) (by omega)
    have h2 : m * 2 ^ e.toNat ≤ 2 ^ 53 * 2 ^ 971 := Nat.mul_le_mul (by omega) h1
    rw [millionths_whole m (by omega)]
    have : 2 ^ 53 * 2 ^ 971 < 10 ^ 320 := by
      rw [← Nat.pow_add]
      calc 2 ^ (53 + 971) ≤ 2 ^ (3 * 320 + 64) := Nat.pow_le_pow_right (by decide) (by decide)
        _ = 2 ^ (3 * 320) * 2 ^ 64 := by rw [Nat.pow_add]
        _ < 10 ^ 320 := by decide +kernel
    exact Nat.lt_of_le_of_lt h2 this

/-- What `SetDoubleValue` writes says the number of millionths. -/
theorem doubleText_says {neg : Bool} {m : Nat} {e : Int} (hx : (Double.finite false m e).Ok) (hl : (doubleText (.finite neg m e)).length < 64) :
    FloatText (doubleText (.finite neg m e)) (.quotient neg (millionths m e) (10 ^ 6)) := by
  refine ⟨by omega, [], if neg then b!"-" else [], (revDigits 10 320 (millionths m e / 10 ^ 6)).reverse ++ b!"." ++ sixDigits (millionths m e % 10 ^ 6), neg,
    ?_, by simp, ?_, ?_⟩
  · rw [doubleText, List.nil_append]
    simp only [List.append_assoc]
  · cases neg <;> simp
  · obtain ⟨d1, d2, d3, _⟩ := digits_revDigits 10 (.inl rfl) 320 (millionths m e / 10 ^ 6) (millionths_big hx) (by decide)
    obtain ⟨n1, n2, n3⟩ := (numeral_iff (.inl rfl) _ _).mp (sixDigits_numeral (millionths m e % 10 ^ 6) (Nat.mod_lt _ (by decide)))
    generalize (revDigits 10 320 (millionths m e / 10 ^ 6)).reverse = w at *
    have hlen : (sixDigits (millionths m e % 10 ^ 6)).length = 6 := rfl
    generalize sixDigits (millionths m e % 10 ^ 6) = f at *
    have hnum : Numeral 10 (w ++ f) (millionths m e) := by
      refine (numeral_iff (.inl rfl) _ _).mpr ⟨by simp [d3], ?_, ?_⟩
      · intro c hc
        rcases List.mem_append.mp hc with hc | hc
        · exact d1 c hc
        · exact n2 c hc
      · rw [digits_append 10 w f d1, digits_from 10 f n2, d2, n3, hlen, Nat.mul_comm]
        exact Nat.div_add_mod _ _
    have := Float.decimal (neg := neg) (x := []) (e := 0) (n := millionths m e) (d := 10 ^ 6) ⟨w, f, hnum, hlen, .inl rfl⟩ (.inl ⟨rfl, rfl⟩)
      (.inr ⟨by decide, rfl, rfl⟩)
    rwa [List.append_nil] at this

theorem near_quotient (n d : Nat) (hd : 0 < d) : ∃ q, 2 * (q * d) ≤ 2 * n + d ∧ 2 * n ≤ 2 * (q * d) + d := ⟨_, roundDiv_near n d hd⟩

/-- Above `2 ^ 52 * 2 ^ k`, numbers with 53 bits are multiples of `2 ^ k`. -/
theorem multiple {m j k : Nat} (hm : m < 2 ^ 53) (h : 2 ^ 52 * 2 ^ k ≤ m * 2 ^ j) : ∃ a, m * 2 ^ j = a * 2 ^ k := by
  by_cases hj : k ≤ j
  · obtain ⟨i, rfl⟩ := Nat.exists_eq_add_of_le hj
    exact ⟨m * 2 ^ i, by rw [Nat.pow_add]; ac_rfl⟩
  · exfalso
    have h1 : m * 2 ^ j < 2 ^ 53 * 2 ^ j := Nat.mul_lt_mul_of_pos_right hm (Nat.pow_pos (by decide))
    have h2 : 2 ^ 53 * 2 ^ j ≤ 2 ^ 52 * 2 ^ k := by
      rw [← Nat.pow_add, ← Nat.pow_add]
      exact Nat.pow_le_pow_right (by decide) (by omega)
    omega

theorem fine_unique {M q P U S : Nat} (hP : 0 < P) (hu : U = P * 2 ^ 20) (q1 : 2 * (q * 10 ^ 6) ≤ 2 * (M * 2 ^ 20) + 10 ^ 6)
    (q2 : 2 * (M * 2 ^ 20) ≤ 2 * (q * 10 ^ 6) + 10 ^ 6) (h : dist (M * U) (10 ^ 6) S ≤ dist (M * U) (10 ^ 6) (q * P)) : roundDiv (S * 10 ^ 6) U = M := by
  unfold dist at h
  have e1 : M * U = M * 2 ^ 20 * P := by rw [hu]; ac_rfl
  have e2 : q * P * 10 ^ 6 = q * 10 ^ 6 * P := by ac_rfl
  have r1 : 2 * (q * 10 ^ 6 * P) ≤ 2 * (M * 2 ^ 20 * P) + 10 ^ 6 * P := by
    have := Nat.mul_le_mul_right P q1
    rw [Nat.add_mul, Nat.mul_assoc, Nat.mul_assoc 2] at this
    exact this
  have r2 : 2 * (M * 2 ^ 20 * P) ≤ 2 * (q * 10 ^ 6 * P) + 10 ^ 6 * P := by
    have := Nat.mul_le_mul_right P q2
    rw [Nat.add_mul, Nat.mul_assoc, Nat.mul_assoc 2] at this
    exact this
  rw [e2, e1] at h
  have key : ∀ A B : Nat, 2 * A ≤ 2 * B + 10 ^ 6 * P → 2 * B ≤ 2 * A + 10 ^ 6 * P →
      ((S * 10 ^ 6 : Nat) - (B : Nat) : Int).natAbs ≤ ((A : Nat) - (B : Nat) : Int).natAbs → 2 * (S * 10 ^ 6) < 2 * B + U ∧ 2 * B < 2 * (S * 10 ^ 6) + U := by
    intro A B h1 h2 h3
    omega
  obtain ⟨k1, k2⟩ := key _ _ r1 r2 h
  refine roundDiv_unique (by omega) ?_ ?_
  · rw [e1]; exact k1
  · rw [e1]; exact k2

section
variable {m m' : Nat} {e e' : Int}

theorem back_near (hx : (Double.finite false m e).Ok) (hn : Nearest (millionths m e) (10 ^ 6) m' e') :
    ((size m' e' : Int) - size m e).natAbs * 10 ^ 6 ≤ units := by
  have h := (hn.2.2 m e hx).1
  rw [away_eq, away_eq] at h
  obtain ⟨a, b⟩ := roundDiv_near (size m e * 10 ^ 6) units units_pos
  rw [← millionths_size m hx.2.1] at a b
  unfold dist at h
  generalize millionths m e * units = N at *
  generalize units = U at *
  generalize size m e = S at *
  generalize size m' e' = S' at *
  omega

theorem back_whole (hx : (Double.finite false m e).Ok) (hn : Nearest (millionths m e) (10 ^ 6) m' e') (hw : units ∣ size m e * 10 ^ 6) :
    size m' e' = size m e := by
  have h := (hn.2.2 m e hx).1
  rw [away_eq, away_eq] at h
  obtain ⟨q, hq⟩ := hw
  have hM : millionths m e = q := by
    rw [millionths_size m hx.2.1, hq]
    have hp := units_pos
    rw [Nat.mul_comm]
    exact roundDiv_unique hp (by omega) (by omega)
  rw [hM] at h
  unfold dist at h
  rw [Nat.mul_comm] at hq
  have e1 : q * units = units * q := Nat.mul_comm _ _
  rw [e1] at h
  generalize units * q = N at *
  generalize size m e = S at *
  generalize size m' e' = S' at *
  omega

theorem units_fine : units = 2 ^ 1055 * 2 ^ 19 := by unfold units; rw [← Nat.pow_add]
theorem units_finer : units = 2 ^ 1054 * 2 ^ 20 := by unfold units; rw [← Nat.pow_add]

theorem back_large (hx : (Double.finite false m e).Ok) (hn : Nearest (millionths m e) (10 ^ 6) m' e') (hw : 2 ^ 33 * units ≤ size m e) :
    size m' e' = size m e := by
  have hd := back_near hx hn
  have hwhole := back_whole hx hn
  have hm := fun a => multiple (k := 1055) (j := (e + 1074).toNat) hx.1 a
  have hm' := fun a => multiple (k := 1055) (j := (e' + 1074).toNat) hn.1.1 a
  have hu := units_fine
  unfold size at *
  have hQ : 0 < 2 ^ 1055 := Nat.pow_pos (by decide)
  generalize 2 ^ 1055 = Q at *
  generalize units = U at *
  generalize m * 2 ^ (e + 1074).toNat = S at *
  generalize m' * 2 ^ (e' + 1074).toNat = S' at *
  obtain ⟨a, rfl⟩ := hm (by omega)
  by_cases ha : a = 2 ^ 52
  · exact hwhole ⟨2 ^ 33 * 10 ^ 6, by subst ha; omega⟩
  · have h1 : 2 ^ 52 ≤ a := by
      refine Nat.le_of_not_lt fun h => ?_
      have : a * Q + Q ≤ 2 ^ 52 * Q := by rw [← Nat.succ_mul]; exact Nat.mul_le_mul_right _ h
      omega
    have h2 : (2 ^ 52 + 1) * Q ≤ a * Q := Nat.mul_le_mul_right _ (by omega)
    obtain ⟨b, rfl⟩ := hm' (by omega)
    rcases Nat.lt_trichotomy a b with h | h | h
    · have : a * Q + Q ≤ b * Q := by rw [← Nat.succ_mul]; exact Nat.mul_le_mul_right _ h
      omega
    · rw [h]
    · have : b * Q + Q ≤ a * Q := by rw [← Nat.succ_mul]; exact Nat.mul_le_mul_right _ h
      omega

theorem back_text (hx : (Double.finite false m e).Ok) (hn : Nearest (millionths m e) (10 ^ 6) m' e') : millionths m' e' = millionths m e := by
  by_cases hl : 2 ^ 33 * units ≤ size m e
  · rw [millionths_size m hx.2.1, millionths_size m' hn.1.2.1, back_large hx hn hl]
  · rw [millionths_size m' hn.1.2.1]
    have hM : millionths m e ≤ 2 ^ 33 * 10 ^ 6 := by
      have hp := units_pos
      obtain ⟨a, _⟩ := roundDiv_near (size m e * 10 ^ 6) units units_pos
      rw [← millionths_size m hx.2.1] at a
      refine Nat.le_of_not_lt fun h => ?_
      have : (2 ^ 33 * 10 ^ 6 + 1) * units ≤ millionths m e * units := Nat.mul_le_mul_right _ h
      generalize millionths m e * units = N at *
      generalize size m e = S at *
      generalize units = U at *
      omega
    have hu := units_finer
    have hP : 0 < 2 ^ 1054 := Nat.pow_pos (by decide)
    obtain ⟨q, q1, q2⟩ := near_quotient (millionths m e * 2 ^ 20) (10 ^ 6) (by decide)
    have hc : ∃ mc ec, (Double.finite false mc ec).Ok ∧ size mc ec = q * 2 ^ 1054 := by
      by_cases h : q < 2 ^ 53
      · exact ⟨q, -20, ⟨h, by decide, by decide⟩, by unfold size; rw [show ((-20 : Int) + 1074).toNat = 1054 by decide]⟩
      · have : q = 2 ^ 53 := by omega
        subst this
        refine ⟨2 ^ 52, -19, ⟨by decide, by decide, by decide⟩, ?_⟩
        unfold size
        rw [show ((-19 : Int) + 1074).toNat = 1055 by decide, ← Nat.pow_add, ← Nat.pow_add]
    obtain ⟨mc, ec, hok, hs⟩ := hc
    have h := (hn.2.2 mc ec hok).1
    rw [away_eq, away_eq, hs] at h
    exact fine_unique hP hu q1 q2 h

end

theorem limit_form : 2 ^ 1024 - 2 ^ 970 = (2 ^ 54 - 1) * 2 ^ 970 := by
  have : 2 ^ 1024 = 2 ^ 54 * 2 ^ 970 := by rw [← Nat.pow_add]
  rw [this, Nat.sub_mul, Nat.one_mul]

theorem millionths_finite {m : Nat} {e : Int} (hx : (Double.finite false m e).Ok) : millionths m e < 10 ^ 6 * (2 ^ 1024 - 2 ^ 970) := by
  obtain ⟨hm, he1, he2⟩ := hx
  rw [limit_form]
  by_cases he : e < 0
  · have h1 := millionths_small hm he
    have h2 : 2 ^ 10 ≤ 2 ^ 970 := Nat.pow_le_pow_right (by decide) (by decide)
    generalize 2 ^ 970 = V at *
    omega
  · have h1 : 2 ^ e.toNat ≤ 2 ^ (1 + 970) := Nat.pow_le_pow_right (by decide) (by omega)
    rw [Nat.pow_add] at h1
    have h2 : m * 2 ^ e.toNat ≤ (2 ^ 53 - 1) * (2 ^ 1 * 2 ^ 970) := Nat.mul_le_mul (by omega) h1
    have h3 : 0 < 2 ^ 970 := Nat.pow_pos (by decide)
    unfold millionths
    rw [if_pos (by omega)]
    generalize m * 2 ^ e.toNat = n at *
    generalize 2 ^ 970 = V at *
    omega

end IniStore

/-- C76. A number that was set comes back with its sign, changed by one millionth at most; unchanged if it is a whole number of millionths or not
    less than `2 ^ 33`. Set again, what came back makes the same text. Infinity and NaN come back as they were. -/
theorem C76_double_back (o : Options) (h : List Change) (s k : Bytes) (c : Option Bytes) (dflt x : Double) (hx : x.Ok) {r : Bool × Store}
    (hr : setDoubleValue o s k x c true (run o h) = .ok r) :
    (∀ neg m e, x = .finite neg m e → ∃ m' e', getDoubleValue o r.2 s k dflt = .finite neg m' e' ∧ (Double.finite neg m' e').Ok
      ∧ ((size m' e' : Int) - size m e).natAbs * 1000000 ≤ 2 ^ 1074
      ∧ (2 ^ 1074 ∣ size m e * 1000000 ∨ 2 ^ 33 * 2 ^ 1074 ≤ size m e → size m' e' = size m e))
    ∧ ((¬ ∃ neg m e, x = .finite neg m e) → getDoubleValue o r.2 s k dflt = x)
    ∧ ∃ r', setDoubleValue o s k (getDoubleValue o r.2 s k dflt) c true r.2 = .ok r' ∧ (getValue o r'.2 s k).1 = (getValue o r.2 s k).1 := by
  have hU : (2 : Nat) ^ 1074 = units := by unfold units; with_reducible rfl
  have hK : (1000000 : Nat) = 10 ^ 6 := by decide
  rw [hU, hK]
  have hcs := sameCI_iff.mpr (sameName_refl s)
  have hck := sameCI_iff.mpr (sameName_refl k)
  unfold setDoubleValue at hr
  split at hr
  · rename_i hl
    cases hr
    have hv : getValue o (addEntry o s (some (k, doubleText x)) c true (run o h)).2 s k = (some (doubleText x), false) :=
      C74_set_get o h (c := c) hcs hck (force := true) (.inr rfl)
    have again : ∀ y, doubleText y = doubleText x → ∃ r', setDoubleValue o s k y c true (addEntry o s (some (k, doubleText x)) c true (run o h)).2 = .ok r'
        ∧ (getValue o r'.2 s k).1 = (getValue o (addEntry o s (some (k, doubleText x)) c true (run o h)).2 s k).1 := by
      intro y hy
      unfold setDoubleValue
      rw [hy, if_pos hl]
      refine ⟨_, rfl, ?_⟩
      rw [hv]
      exact congrArg Prod.fst (C74_set_get o (.set s k (doubleText x) c true :: h) (v := doubleText x) (c := c) hcs hck (force := true) (.inr rfl))
    have hget : getDoubleValue o (addEntry o s (some (k, doubleText x)) c true (run o h)).2 s k dflt = toDouble (some (doubleText x)) dflt := by
      unfold getDoubleValue
      rw [hv]
    rw [hget]
    cases x with
    | infinite neg =>
      have : toDouble (some (doubleText (.infinite neg))) dflt = .infinite neg := by cases neg <;> rfl
      rw [this]
      exact ⟨fun _ _ _ h => (nomatch h), fun _ => rfl, again _ rfl⟩
    | nan neg =>
      have : toDouble (some (doubleText (.nan neg))) dflt = .nan neg := by cases neg <;> rfl
      rw [this]
      exact ⟨fun _ _ _ h => (nomatch h), fun _ => rfl, again _ rfl⟩
    | finite neg m e =>
      have hx' : (Double.finite false m e).Ok := hx
      have ht := doubleText_says (neg := neg) hx' hl
      have hy := rounded_ok ht
      rw [(toDouble_iff _ dflt).1 _ ht]
      generalize (FloatValue.quotient neg (millionths m e) (10 ^ 6)).rounded = y at *
      cases hy with
      | large h2 => exact absurd (millionths_finite hx') (by omega)
      | @finite _ _ _ m' e' _ hn =>
        refine ⟨fun neg' m1 e1 he => ?_, fun hno => absurd ⟨_, _, _, rfl⟩ hno, again _ ?_⟩
        · cases he
          refine ⟨m', e', rfl, hn.1, back_near hx' hn, ?_⟩
          rintro (hw | hw)
          · exact back_whole hx' hn hw
          · exact back_large hx' hn hw
        · simp only [doubleText]
          rw [back_text hx' hn]
  · cases hr

/-! ## Examples -/

example : toDouble (some b!"0.1") (.nan false) = .finite false 7205759403792794 (-56) := by decide +kernel
example : toDouble (some b!" -12.5") (.nan false) = .finite true (25 * 2 ^ 48) (-49) := by decide +kernel
example : toDouble (some b!"0x1.8p+3") (.nan false) = .finite false (3 * 2 ^ 51) (-49) := by decide +kernel
example : toDouble (some b!"1e22") (.nan false) = .finite false 4768371582031250 21 := by decide +kernel
example : toDouble (some b!"4.9e-324") (.nan false) = .finite false 1 (-1074) := by decide +kernel
example : toDouble (some b!"1e400") (.nan false) = .infinite false := by decide +kernel
example : toDouble (some b!"-InF") (.nan false) = .infinite true := by decide +kernel
example : toDouble (some b!"-Nan(a_1)") (.infinite false) = .nan true := by decide +kernel
example : toDouble (some b!"1e") (.nan false) = .nan false ∧ toDouble (some b!".") (.nan false) = .nan false
    ∧ toDouble (some b!"0x") (.nan false) = .nan false ∧ toDouble (some b!"1 ") (.nan false) = .nan false := by decide +kernel
/-- The text ` -12.5` says -125 / 10. -/
example : FloatText b!" -12.5" (.quotient true 125 (10 ^ 1)) :=
  ⟨by decide, b!" ", b!"-", b!"12.5", true, rfl, by decide, .inr ⟨rfl, rfl⟩,
    .decimal (m := b!"12.5") (x := []) (v := 125) (k := 1) (e := 0) ⟨b!"12", b!"5", (numeral_iff (.inl rfl) _ _).mpr (by decide), rfl, .inl rfl⟩
      (.inl ⟨rfl, rfl⟩) (.inr ⟨by decide, rfl, rfl⟩)⟩
example : ∃ r, setDoubleValue {} b!"s" b!"k" (.finite false 7205759403792794 (-56)) none true (run {} []) = .ok r := by
  refine ⟨_, if_pos ?_⟩
  decide +kernel

end Licensecc
