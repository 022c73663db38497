import Verif.Model.Double
import Verif.Props.Info
/-!
# C10: the floating point arithmetic of days_left
-/
namespace Licensecc
open Spec
namespace Double

theorem dist_self (q : Rat) : dist q q = 0 := by unfold dist; grind

theorem eq_of_double {q x : Rat} (h : Nearest q x) (hq : IsDouble q) : x = q := by
  have := h.2 q hq
  rw [dist_self] at this
  unfold dist at this
  grind

theorem mono_low {q x y : Rat} (h : Nearest q x) (hy : IsDouble y) (hle : y ≤ q) : y ≤ x := by
  have := h.2 y hy
  unfold dist at this
  grind

theorem mono_high {q x y : Rat} (h : Nearest q x) (hy : IsDouble y) (hle : q ≤ y) : x ≤ y := by
  have := h.2 y hy
  unfold dist at this
  grind

theorem double_int {n : Int} (h1 : -2 ^ 53 < n) (h2 : n < 2 ^ 53) : IsDouble n := ⟨n, h1, h2, .inl ⟨0, by omega, by grind⟩⟩

theorem double_half {n : Int} (h1 : -2 ^ 53 < n) (h2 : n < 2 ^ 53) : IsDouble ((n : Rat) / 2) := ⟨n, h1, h2, .inl ⟨1, by omega, by grind⟩⟩

theorem double_17 {n : Int} (h1 : -2 ^ 53 < n) (h2 : n < 2 ^ 53) : IsDouble ((n : Rat) / 131072) :=
  ⟨n, h1, h2, .inl ⟨17, by omega, by grind⟩⟩

theorem double_neg {x : Rat} (h : IsDouble x) : IsDouble (-x) := by
  obtain ⟨m, h1, h2, h3⟩ := h
  refine ⟨-m, by omega, by omega, ?_⟩
  rcases h3 with ⟨k, hk, rfl⟩ | ⟨k, hk, rfl⟩
  · exact .inl ⟨k, hk, by rw [Rat.intCast_neg]; grind⟩
  · exact .inr ⟨k, hk, by rw [Rat.intCast_neg]; grind⟩

theorem dist_neg (x y : Rat) : dist (-x) (-y) = dist x y := by unfold dist; grind

theorem nearest_neg {q x : Rat} (h : Nearest q x) : Nearest (-q) (-x) := by
  refine ⟨double_neg h.1, fun y hy => ?_⟩
  have := h.2 (-y) (double_neg hy)
  rw [dist_neg, ← dist_neg q (-y), Rat.neg_neg] at *
  exact this

theorem round_unique {x : Rat} {n m : Int} (h : IsRound x n) (h' : IsRound x m) : n = m := by
  by_cases hx : 0 ≤ x
  · have h1 := h.1 hx
    have h2 := h'.1 hx
    have h3 : (n : Rat) < ((m + 1 : Int) : Rat) := by rw [Rat.intCast_add]; grind
    have h4 : (m : Rat) < ((n + 1 : Int) : Rat) := by rw [Rat.intCast_add]; grind
    rw [Rat.intCast_lt_intCast] at h3 h4
    omega
  · have h1 := h.2 (by grind)
    have h2 := h'.2 (by grind)
    have h3 : (n : Rat) < ((m + 1 : Int) : Rat) := by rw [Rat.intCast_add]; grind
    have h4 : (m : Rat) < ((n + 1 : Int) : Rat) := by rw [Rat.intCast_add]; grind
    rw [Rat.intCast_lt_intCast] at h3 h4
    omega

theorem round_exists (x : Rat) : ∃ n, IsRound x n := by
  by_cases hx : 0 ≤ x
  · refine ⟨(x + 1 / 2).floor, fun _ => ?_, fun h => by grind⟩
    have h1 := Rat.floor_le (x + 1 / 2)
    have h2 := Rat.lt_floor_add_one (x + 1 / 2)
    grind
  · refine ⟨-(-x + 1 / 2).floor, fun h => by grind, fun _ => ?_⟩
    have h1 := Rat.floor_le (-x + 1 / 2)
    have h2 := Rat.lt_floor_add_one (-x + 1 / 2)
    rw [Rat.intCast_neg]
    grind

theorem exists_min {α : Type} (f : α → Rat) : ∀ (l : List α), l ≠ [] → ∃ a ∈ l, ∀ b ∈ l, f a ≤ f b
  | [a], _ => ⟨a, by simp, by simp⟩
  | a :: b :: l, _ => by
    obtain ⟨c, h1, h2⟩ := exists_min f (b :: l) (by simp)
    by_cases h : f a ≤ f c
    · refine ⟨a, by simp, ?_⟩
      intro d hd
      rcases List.mem_cons.mp hd with rfl | hd
      · grind
      · have := h2 d hd; grind
    · refine ⟨c, List.mem_cons_of_mem _ h1, ?_⟩
      intro d hd
      rcases List.mem_cons.mp hd with rfl | hd
      · grind
      · exact h2 d hd

theorem nearest_exists (q : Rat) : ∃ x, Nearest q x := by
  have hall : ∃ l : List Rat, ∀ x, x ∈ l ↔ IsDouble x := by
    refine ⟨(List.range (2 ^ 54)).flatMap (fun i : Nat => if i = 0 then [] else
      ((List.range 1075).map fun k => ((((i : Int) - 2 ^ 53 : Int) : Rat)) / 2 ^ k) ++ (List.range 972).map fun k => ((((i : Int) - 2 ^ 53 : Int) : Rat)) * 2 ^ k), ?_⟩
    intro x
    rw [List.mem_flatMap]
    constructor
    · rintro ⟨i, hi, hx⟩
      rw [List.mem_range] at hi
      by_cases h0 : i = 0
      · rw [if_pos h0] at hx; cases hx
      · rw [if_neg h0] at hx
        refine ⟨(i : Int) - 2 ^ 53, by omega, by omega, ?_⟩
        rcases List.mem_append.mp hx with hx | hx
        · obtain ⟨k, hk, rfl⟩ := List.mem_map.mp hx
          rw [List.mem_range] at hk
          exact .inl ⟨k, by omega, rfl⟩
        · obtain ⟨k, hk, rfl⟩ := List.mem_map.mp hx
          rw [List.mem_range] at hk
          exact .inr ⟨k, by omega, rfl⟩
    · rintro ⟨m, h1, h2, h3⟩
      refine ⟨(m + 2 ^ 53).toNat, by rw [List.mem_range]; omega, ?_⟩
      rw [if_neg (by omega)]
      have e : ((m + 2 ^ 53).toNat : Int) - 2 ^ 53 = m := by omega
      rw [e]
      rcases h3 with ⟨k, hk, rfl⟩ | ⟨k, hk, rfl⟩
      · exact List.mem_append_left _ (List.mem_map.mpr ⟨k, by rw [List.mem_range]; omega, rfl⟩)
      · exact List.mem_append_right _ (List.mem_map.mpr ⟨k, by rw [List.mem_range]; omega, rfl⟩)
  obtain ⟨l, hl⟩ := hall
  obtain ⟨x, h1, h2⟩ := exists_min (dist q) l (fun h => by
    have : IsDouble ((0 : Int) : Rat) := double_int (by decide) (by decide)
    rw [← hl, h] at this
    cases this)
  exact ⟨x, (hl x).mp h1, fun y hy => h2 y ((hl y).mpr hy)⟩

theorem double_lit (n : Nat) (h : n < 2 ^ 53) : IsDouble (((n : Int) : Rat)) := double_int (by omega) (by omega)

/-- A number of seconds that is not negative. -/
theorem pos_days {s : Int} {D Q : Rat} (hs : 0 ≤ s) (hD : Nearest (s : Rat) D) (hQ : Nearest (D / 86400) Q) :
    0 ≤ Q ∧ (roundDays s ≤ 2147483648 → IsRound Q (roundDays s)) ∧ ∀ n : Int, 0 ≤ n → n ≤ 2147483649 → n ≤ roundDays s → (n : Rat) - 1 / 2 ≤ Q := by
  have hr : roundDays s = (s + 43200) / 86400 := by unfold roundDays; rw [if_pos hs]
  have hlow : ∀ n : Int, 0 ≤ n → n ≤ 2147483649 → n ≤ roundDays s → (n : Rat) - 1 / 2 ≤ Q := by
    intro n h0 h1 h2
    have h3 : n * 86400 - 43200 ≤ s := by omega
    have h4 : ((n * 86400 - 43200 : Int) : Rat) ≤ (s : Rat) := by rwa [Rat.intCast_le_intCast]
    have h5 := mono_low hD (double_int (by omega) (by omega)) h4
    have h6 : ((2 * n - 1 : Int) : Rat) / 2 ≤ D / 86400 := by
      rw [Rat.intCast_sub, Rat.intCast_mul] at h5 ⊢
      grind
    have h7 := mono_low hQ (double_half (by omega) (by omega)) h6
    rw [Rat.intCast_sub, Rat.intCast_mul] at h7
    grind
  have h0 : 0 ≤ Q := by
    have h1 : ((0 : Int) : Rat) ≤ (s : Rat) := by rwa [Rat.intCast_le_intCast]
    have h2 := mono_low hD (double_int (n := 0) (by omega) (by omega)) h1
    have h3 : ((0 : Int) : Rat) ≤ D / 86400 := by grind
    have h4 := mono_low hQ (double_int (n := 0) (by omega) (by omega)) h3
    grind
  refine ⟨h0, ?_, hlow⟩
  intro hle
  refine ⟨fun _ => ⟨hlow _ (by omega) (by omega) (by omega), ?_⟩, fun h => by grind⟩
  have hD' := eq_of_double hD (double_int (by omega) (by omega))
  subst hD'
  generalize hn : roundDays s = n at *
  have h1 : s ≤ n * 86400 + 43199 := by omega
  have h2 : ((s : Int) : Rat) ≤ ((n * 86400 + 43199 : Int) : Rat) := by rwa [Rat.intCast_le_intCast]
  have h3 : (s : Rat) / 86400 ≤ (((2 * n + 1) * 65536 - 1 : Int) : Rat) / 131072 := by
    rw [Rat.intCast_add, Rat.intCast_mul] at h2
    rw [Rat.intCast_sub, Rat.intCast_mul, Rat.intCast_add, Rat.intCast_mul]
    grind
  have h4 := mono_high hQ (double_17 (by omega) (by omega)) h3
  rw [Rat.intCast_sub, Rat.intCast_mul, Rat.intCast_add, Rat.intCast_mul] at h4
  grind

theorem round_neg {x : Rat} {n : Int} (h : IsRound x n) : IsRound (-x) (-n) := by
  obtain ⟨h1, h2⟩ := h
  unfold IsRound
  rw [Rat.intCast_neg]
  by_cases h0 : x = 0
  · subst h0
    have := h1 (by grind)
    have e1 : ((-1 : Int) : Rat) < (n : Rat) := by grind
    have e2 : (n : Rat) < ((1 : Int) : Rat) := by grind
    rw [Rat.intCast_lt_intCast] at e1 e2
    have : n = 0 := by omega
    subst this
    grind
  · grind

theorem roundDays_neg (s : Int) : roundDays (-s) = -roundDays s := by
  unfold roundDays
  split <;> split <;> omega

end Double

open Double

/-- **C10**: the days computed in floating point, for all times: they are those of C10_nearest, and they are in the range of `int` (so that the conversion is defined) exactly
    if those are. -/
theorem C10_double (expiry now : Int) :
    (∃ n, Days expiry now n)
    ∧ ∀ n, Days expiry now n → ((-2147483648 ≤ n ∧ n ≤ 2147483647) ↔ (-2147483648 ≤ roundDays (expiry - now) ∧ roundDays (expiry - now) ≤ 2147483647))
        ∧ (-2147483648 ≤ n ∧ n ≤ 2147483647 → NearestDays (expiry - now) n) := by
  constructor
  · obtain ⟨D, hD⟩ := nearest_exists ((expiry - now : Int) : Rat)
    obtain ⟨Q, hQ⟩ := nearest_exists (D / 86400)
    obtain ⟨n, hn⟩ := round_exists Q
    exact ⟨n, D, Q, hD, hQ, hn⟩
  · rintro n ⟨D, Q, hD, hQ, hn⟩
    generalize expiry - now = s at *
    suffices h : ((-2147483648 ≤ n ∧ n ≤ 2147483647) ↔ (-2147483648 ≤ roundDays s ∧ roundDays s ≤ 2147483647))
        ∧ (-2147483648 ≤ n ∧ n ≤ 2147483647 → n = roundDays s) by
      refine ⟨h.1, fun hr => ?_⟩
      rw [h.2 hr]
      exact C10_nearest s
    by_cases hs : 0 ≤ s
    · obtain ⟨h0, h1, h2⟩ := pos_days hs hD hQ
      by_cases hle : roundDays s ≤ 2147483648
      · have := round_unique hn (h1 hle)
        rw [this]
        exact ⟨Iff.rfl, fun _ => rfl⟩
      · have h3 := h2 2147483649 (by omega) (by omega) (by omega)
        have h4 := (hn.1 h0).2
        have h5 : ((2147483648 : Int) : Rat) < (n : Rat) := by grind
        rw [Rat.intCast_lt_intCast] at h5
        omega
    · have hD' := nearest_neg hD
      have hQ' := nearest_neg hQ
      rw [← Rat.intCast_neg] at hD'
      rw [show -(D / 86400) = -D / 86400 by grind] at hQ'
      obtain ⟨h0, h1, h2⟩ := pos_days (by omega) hD' hQ'
      have hn' := round_neg hn
      have hrn := roundDays_neg s
      by_cases hle : roundDays (-s) ≤ 2147483648
      · have := round_unique hn' (h1 hle)
        omega
      · have h3 := h2 2147483649 (by omega) (by omega) (by omega)
        have h4 := (hn'.1 h0).2
        have h5 : ((2147483648 : Int) : Rat) < ((-n : Int) : Rat) := by grind
        rw [Rat.intCast_lt_intCast] at h5
        omega

/-- **C10**: for a license with an expiry date that can be read, with the arithmetic of the processor: `days_left` is the number of days computed in floating point or 0 if
    that is negative, and the conversion to `int` is undefined exactly if that number is out of range. -/
theorem C10_computed (w : World) (lic : FullLicense) (k : Nat) {d : Bytes} {t n : Int} (hd : SMap.find? kExpiry lic.limits = some d)
    (ht : secondsFromEpoch w.mktime d = .ok t) (hn : Days t (w.clock k) n) :
    (toLicenseInfo w lic k = .ub ↔ n < -2147483648 ∨ 2147483647 < n)
    ∧ ∀ i k', toLicenseInfo w lic k = .ok (i, k') → i.daysLeft = (if n < 0 then 0 else n) := by
  obtain ⟨h1, h2⟩ := (C10_double t (w.clock k)).2 n hn
  have e : toLicenseInfo w lic k = (if -2147483648 ≤ roundDays (t - w.clock k) ∧ roundDays (t - w.clock k) ≤ 2147483647 then
      .ok (⟨(Registry.cstr d).take 10, max (roundDays (t - w.clock k)) 0, true, (SMap.find? kClient lic.limits).isSome,
        (SMap.find? kExtra lic.limits).map fun v => (Registry.cstr v).take 16⟩, k + 1) else .ub) := by
    unfold toLicenseInfo
    simp only [hd, ht, Outcome.ok_bind, Outcome.pure_eq]
  rw [e]
  by_cases hr : -2147483648 ≤ roundDays (t - w.clock k) ∧ roundDays (t - w.clock k) ≤ 2147483647
  · rw [if_pos hr]
    have hr' := h1.mpr hr
    have := nearestDays_unique (h2 hr') (C10_nearest _)
    refine ⟨by simp; omega, ?_⟩
    intro i k' h
    simp only [Outcome.ok.injEq, Prod.mk.injEq] at h
    obtain ⟨rfl, _⟩ := h
    simp only
    rw [← this]
    split <;> omega
  · rw [if_neg hr]
    refine ⟨?_, by simp⟩
    simp only [true_iff]
    rw [← h1] at hr
    omega

/-- A third is no double, so a quotient of 28800 seconds is rounded: the number of days is not affected. Half a day is exact and counts as one. -/
example : ¬ IsDouble (1 / 3) ∧ Days 28800 0 0 ∧ Days 43200 0 1 ∧ Days 43199 0 0 := by
  have h3 : ∀ k : Nat, 2 ^ k % 3 ≠ 0 := by
    intro k
    induction k with
    | zero => decide
    | succ k ih => rw [Nat.pow_succ]; omega
  have hdays : ∀ s n : Int, roundDays s = n → -2147483648 ≤ n ∧ n ≤ 2147483647 → Days s 0 n := by
    intro s n hn hr
    obtain ⟨⟨m, hm⟩, h⟩ := C10_double s 0
    obtain ⟨h1, h2⟩ := h m hm
    rw [show s - 0 = s by omega] at h1 h2
    have := nearestDays_unique (h2 (h1.mpr (by rw [hn]; exact hr))) (C10_nearest s)
    rw [hn] at this
    rw [← this]; exact hm
  refine ⟨?_, hdays _ _ (by decide) (by decide), hdays _ _ (by decide) (by decide), hdays _ _ (by decide) (by decide)⟩
  rintro ⟨m, _, _, ⟨k, _, e⟩ | ⟨k, _, e⟩⟩
  · have hp : (2 : Rat) ^ k ≠ 0 := by
      have := Rat.pow_pos (a := 2) (by decide) (n := k)
      grind
    have e2 : ((2 ^ k : Nat) : Rat) = ((3 * m : Int) : Rat) := by
      rw [Rat.intCast_mul]
      push_cast
      grind
    have e3 : ((2 ^ k : Nat) : Int) = 3 * m := by
      rw [← Rat.intCast_inj, ← e2]
      rfl
    have := h3 k
    omega
  · have e2 : ((1 : Int) : Rat) = ((3 * (m * (2 ^ k : Nat)) : Int) : Rat) := by
      rw [Rat.intCast_mul, Rat.intCast_mul]
      push_cast
      grind
    rw [Rat.intCast_inj] at e2
    omega

end Licensecc
