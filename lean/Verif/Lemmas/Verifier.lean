import Verif.Lemmas.Reader
import Verif.Lemmas.Order
/-!
# Lemmas about verifying licences
-/
namespace Licensecc
open Licensecc.Spec

theorem flatMap_filter (m : List (Bytes × Bytes)) (f : Bytes × Bytes → Bytes) (k : Bytes) :
    m.flatMap (fun p => if p.1 = k then [] else f p) = (m.filter (fun p => p.1 ≠ k)).flatMap f := by
  induction m with
  | nil => rfl
  | cons p m ih =>
    rw [List.flatMap_cons, ih, List.filter_cons]
    by_cases h : p.1 = k <;> simp [h]

/-- The data handed to the signature check are the signing data of the text. -/
theorem signingData_of_licence {feature src text : Bytes} {l : FullLicense} (h : IsLicence feature src text l) :
    SigningData feature (entriesFor feature text) l.printForSign := by
  refine ⟨l.limits.filter (fun p => p.1 ≠ kSig), ?_, ?_, ?_⟩
  · exact List.Pairwise.imp (fun h => before_iff.mpr h) (List.Pairwise.filter _ h.sorted)
  · intro k v
    rw [List.mem_filter, SMap.mem_iff_find h.sorted, h.limits]
    simp
  · unfold FullLicense.printForSign
    rw [h.project, flatMap_filter]

/-- There is only one set of signing data. -/
theorem signingData_unique {feature : Bytes} {es : List (Bytes × Bytes)} {d d' : Bytes} (h : SigningData feature es d)
    (h' : SigningData feature es d') : d = d' := by
  obtain ⟨m, h1, h2, rfl⟩ := h
  obtain ⟨m', h1', h2', rfl⟩ := h'
  replace h1 : SMap.Sorted m := h1.imp fun h => before_iff.mp h
  replace h1' : SMap.Sorted m' := h1'.imp fun h => before_iff.mp h
  have : m = m' := by
    apply SMap.ext (α := Bytes) h1 h1'
    intro k
    cases hk : SMap.find? k m with
    | some v =>
      rw [← SMap.mem_iff_find h1, h2, ← h2', SMap.mem_iff_find h1'] at hk
      exact hk.symm
    | none =>
      cases hk' : SMap.find? k m' with
      | none => rfl
      | some v =>
        rw [← SMap.mem_iff_find h1', h2', ← h2, SMap.mem_iff_find h1, hk] at hk'
        simp at hk'
  rw [this]

theorem verifySignature_ok {w : World} {l : FullLicense} {r r' : Registry} {g : Bool}
    (h : verifySignature w l r = .ok (r', g)) : w.verify l.printForSign l.signature = .ok g := by
  unfold verifySignature at h
  obtain ⟨g', h1, h⟩ := Outcome.bind_eq_ok.mp h
  obtain ⟨r1, _, h⟩ := Outcome.bind_eq_ok.mp h
  simp only [Outcome.pure_eq, Outcome.ok.injEq, Prod.mk.injEq] at h
  rw [h1, h.2]

theorem checkExpiry_ok {w : World} {now : Int} {l : FullLicense} {r r' : Registry} {v : Bool}
    (h : checkExpiry w now l r = .ok (r', v)) :
    v = true ↔ ∀ d, SMap.find? kExpiry l.limits = some d → ∃ t, secondsFromEpoch w.mktime d = .ok t ∧ now ≤ t := by
  unfold checkExpiry at h
  split at h
  · rename_i hf; simp only [Outcome.ok.injEq, Prod.mk.injEq] at h; simp [hf, ← h.2]
  · rename_i d hf
    obtain ⟨t, ht, h⟩ := Outcome.bind_eq_ok.mp h
    split at h
    · rename_i hlt
      obtain ⟨r1, _, h⟩ := Outcome.bind_eq_ok.mp h
      simp only [Outcome.pure_eq, Outcome.ok.injEq, Prod.mk.injEq] at h
      simp [hf, ht, ← h.2]; omega
    · rename_i hlt
      simp only [Outcome.pure_eq, Outcome.ok.injEq, Prod.mk.injEq] at h
      simp [hf, ht, ← h.2]; omega

theorem checkBegin_ok {w : World} {now : Int} {l : FullLicense} {r r' : Registry} {v : Bool}
    (h : checkBegin w now l r = .ok (r', v)) :
    v = true ↔ ∀ d, SMap.find? kBegin l.limits = some d → ∃ t, secondsFromEpoch w.mktime d = .ok t ∧ t ≤ now := by
  unfold checkBegin at h
  split at h
  · rename_i hf; simp only [Outcome.ok.injEq, Prod.mk.injEq] at h; simp [hf, ← h.2]
  · rename_i d hf
    obtain ⟨t, ht, h⟩ := Outcome.bind_eq_ok.mp h
    split at h
    · rename_i hlt
      obtain ⟨r1, _, h⟩ := Outcome.bind_eq_ok.mp h
      simp only [Outcome.pure_eq, Outcome.ok.injEq, Prod.mk.injEq] at h
      simp [hf, ht, ← h.2]; omega
    · rename_i hlt
      simp only [Outcome.pure_eq, Outcome.ok.injEq, Prod.mk.injEq] at h
      simp [hf, ht, ← h.2]; omega

theorem checkClient_ok {w : World} {l : FullLicense} {r r' : Registry} {v : Bool}
    (h : checkClient w l r = .ok (r', v)) :
    v = true ↔ ∀ s, SMap.find? kClient l.limits = some s → ∃ h, HwId.ofString s = .ok h ∧ HwMatches w.machine h := by
  unfold checkClient at h
  split at h
  · rename_i hf; simp only [Outcome.ok.injEq, Prod.mk.injEq] at h; simp [hf, ← h.2]
  · rename_i s hf
    obtain ⟨ev, hev, h⟩ := Outcome.bind_eq_ok.mp h
    obtain ⟨r1, _, h⟩ := Outcome.bind_eq_ok.mp h
    simp only [Outcome.pure_eq, Outcome.ok.injEq, Prod.mk.injEq] at h
    have hv : v = true ↔ validatePcSignature w.machine s = .ok .licenseOk := by
      rw [← h.2, hev]; simp
    rw [hv, C27_validate_iff]
    simp [hf]

/-- The limits of a licence hold at time `now` for a caller with its magic number. -/
def Within (cfg : Config) (w : World) (l : FullLicense) (now : Int) : Prop :=
  l.magic = cfg.magic
  ∧ (∀ d, SMap.find? kExpiry l.limits = some d → ∃ t, secondsFromEpoch w.mktime d = .ok t ∧ now ≤ t)
  ∧ (∀ d, SMap.find? kBegin l.limits = some d → ∃ t, secondsFromEpoch w.mktime d = .ok t ∧ t ≤ now)
  ∧ (∀ s, SMap.find? kClient l.limits = some s → ∃ h, HwId.ofString s = .ok h ∧ HwMatches w.machine h)

theorem verifyLimits_ok {cfg : Config} {w : World} {l : FullLicense} {r r' : Registry} {k k' : Nat} {v : Bool}
    (h : verifyLimits cfg w l r k = .ok (r', k', v)) : k' = k + 1 ∧ (v = true ↔ Within cfg w l (w.clock k)) := by
  simp only [verifyLimits] at h
  unfold Within
  split at h
  · rename_i hm
    obtain ⟨⟨r1, v1⟩, h1, h⟩ := Outcome.bind_eq_ok.mp h
    have e1 := checkExpiry_ok h1
    simp only at h
    split at h
    · rename_i hv1
      obtain ⟨⟨r2, v2⟩, h2, h⟩ := Outcome.bind_eq_ok.mp h
      have e2 := checkBegin_ok h2
      simp only at h
      split at h
      · rename_i hv2
        obtain ⟨⟨r3, v3⟩, h3, h⟩ := Outcome.bind_eq_ok.mp h
        have e3 := checkClient_ok h3
        simp only [Outcome.pure_eq, Outcome.ok.injEq, Prod.mk.injEq] at h
        refine ⟨h.2.1.symm, ?_⟩
        rw [← h.2.2, e3]
        exact ⟨fun h => ⟨hm, e1.mp hv1, e2.mp hv2, h⟩, fun h => h.2.2.2⟩
      · rename_i hv2
        simp only [Outcome.pure_eq, Outcome.ok.injEq, Prod.mk.injEq] at h
        refine ⟨h.2.1.symm, ?_⟩
        rw [← h.2.2]
        simp only [Bool.false_eq_true, false_iff]
        exact fun h => hv2 (e2.mpr h.2.2.1)
    · rename_i hv1
      simp only [Outcome.pure_eq, Outcome.ok.injEq, Prod.mk.injEq] at h
      refine ⟨h.2.1.symm, ?_⟩
      rw [← h.2.2]
      simp only [Bool.false_eq_true, false_iff]
      exact fun h => hv1 (e1.mpr h.2.1)
  · rename_i hm
    obtain ⟨r1, _, h⟩ := Outcome.bind_eq_ok.mp h
    simp only [Outcome.pure_eq, Outcome.ok.injEq, Prod.mk.injEq] at h
    refine ⟨h.2.1.symm, ?_⟩
    rw [← h.2.2]
    simp only [Bool.false_eq_true, false_iff]
    exact fun h => hm h.1

theorem toLicenseInfo_ticks {w : World} {l : FullLicense} {k k' : Nat} {i : LicInfo}
    (h : toLicenseInfo w l k = .ok (i, k')) : k' = k ∨ k' = k + 1 := by
  simp only [toLicenseInfo] at h
  split at h
  · obtain ⟨t, _, h⟩ := Outcome.bind_eq_ok.mp h
    split at h
    · simp only [Outcome.pure_eq, Outcome.ok.injEq, Prod.mk.injEq] at h; omega
    · simp at h
  · simp only [Outcome.pure_eq, Outcome.ok.injEq, Prod.mk.injEq] at h; omega

/-- The verdict on one licence: the signature is accepted and the limits hold. -/
def Accepted (cfg : Config) (w : World) (caller : Option Caller) (l : FullLicense) (now : Int) : Prop :=
  w.verify l.printForSign l.signature = .ok true ∧ Within cfg w (withMagic caller l) now

theorem printForSign_withMagic (caller : Option Caller) (l : FullLicense) :
    (withMagic caller l).printForSign = l.printForSign := rfl

/-- What happened to each licence: its information, the clock readings used, and whether it was accepted. -/
inductive Judged (cfg : Config) (w : World) (caller : Option Caller) :
    Nat → List FullLicense → Nat → List LicInfo → List LicInfo → Prop
  | nil {k} : Judged cfg w caller k [] k [] []
  | ok {k l ls k1 k' oks errs i} : toLicenseInfo w l k = .ok (i, k1) → Accepted cfg w caller l (w.clock k1) →
      Judged cfg w caller (k1 + 1) ls k' oks errs → Judged cfg w caller k (l :: ls) k' (i :: oks) errs
  | bad {k l ls k1 k2 k' oks errs i} : toLicenseInfo w l k = .ok (i, k1) → k1 ≤ k2 → k2 ≤ k1 + 1 →
      ¬ Accepted cfg w caller l (w.clock k1) →
      Judged cfg w caller k2 ls k' oks errs → Judged cfg w caller k (l :: ls) k' oks (i :: errs)

theorem judgeLoop_judged {cfg : Config} {w : World} {caller : Option Caller} {ls : List FullLicense} :
    ∀ {r r' : Registry} {k k' : Nat} {oks errs : List LicInfo},
    judgeLoop cfg w caller r k ls = .ok (r', k', oks, errs) → Judged cfg w caller k ls k' oks errs := by
  induction ls with
  | nil =>
    intro r r' k k' oks errs h
    simp only [judgeLoop, Outcome.ok.injEq, Prod.mk.injEq] at h
    obtain ⟨_, rfl, rfl, rfl⟩ := h
    exact .nil
  | cons l ls ih =>
    intro r r' k k' oks errs h
    simp only [judgeLoop] at h
    obtain ⟨⟨r1, g⟩, h1, h⟩ := Outcome.bind_eq_ok.mp h
    obtain ⟨⟨i, k1⟩, h2, h⟩ := Outcome.bind_eq_ok.mp h
    have hv := verifySignature_ok h1
    have h2' : toLicenseInfo w l k = .ok (i, k1) := h2
    have hk := toLicenseInfo_ticks h2
    simp only at h
    split at h
    · rename_i hg
      obtain ⟨⟨r2, k2, v⟩, h3, h⟩ := Outcome.bind_eq_ok.mp h
      obtain ⟨⟨r3, k3, oks', errs'⟩, h4, h⟩ := Outcome.bind_eq_ok.mp h
      simp only [Outcome.pure_eq, Outcome.ok.injEq, Prod.mk.injEq] at h
      obtain ⟨hk2, hw⟩ := verifyLimits_ok h3
      obtain ⟨_, rfl, ho, he⟩ := h
      subst hk2
      have hj := ih h4
      cases v with
      | true =>
        simp only [if_true] at ho he
        subst ho; subst he
        exact .ok h2' ⟨by rw [hg] at hv; exact hv, hw.mp rfl⟩ hj
      | false =>
        simp only [Bool.false_eq_true, if_false] at ho he
        subst ho; subst he
        refine .bad h2' (Nat.le_succ k1) (Nat.le_refl (k1 + 1)) ?_ hj
        intro ha
        have := hw.mpr ha.2
        simp at this
    · rename_i hg
      obtain ⟨⟨r3, k3, oks', errs'⟩, h4, h⟩ := Outcome.bind_eq_ok.mp h
      simp only [Outcome.pure_eq, Outcome.ok.injEq, Prod.mk.injEq] at h
      obtain ⟨_, rfl, rfl, rfl⟩ := h
      refine .bad h2' (Nat.le_refl _) (by omega) ?_ (ih h4)
      intro ha
      have : w.verify l.printForSign l.signature = .ok g := hv
      rw [ha.1] at this
      simp at this
      exact hg (by simp [← this])

theorem judged_mono {cfg : Config} {w : World} {caller : Option Caller} {k k' : Nat} {ls : List FullLicense}
    {oks errs : List LicInfo} (h : Judged cfg w caller k ls k' oks errs) : k ≤ k' := by
  induction h with
  | nil => exact Nat.le_refl _
  | ok h1 _ _ ih => have := toLicenseInfo_ticks h1; omega
  | bad h1 h2 _ _ _ ih => have := toLicenseInfo_ticks h1; omega

/-- Soundness of the loop. -/
theorem judged_sound {cfg : Config} {w : World} {caller : Option Caller} {k k' : Nat} {ls : List FullLicense}
    {oks errs : List LicInfo} (h : Judged cfg w caller k ls k' oks errs) :
    ∀ i ∈ oks, ∃ l ∈ ls, ∃ j j', k ≤ j ∧ j' < k' ∧ toLicenseInfo w l j = .ok (i, j') ∧ Accepted cfg w caller l (w.clock j') := by
  induction h with
  | nil => simp
  | @ok k l ls k1 k' oks errs i h1 h2 h3 ih =>
    intro x hx
    have := toLicenseInfo_ticks h1
    have := judged_mono h3
    rcases List.mem_cons.mp hx with rfl | hx
    · exact ⟨l, by simp, k, k1, Nat.le_refl _, by omega, h1, h2⟩
    · obtain ⟨l', hl, j, j', hj, hj', hh⟩ := ih x hx
      exact ⟨l', by simp [hl], j, j', by omega, hj', hh⟩
  | @bad k l ls k1 k2 k' oks errs i h1 h2 h3 h4 h5 ih =>
    intro x hx
    have := toLicenseInfo_ticks h1
    obtain ⟨l', hl, j, j', hj, hj', hh⟩ := ih x hx
    exact ⟨l', by simp [hl], j, j', by omega, hj', hh⟩

/-- Completeness of the loop. -/
theorem judged_complete {cfg : Config} {w : World} {caller : Option Caller} {k k' : Nat} {ls : List FullLicense}
    {oks errs : List LicInfo} (h : Judged cfg w caller k ls k' oks errs) {l : FullLicense} (hl : l ∈ ls)
    (ha : ∀ j, k ≤ j → j ≤ k' → Accepted cfg w caller l (w.clock j)) : oks ≠ [] := by
  induction h with
  | nil => simp at hl
  | ok h1 h2 h3 ih => simp
  | @bad k l' ls k1 k2 k' oks errs i h1 h2 h3 h4 h5 ih =>
    have := toLicenseInfo_ticks h1
    have := judged_mono h5
    rcases List.mem_cons.mp hl with rfl | hl
    · exact absurd (ha k1 (by omega) (by omega)) h4
    · exact ih hl (fun j hj1 hj2 => ha j (by omega) hj2)

/-- Every licence is accounted for. -/
theorem judged_length {cfg : Config} {w : World} {caller : Option Caller} {k k' : Nat} {ls : List FullLicense}
    {oks errs : List LicInfo} (h : Judged cfg w caller k ls k' oks errs) : oks.length + errs.length = ls.length := by
  induction h with
  | nil => rfl
  | ok _ _ _ ih => simp; omega
  | bad _ _ _ _ _ ih => simp; omega

end Licensecc
