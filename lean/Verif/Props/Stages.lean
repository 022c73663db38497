import Verif.Props.Report
/-!
# Properties of acquire_license: which failure is reported (C32), which licences are checked (C48)
-/
namespace Licensecc
open Licensecc.Spec

/-! ## C32 -/

/-- **C32**: the failure reported by a refused call is determined by the log of the call: if some licence failed at the
    furthest stage reached by any licence, the failure of such a licence is reported (of the first one in the byte order
    of their references), otherwise the last failure. -/
theorem C32_acquire {cfg : Config} {w : World} {caller : Option Caller} {hint : Option LicenseLocation}
    {out : Option LicInfo} {res : AcquireResult} (h : acquire cfg w caller hint out = .ok res) (hne : res.ret ≠ .licenseOk) :
    ∃ log, SameButSeverity log res.registry.logs ∧
      ((∃ k e, FailedFurthest log k e ∧ res.ret = e.type ∧ ∀ k' e', FailedFurthest log k' e' → k' = k ∨ Before k k')
       ∨ ((∀ k e, ¬ FailedFurthest log k e)
          ∧ ∃ pre e post, log = pre ++ e :: post ∧ IsFailure e.type ∧ (∀ x ∈ post, ¬ IsFailure x.type) ∧ res.ret = e.type)) := by
  obtain ⟨es, ⟨r0, b, h1, h2⟩, h3⟩ := refused_of_not_ok h hne
  have hh := h1.history (.empty _)
  obtain ⟨e0, h4, h5⟩ := lastFailureType_ok h3
  refine ⟨r0.logs, ?_, ?_⟩
  · obtain ⟨r1, f, g1, g2, _⟩ := turnWarnings_spec (exact_addHistory hh).2.1
    rw [g1] at h2; simp only [Outcome.ok.injEq, Prod.mk.injEq] at h2
    rw [← h2.1]; exact g2
  · rcases C32_reported_failure hh h2 with ⟨k, e, g1, g2, g3⟩ | ⟨g1, ⟨pre, e, post, g2, g3, g4, g5⟩ | ⟨_, g5⟩⟩
    · rw [g2] at h4; simp only [Outcome.ok.injEq, Option.some.injEq] at h4
      exact .inl ⟨k, e, g1, by rw [← h5, ← h4], g3⟩
    · rw [g5] at h4; simp only [Outcome.ok.injEq, Option.some.injEq] at h4
      exact .inr ⟨g1, pre, e, post, g2, g3, g4, by rw [← h5, ← h4]⟩
    · rw [g5] at h4; simp at h4

theorem search_stage {w : World} {f : Bytes} {ls : List Locator} {es : List Entry} {lics : List FullLicense}
    (h : SearchEntries w f ls es lics) {x : Entry} (hx : x ∈ es) : ∀ s, stage x.1 = some s → s ≤ 2 := by
  have files : ∀ {extra : Bytes} {ps : List Bytes}, x ∈ fileEntries w extra ps → ∀ s, stage x.1 = some s → s ≤ 2 := by
    intro extra ps hx s hs
    obtain ⟨p, _, h | ⟨h, _⟩ | ⟨h, _⟩⟩ := fileEntries_mem hx <;> rw [h] at hs <;> simp [stage] at hs <;> omega
  intro s hs
  rcases (searchEntries_mem h).2 x hx with ⟨l, _, hl⟩ | ⟨l, _, _, _, _, _, _, _, _, ts, _, _, _, h4, h5⟩
  · cases l with
    | applicationFolder =>
      simp only [locateEntries] at hl
      cases hm : w.moduleName with
      | none => simp [hm] at hl
      | some m =>
        simp only [hm, List.mem_singleton] at hl; subst hl
        simp only at hs
        split at hs <;> simp [stage] at hs <;> omega
    | environmentVarLocation =>
      simp only [locateEntries] at hl
      split at hl
      · exact files hl s hs
      · simp only [List.mem_singleton] at hl; subst hl; simp [stage] at hs
    | environmentVarData =>
      simp only [locateEntries] at hl
      split at hl
      · rcases List.mem_cons.mp hl with rfl | hl
        · simp [stage] at hs; omega
        · split at hl
          · simp only [List.mem_singleton] at hl; subst hl; simp [stage] at hs
          · simp at hl
      · simp only [List.mem_singleton] at hl; subst hl; simp [stage] at hs
    | externalDefinition loc =>
      simp only [locateEntries] at hl
      split at hl
      · simp at hl
      · split at hl
        · simp at hl
        · rcases List.mem_cons.mp hl with rfl | hl
          · simp [stage] at hs; omega
          · split at hl
            · split at hl
              · exact files hl s hs
              · simp at hl
            · simp at hl
  · rcases h4 with ⟨_, _, rfl⟩ | ⟨_, _, _, rfl⟩ | ⟨_, _, rfl⟩
    · simp only [List.mem_singleton] at h5; rw [h5] at hs; simp [stage] at hs
    · simp only [List.mem_cons, List.not_mem_nil, or_false] at h5
      rcases h5 with h5 | h5 <;> rw [h5] at hs <;> simp [stage] at hs; omega
    · simp only [List.mem_singleton] at h5; rw [h5] at hs; simp [stage] at hs; omega

theorem search_types {w : World} {f : Bytes} {ls : List Locator} {es : List Entry} {lics : List FullLicense}
    (h : SearchEntries w f ls es lics) {x : Entry} (hx : x ∈ es) :
    x.1 ≠ .corrupted ∧ x.1 ≠ .productExpired ∧ x.1 ≠ .identifiersMismatch := by
  have files : ∀ {extra : Bytes} {ps : List Bytes}, x ∈ fileEntries w extra ps →
      x.1 ≠ .corrupted ∧ x.1 ≠ .productExpired ∧ x.1 ≠ .identifiersMismatch := by
    intro extra ps hx
    obtain ⟨p, _, h | ⟨h, _⟩ | ⟨h, _⟩⟩ := fileEntries_mem hx <;> rw [h] <;> simp
  rcases (searchEntries_mem h).2 x hx with ⟨l, _, hl⟩ | ⟨l, _, _, _, _, _, _, _, _, ts, _, _, _, h4, h5⟩
  · cases l with
    | applicationFolder =>
      simp only [locateEntries] at hl
      cases hm : w.moduleName with
      | none => simp [hm] at hl
      | some m =>
        simp only [hm, List.mem_singleton] at hl; subst hl
        simp only
        split <;> simp
    | environmentVarLocation =>
      simp only [locateEntries] at hl
      split at hl
      · exact files hl
      · simp only [List.mem_singleton] at hl; subst hl; simp
    | environmentVarData =>
      simp only [locateEntries] at hl
      split at hl
      · rcases List.mem_cons.mp hl with rfl | hl
        · simp
        · split at hl
          · simp only [List.mem_singleton] at hl; subst hl; simp
          · simp at hl
      · simp only [List.mem_singleton] at hl; subst hl; simp
    | externalDefinition loc =>
      simp only [locateEntries] at hl
      split at hl
      · simp at hl
      · split at hl
        · simp at hl
        · rcases List.mem_cons.mp hl with rfl | hl
          · simp
          · split at hl
            · split at hl
              · exact files hl
              · simp at hl
            · simp at hl
  · rcases h4 with ⟨_, _, rfl⟩ | ⟨_, _, _, rfl⟩ | ⟨_, _, rfl⟩
    · simp only [List.mem_singleton] at h5; rw [h5]; simp
    · simp only [List.mem_cons, List.not_mem_nil, or_false] at h5
      rcases h5 with h5 | h5 <;> rw [h5] <;> simp
    · simp only [List.mem_singleton] at h5; rw [h5]; simp

/-- When every licence is refused, a verified signature is followed by a failure of the same licence, and no licence is
    recorded as good. -/
theorem judge_next {cfg : Config} {w : World} {K : Nat} {ls : List FullLicense} {vs : List Bool} {es : List Entry}
    (h : JudgeEntries cfg w K ls vs es) (hv : true ∉ vs) :
    (∀ j a b, es[j]? = some (.signatureVerified, a, b) → ∃ y, es[j + 1]? = some y ∧ IsFailure y.1 ∧ y.2.1 = a)
    ∧ ∀ x ∈ es, x.1 = .signatureVerified ∨ x.1 = .corrupted ∨ x.1 = .productExpired ∨ x.1 = .identifiersMismatch := by
  induction h with
  | nil => simp
  | @unsigned l ls vs es _ _ ih =>
    obtain ⟨ih1, ih2⟩ := ih (by intro hh; exact hv (by simp [hh]))
    constructor
    · intro j a b hj
      cases j with
      | zero => simp at hj
      | succ j => simpa using ih1 j a b (by simpa using hj)
    · intro x hx
      rcases List.mem_cons.mp hx with rfl | hx
      · exact .inr (.inl rfl)
      · exact ih2 x hx
  | @signed l ls v vs es es' j0 _ _ hle _ ih =>
    obtain ⟨ih1, ih2⟩ := ih (by intro hh; exact hv (by simp [hh]))
    have hvf : v = false := by cases v <;> simp_all
    have : ∃ y, es = [y] ∧ IsFailure y.1 ∧ y.2.1 = some l.source
        ∧ (y.1 = .corrupted ∨ y.1 = .productExpired ∨ y.1 = .identifiersMismatch) := by
      cases hle with
      | magic => exact ⟨_, rfl, rfl, rfl, .inl rfl⟩
      | expired => exact ⟨_, rfl, rfl, rfl, .inr (.inl rfl)⟩
      | early => exact ⟨_, rfl, rfl, rfl, .inr (.inl rfl)⟩
      | @client s ev k1 k2 =>
        rcases C28_two_answers _ _ _ k2 with rfl | rfl
        · simp at hvf
        · exact ⟨_, rfl, rfl, rfl, .inr (.inr rfl)⟩
      | nothing => simp at hvf
    obtain ⟨y, rfl, hy1, hy2, hy3⟩ := this
    constructor
    · intro j a b hj
      match j with
      | 0 =>
        simp only [List.cons_append, List.nil_append, List.getElem?_cons_zero, Option.some.injEq, Prod.mk.injEq, true_and] at hj
        exact ⟨y, by simp, hy1, by rw [hy2, hj.1]⟩
      | 1 =>
        simp at hj
        rw [hj] at hy1; simp [IsFailure, stage] at hy1
      | j + 2 =>
        have : es'[j]? = some (.signatureVerified, a, b) := by simpa using hj
        simpa using ih1 j a b this
    · intro x hx
      simp only [List.cons_append, List.nil_append, List.mem_cons] at hx
      rcases hx with rfl | rfl | hx
      · exact .inl rfl
      · exact .inr hy3
      · exact ih2 x hx

theorem judge_signed {cfg : Config} {w : World} {K : Nat} {ls : List FullLicense} {vs : List Bool} {es : List Entry}
    (h : JudgeEntries cfg w K ls vs es) {l : FullLicense} (hl : l ∈ ls) :
    (w.verify l.printForSign l.signature = .ok true ∧ (.signatureVerified, some l.source, none) ∈ es)
    ∨ (w.verify l.printForSign l.signature = .ok false ∧ (.corrupted, some l.source, none) ∈ es) := by
  induction h with
  | nil => simp at hl
  | @unsigned l' ls vs es h1 _ ih =>
    rcases List.mem_cons.mp hl with rfl | hl
    · exact .inr ⟨h1, by simp⟩
    · rcases ih hl with ⟨a, b⟩ | ⟨a, b⟩
      · exact .inl ⟨a, by simp [b]⟩
      · exact .inr ⟨a, by simp [b]⟩
  | @signed l' ls v vs es es' j h1 _ _ _ ih =>
    rcases List.mem_cons.mp hl with rfl | hl
    · exact .inl ⟨h1, by simp⟩
    · rcases ih hl with ⟨a, b⟩ | ⟨a, b⟩
      · exact .inl ⟨a, by simp [b]⟩
      · exact .inr ⟨a, by simp [b]⟩

/-- **C32** for the user: if some located licence for the feature is signed correctly and the call is nevertheless
    refused, the code says why a licence with a verified signature was refused (expired, other hardware, wrong magic -
    or another licence under the same reference has a wrong signature); files that were not found, undefined variables,
    malformed licences or licences for other features do not hide it. -/
theorem C32_signed_licence_reported {cfg : Config} {w : World} {caller : Option Caller} {hint : Option LicenseLocation}
    {out : Option LicInfo} {res : AcquireResult} (h : acquire cfg w caller hint out = .ok res) (hne : res.ret ≠ .licenseOk)
    {feature src text : Bytes} (hf : FeatureIs cfg caller feature) (ho : Offers cfg w hint src text)
    (hc : Complete feature text) (hs : Signed w feature text) :
    res.ret = .productExpired ∨ res.ret = .identifiersMismatch ∨ res.ret = .corrupted := by
  obtain ⟨f, r, lics, es, hf', hr, hes, hcases, _⟩ := acquire_cases h
  have := featureIs_unique hf hf'; subst this
  obtain ⟨l, hl, hlic⟩ := licence_of_complete hr ho hc
  rcases hcases with ⟨hnil, _⟩ | ⟨_, vs, es', oks, errs, r1, hje, _, ⟨_, _, hret, _⟩ | ⟨hv, _, href, _⟩⟩
  · subst hnil; simp at hl
  · exact absurd hret hne
  · have hsearch : ∀ x ∈ es, ∀ s, stage x.1 = some s → s ≤ 2 := by
      rcases hes with ⟨_, _, rfl⟩ | hes
      · intro x hx s hs; simp only [List.mem_singleton] at hx; subst hx; simp [stage] at hs
      · exact fun x hx => search_stage hes hx
    obtain ⟨hnext, htypes⟩ := judge_next hje hv
    have hsv : (.signatureVerified, some l.source, none) ∈ es' := by
      rcases judge_signed hje (List.mem_map_of_mem hl) with ⟨_, hm⟩ | ⟨hb, _⟩
      · exact hm
      · have := (signed_iff hlic).mp hs
        rw [show w.verify l.printForSign l.signature = .ok false from hb] at this
        simp at this
    obtain ⟨⟨r0, b, h1, h2⟩, h3⟩ := href
    have hlog : r0.logs = es.map (Entry.event w.platform) ++ es'.map (Entry.event w.platform) := by
      rw [h1.logs]; simp [Registry.empty]
    -- the furthest stage is 3
    have hfur : Furthest r0.logs 3 := by
      refine ⟨⟨Entry.event w.platform (.signatureVerified, some l.source, none), ?_, ?_⟩, ?_⟩
      · rw [hlog]; simp only [List.mem_append]; exact .inr (List.mem_map_of_mem hsv)
      · rfl
      · intro e he s' hs'
        rw [hlog] at he
        rcases List.mem_append.mp he with he | he
        · obtain ⟨x, hx, rfl⟩ := List.mem_map.mp he
          have := hsearch x hx s' hs'; omega
        · obtain ⟨x, hx, rfl⟩ := List.mem_map.mp he
          have hs'' : stage x.1 = some s' := hs'
          rcases htypes x hx with hh | hh | hh | hh <;> rw [hh] at hs'' <;> simp [stage] at hs'' <;> omega
    -- where stage 3 is reached
    have hreach : ∀ {k : Bytes} {j : Nat}, ReachesAt r0.logs 3 k j → ∃ j' a b, j = es.length + j'
        ∧ es'[j']? = some (.signatureVerified, a, b) ∧ (Entry.event w.platform (.signatureVerified, a, b)).ref = k := by
      rintro k j ⟨e, he, hk, hst⟩
      rw [hlog] at he
      by_cases hj : j < es.length
      · rw [List.getElem?_append_left (by simpa using hj), List.getElem?_map] at he
        simp only [Option.map_eq_some_iff] at he
        obtain ⟨x, hx, rfl⟩ := he
        have := hsearch x (List.mem_of_getElem? hx) 3 hst; omega
      · rw [List.getElem?_append_right (by simp; omega), List.getElem?_map] at he
        simp only [Option.map_eq_some_iff, List.length_map] at he
        obtain ⟨⟨t, a, b⟩, hx, rfl⟩ := he
        have ht : t = .signatureVerified := by
          rcases htypes _ (List.mem_of_getElem? hx) with hh | hh | hh | hh
          · exact hh
          · rw [show t = _ from hh] at hst; simp [Entry.event, Registry.mkEvent, stage] at hst
          · rw [show t = _ from hh] at hst; simp [Entry.event, Registry.mkEvent, stage] at hst
          · rw [show t = _ from hh] at hst; simp [Entry.event, Registry.mkEvent, stage] at hst
        subst ht
        exact ⟨j - es.length, a, b, by omega, hx, hk⟩
    -- the licence failed there
    obtain ⟨j0, hj0⟩ := List.mem_iff_getElem?.mp hsv
    have hr0 : ReachesAt r0.logs 3 (Entry.event w.platform (.signatureVerified, some l.source, none)).ref (es.length + j0) := by
      refine ⟨Entry.event w.platform (.signatureVerified, some l.source, none), ?_, rfl, ?_⟩
      · rw [hlog, List.getElem?_append_right (by simp), List.getElem?_map]
        simp [hj0]
      · rfl
    obtain ⟨i, hi⟩ := lastAt_exists hr0
    have hfailed : ∃ k e, FailedFurthest r0.logs k e := by
      rcases hi.1 with hre | ⟨e, he, hk, hst, _⟩
      · exfalso
        obtain ⟨j', a, b', hj', hx, hk⟩ := hreach hre
        obtain ⟨y, hy, hyf, hya⟩ := hnext j' a b' hx
        have hc : CountsAt r0.logs 3 (Entry.event w.platform (.signatureVerified, some l.source, none)).ref (i + 1) := by
          refine .inr ⟨y.event w.platform, ?_, ?_, hyf, i, by omega, hre⟩
          · rw [hlog, List.getElem?_append_right (by simp; omega), List.getElem?_map]
            have : i + 1 - (es.map (Entry.event w.platform)).length = j' + 1 := by simp; omega
            rw [this, hy]; rfl
          · rw [← hk]
            simp only [Entry.event, Registry.mkEvent, hya]
        have := hi.2 _ hc
        omega
      · exact ⟨_, e, 3, i, hfur, hi, he, hst⟩
    obtain ⟨e0, h4, h5⟩ := lastFailureType_ok h3
    rcases C32_reported_failure (h1.history (.empty _)) h2 with ⟨k, e, g1, g2, _⟩ | ⟨g1, _⟩
    · rw [g2] at h4; simp only [Outcome.ok.injEq, Option.some.injEq] at h4
      have hret : res.ret = e.type := by rw [← h5, ← h4]
      obtain ⟨s, i, hfs, hlast, hei, hfail⟩ := g1
      have hs3 : s = 3 := by
        have a1 := hfs.2 _ hfur.1.choose_spec.1 3 hfur.1.choose_spec.2
        have a2 := hfur.2 _ hfs.1.choose_spec.1 s hfs.1.choose_spec.2
        omega
      subst hs3
      obtain ⟨j, hji, hrj⟩ : ∃ j, j < i ∧ ReachesAt r0.logs 3 k j := by
        rcases hlast.1 with ⟨e', he', _, hst⟩ | ⟨_, _, _, _, j, hji, hrj⟩
        · rw [hei] at he'; simp only [Option.some.injEq] at he'; subst he'
          unfold IsFailure at hfail; rw [hfail] at hst; simp at hst
        · exact ⟨j, hji, hrj⟩
      obtain ⟨j', a, b', hj', _, _⟩ := hreach hrj
      rw [hlog, List.getElem?_append_right (by simp; omega), List.getElem?_map] at hei
      simp only [Option.map_eq_some_iff] at hei
      obtain ⟨x, hx, rfl⟩ := hei
      have hx1 : res.ret = x.1 := hret
      rw [hx1]
      rcases htypes x (List.mem_of_getElem? hx) with hh | hh | hh | hh
      · have : IsFailure x.1 := hfail
        rw [hh] at this; simp [IsFailure, stage] at this
      · exact .inr (.inr hh)
      · exact .inl hh
      · exact .inr (.inl hh)
    · obtain ⟨k, e, hke⟩ := hfailed
      exact absurd hke (g1 k e)

/-- The sample, expired, with missing files listed by the caller. -/
example : retOf (acquire sampleConfig (sampleWorld 0) (some sampleCaller) (some ⟨0, b!"/a;/b;/c" ++ [0]⟩) none)
    = some .productExpired := by decide +kernel

/-! ## C48 -/

theorem searchEntries_covers {w : World} {f : Bytes} {ls : List Locator} {es : List Entry} {lics : List FullLicense}
    (h : SearchEntries w f ls es lics) :
    ∀ l ∈ ls, ∃ r1 r2 locs b,
      licenseLocations w l r1 = .ok (r2, locs, b) ∧
      ∀ src ∈ locs, ∃ text isl ts, retrieveContent w l b src = .ok text ∧ readTypes f text isl ts
        ∧ ∀ t ∈ ts, (t, some src, none) ∈ es := by
  have hread : ∀ {l b locs es lics}, ReadEntries w f l b locs es lics → ∀ src ∈ locs, ∃ text isl ts,
      retrieveContent w l b src = .ok text ∧ readTypes f text isl ts ∧ ∀ t ∈ ts, (t, some src, none) ∈ es := by
    intro l b locs es lics h
    induction h with
    | nil => simp
    | @cons src srcs text ts es lic lics h1 h2 h3 h4 ih =>
      intro s hs
      rcases List.mem_cons.mp hs with rfl | hs
      · refine ⟨text, _, ts, h1, h2, ?_⟩
        intro t ht
        simp only [List.mem_append, List.mem_map]
        exact .inl ⟨t, ht, rfl⟩
      · obtain ⟨text, isl, ts, g1, g2, g3⟩ := ih s hs
        exact ⟨text, isl, ts, g1, g2, fun t ht => List.mem_append.mpr (.inr (g3 t ht))⟩
  induction h with
  | nil => simp
  | @cons l ls r r' locs b es es' lics lics' h1 h2 h3 ih =>
    intro l' hl'
    rcases List.mem_cons.mp hl' with rfl | hl'
    · refine ⟨r, r', locs, b, h1, ?_⟩
      intro src hs
      obtain ⟨text, isl, ts, g1, g2, g3⟩ := hread h2 src hs
      exact ⟨text, isl, ts, g1, g2, fun t ht => by simp [g3 t ht]⟩
    · obtain ⟨r1, r2, locs', b', g1, g2⟩ := ih l' hl'
      refine ⟨r1, r2, locs', b', g1, ?_⟩
      intro src hs
      obtain ⟨text, isl, ts, k1, k2, k3⟩ := g2 src hs
      exact ⟨text, isl, ts, k1, k2, fun t ht => by simp [k3 t ht]⟩

/-- The locations found do not depend on the events recorded before. -/
theorem locations_indep {w : World} {l : Locator} {r r' r1 r1' : Registry} {locs locs1 : List Bytes} {b b1 : Bool}
    (h : licenseLocations w l r = .ok (r', locs, b)) (h1 : licenseLocations w l r1 = .ok (r1', locs1, b1)) {src text : Bytes}
    (hs : src ∈ locs1 ∧ retrieveContent w l b1 src = .ok text) : src ∈ locs ∧ retrieveContent w l b src = .ok text := by
  cases l with
  | applicationFolder => exact (offers_applicationFolder h src text).mpr ((offers_applicationFolder h1 src text).mp hs)
  | environmentVarLocation => exact (offers_envLocation h src text).mpr ((offers_envLocation h1 src text).mp hs)
  | environmentVarData => exact (offers_envData h src text).mpr ((offers_envData h1 src text).mp hs)
  | externalDefinition loc => exact (offers_external h src text).mpr ((offers_external h1 src text).mp hs)

/-- Every offered text leaves its trace. -/
theorem offered_recorded {cfg : Config} {w : World} {hint : Option LicenseLocation} {f : Bytes} {es : List Entry}
    {lics : List FullLicense} (h : SearchEntries w f (activeStrategies cfg hint) es lics) {src text : Bytes}
    (ho : Offers cfg w hint src text) : ∃ isl ts, readTypes f text isl ts ∧ ∀ t ∈ ts, (t, some src, none) ∈ es := by
  obtain ⟨l, hl, r1, r2, locs, b, h1, h2, h3⟩ := (located_iff (searchEntries_mem h).1 src text).mpr ho
  obtain ⟨r3, r4, locs', b', g1, g2⟩ := searchEntries_covers h l hl
  obtain ⟨g3, g4⟩ := locations_indep g1 h1 ⟨h2, h3⟩
  obtain ⟨text', isl, ts, k1, k2, k3⟩ := g2 src g3
  rw [g4] at k1; simp only [Outcome.ok.injEq] at k1; subst k1
  exact ⟨isl, ts, k2, k3⟩

/-- The entries of a call, those of the search and those of the judgement. -/
theorem acquire_log {cfg : Config} {w : World} {caller : Option Caller} {hint : Option LicenseLocation} {out : Option LicInfo}
    {res : AcquireResult} (h : acquire cfg w caller hint out = .ok res) {f : Bytes} (hf : FeatureIs cfg caller f) :
    ∃ r lics es es' vs, readLicenses cfg w hint f = .ok (r, lics)
      ∧ ((activeStrategies cfg hint = [] ∧ lics = [] ∧ es = [(.fileNotFound, none, none)])
         ∨ SearchEntries w f (activeStrategies cfg hint) es lics)
      ∧ JudgeEntries cfg w res.ticks (lics.map (withMagic caller)) vs es'
      ∧ SameButSeverity ((es ++ es').map (Entry.event w.platform)) res.registry.logs
      ∧ (lics = [] → res.ret ≠ .licenseOk ∧ res.ticks = 0) := by
  have hrefused : ∀ {es : List Entry}, Refused w.platform es res →
      SameButSeverity (es.map (Entry.event w.platform)) res.registry.logs ∧ res.ret ≠ .licenseOk := by
    intro es hh
    constructor
    · obtain ⟨⟨r0, b, h1, h2⟩, _⟩ := hh
      have hlog : r0.logs = es.map (Entry.event w.platform) := by rw [h1.logs]; simp [Registry.empty]
      rw [← hlog]
      obtain ⟨r1, fl, g1, g2, _⟩ := turnWarnings_spec (exact_addHistory (h1.history (.empty _))).2.1
      rw [g1] at h2; simp only [Outcome.ok.injEq, Prod.mk.injEq] at h2
      rw [← h2.1]; exact g2
    · intro hok
      have := (refused_failure hh).1
      rw [hok] at this; simp [IsFailure, stage] at this
  obtain ⟨f', r, lics, es, hf', hr, hes, hcases, _⟩ := acquire_cases h
  have := featureIs_unique hf hf'; subst this
  rcases hcases with ⟨hnil, ht, href, _⟩ | ⟨hne, vs, es', oks, errs, r1, hje, _, ⟨_, _, _, hadds, hreg, _⟩ | ⟨_, _, href, _⟩⟩
  · refine ⟨r, lics, es, [], [], hr, hes, ?_, ?_, fun _ => ⟨(hrefused href).2, ht⟩⟩
    · rw [hnil]; exact .nil
    · simpa using (hrefused href).1
  · refine ⟨r, lics, es, es', vs, hr, hes, hje, ?_, fun h => absurd h hne⟩
    have hlog : r1.logs = (es ++ es').map (Entry.event w.platform) := by rw [hadds.logs]; simp [Registry.empty]
    rw [← hlog, hreg]
    exact turnErrors_same r1
  · exact ⟨r, lics, es, es', vs, hr, hes, hje, (hrefused href).1, fun h => absurd h hne⟩

/-- An event of this type was recorded during the call for the licence `ref` (the C string, at most
    as many bytes as there is room for). -/
def Spec.Recorded (w : World) (res : AcquireResult) (t : EventType) (ref : Bytes) : Prop :=
  ∃ e ∈ res.registry.logs, e.type = t ∧ e.ref = (ref.takeWhile (· ≠ 0)).take (pathRoom w.platform)

theorem recorded_of_mem {w : World} {res : AcquireResult} {es : List Entry} (h : SameButSeverity (es.map (Entry.event w.platform)) res.registry.logs)
    {t : EventType} {ref : Bytes} {i : Option Bytes} (hm : (t, some ref, i) ∈ es) : Recorded w res t ref := by
  obtain ⟨j, hj⟩ := List.mem_iff_getElem?.mp (List.mem_map_of_mem (f := Entry.event w.platform) hm)
  obtain ⟨e, he, h1, h2, _⟩ := h.get hj
  exact ⟨e, List.mem_of_getElem? he, by rw [h1]; rfl, by rw [h2, ← maxPath_eq]; rfl⟩

theorem entry_of_logged {w : World} {res : AcquireResult} {es : List Entry} (h : SameButSeverity (es.map (Entry.event w.platform)) res.registry.logs)
    {e : Event} (he : e ∈ res.registry.logs) : ∃ x ∈ es, x.1 = e.type := by
  obtain ⟨j, hj⟩ := List.mem_iff_getElem?.mp he
  obtain ⟨e0, he0, h1, _, _⟩ := (sameButSeverity_symm h).get hj
  obtain ⟨x, hx, rfl⟩ := List.mem_map.mp (List.mem_of_getElem? he0)
  exact ⟨x, hx, by rw [← h1]; rfl⟩

/-- The outcome of checking a located text is recorded under its reference: **C48** (an incomplete section is reported
    malformed, a complete one always reaches the signature check, whose result is recorded). -/
theorem C48_checks_recorded {cfg : Config} {w : World} {caller : Option Caller} {hint : Option LicenseLocation}
    {out : Option LicInfo} {res : AcquireResult} (h : acquire cfg w caller hint out = .ok res) {feature src text : Bytes}
    (hf : FeatureIs cfg caller feature) (ho : Offers cfg w hint src text) :
    (entriesFor feature text = [] → Recorded w res .productNotLicensed src)
    ∧ (entriesFor feature text ≠ [] → Recorded w res .productFound src)
    ∧ (entriesFor feature text ≠ [] → ¬ Complete feature text → Recorded w res .malformed src)
    ∧ (Complete feature text → Signed w feature text → Recorded w res .signatureVerified src)
    ∧ (Complete feature text → ¬ Signed w feature text → Recorded w res .corrupted src) := by
  obtain ⟨r, lics, es, es', vs, hr, hes, hje, hsame, _⟩ := acquire_log h hf
  have hes : SearchEntries w feature (activeStrategies cfg hint) es lics := by
    rcases hes with ⟨hst, _, _⟩ | hes
    · exfalso
      have hok : ∀ l ∈ activeStrategies cfg hint, ∃ r1 r2 locs b, licenseLocations w l r1 = .ok (r2, locs, b) := by
        rw [hst]; simp
      obtain ⟨l, hl, _⟩ := (located_iff hok src text).mpr ho
      rw [hst] at hl; simp at hl
    · exact hes
  have hcne : Complete feature text → entriesFor feature text ≠ [] := by
    rintro ⟨⟨s, hs⟩, _⟩ he
    rw [he] at hs; simp [lastValue] at hs
  obtain ⟨isl, ts, hts, hmem⟩ := offered_recorded hes ho
  have hrec : ∀ t ∈ ts, Recorded w res t src := fun t ht => recorded_of_mem hsame (List.mem_append.mpr (.inl (hmem t ht)))
  have hsig : ∀ (hc : Complete feature text), (Signed w feature text ∧ Recorded w res .signatureVerified src)
      ∨ (¬ Signed w feature text ∧ Recorded w res .corrupted src) := by
    intro hc
    obtain ⟨l, hl, hlic⟩ := licence_of_complete hr ho hc
    have hsrc : l.source = src := hlic.source
    rcases judge_signed hje (List.mem_map_of_mem hl) with ⟨hv, hm⟩ | ⟨hv, hm⟩
    · rw [show (withMagic caller l).source = l.source from rfl, hsrc] at hm
      exact .inl ⟨(signed_iff hlic).mpr hv, recorded_of_mem hsame (List.mem_append.mpr (.inr hm))⟩
    · rw [show (withMagic caller l).source = l.source from rfl, hsrc] at hm
      refine .inr ⟨fun hs => ?_, recorded_of_mem hsame (List.mem_append.mpr (.inr hm))⟩
      have := (signed_iff hlic).mp hs
      rw [show w.verify l.printForSign l.signature = .ok false from hv] at this
      simp at this
  refine ⟨?_, ?_, ?_, ?_, ?_⟩
  · intro he
    rcases hts with ⟨_, _, rfl⟩ | ⟨h1, _⟩ | ⟨h1, _⟩
    · exact hrec _ (by simp)
    · exact absurd he h1
    · exact absurd he (hcne h1)
  · intro he
    rcases hts with ⟨h1, _⟩ | ⟨_, _, _, rfl⟩ | ⟨_, _, rfl⟩
    · exact absurd h1 he
    · exact hrec _ (by simp)
    · exact hrec _ (by simp)
  · intro he hc
    rcases hts with ⟨h1, _⟩ | ⟨_, _, _, rfl⟩ | ⟨h1, _⟩
    · exact absurd h1 he
    · exact hrec _ (by simp)
    · exact absurd h1 hc
  · intro hc hs
    rcases hsig hc with ⟨_, h1⟩ | ⟨h1, _⟩
    · exact h1
    · exact absurd hs h1
  · intro hc hs
    rcases hsig hc with ⟨h1, _⟩ | ⟨_, h1⟩
    · exact absurd h1 hs
    · exact h1

/-- **C48**: without any complete section the call is refused, the clock is not even read, and no signature, date or
    hardware check is recorded. -/
theorem C48_incomplete_never_checked {cfg : Config} {w : World} {caller : Option Caller} {hint : Option LicenseLocation}
    {out : Option LicInfo} {res : AcquireResult} (h : acquire cfg w caller hint out = .ok res) {feature : Bytes}
    (hf : FeatureIs cfg caller feature) (hn : ∀ src text, Offers cfg w hint src text → ¬ Complete feature text) :
    res.ret ≠ .licenseOk ∧ res.ticks = 0
    ∧ ∀ e ∈ res.registry.logs, e.type ≠ .signatureVerified ∧ e.type ≠ .corrupted ∧ e.type ≠ .productExpired
        ∧ e.type ≠ .identifiersMismatch ∧ e.type ≠ .licenseOk := by
  obtain ⟨r, lics, es, es', vs, hr, hes, hje, hsame, hnil⟩ := acquire_log h hf
  have hl : lics = [] := by
    cases lics with
    | nil => rfl
    | cons l ls =>
      exfalso
      obtain ⟨src, text, ho, hi⟩ := (mem_readLicenses hr l).mp (by simp)
      exact hn src text ho (complete_of_licence hi)
  obtain ⟨h1, h2⟩ := hnil hl
  refine ⟨h1, h2, ?_⟩
  intro e he
  obtain ⟨x, hx, hxe⟩ := entry_of_logged hsame he
  have hes' : es' = [] := by
    rw [hl] at hje; cases hje; rfl
  rw [hes', List.append_nil] at hx
  rw [← hxe]
  rcases hes with ⟨_, _, rfl⟩ | hes
  · simp only [List.mem_singleton] at hx; subst hx; simp
  · have hst := search_stage hes hx
    have hst' := search_types hes hx
    exact ⟨fun hh => by have := hst 3 (by rw [hh]; rfl); omega, hst'.1, hst'.2.1, hst'.2.2,
      fun hh => by have := hst 4 (by rw [hh]; rfl); omega⟩

/-- A text with the section but without signature meets the hypotheses of `C48_incomplete_never_checked`. -/
example : ∀ src text, Offers sampleConfig { sampleWorld 0 with read := fun _ => some (b!"[TEST]\nlic_ver=200\n") } none src text →
    ¬ Complete (b!"TEST") text := by
  intro src text h
  have ht : text = b!"[TEST]\nlic_ver=200\n" := by
    cases h with
    | nearModule _ _ _ hc => simp only [Option.some.injEq] at hc; rw [← hc]; decide +kernel
    | envLocation h => simp [sampleConfig] at h
    | envData h => simp [sampleConfig] at h
    | envDataEncoded h => simp [sampleConfig] at h
    | hintPath h => simp at h
    | hintPathOddName h => simp at h
    | hintPlain h => simp at h
    | hintEncoded h => simp at h
  rw [ht]
  rintro ⟨⟨s, hs⟩, _⟩
  unfold entriesFor at hs
  rw [← Ini.C18_last_value] at hs
  exact absurd hs (by
    rw [show Ini.getValue (Ini.load (b!"[TEST]\nlic_ver=200\n")) (toUpperCopy (b!"TEST")) (b!"sig") = none from by decide +kernel]
    simp)

example : (resOf (acquire sampleConfig { sampleWorld 0 with read := fun _ => some (b!"[TEST]\nlic_ver=200\n") } none none none)).map
    (fun r => (r.ret, r.registry.logs.map Event.type)) = some (.malformed, [.found, .productFound, .malformed]) := by
  decide +kernel

end Licensecc
