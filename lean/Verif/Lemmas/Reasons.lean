import Verif.Lemmas.Acquire
import Verif.Spec.Reasons
/-!
# Lemmas: every recorded failure has its reason
-/
namespace Licensecc
open Licensecc.Spec

theorem refused_entry {p : Platform} {es : List Entry} {res : AcquireResult} (h : Refused p es res) : ∃ x ∈ es, x.1 = res.ret := by
  obtain ⟨_, e, he, ht, _⟩ := refused_failure h
  obtain ⟨⟨r0, b, h1, h2⟩, _⟩ := h
  have hi : r0.Inv := (exact_addHistory (h1.history (.empty _))).2.1
  obtain ⟨r1, f, g1, g2, _⟩ := turnWarnings_spec hi
  rw [g1] at h2; simp only [Outcome.ok.injEq, Prod.mk.injEq] at h2
  rw [h2.1] at g2
  obtain ⟨j, hj⟩ := List.mem_iff_getElem?.mp he
  obtain ⟨e0, he0, k1, _, _⟩ := (sameButSeverity_symm g2).get hj
  have hm := List.mem_of_getElem? he0
  rw [h1.logs] at hm
  simp only [Registry.empty, List.nil_append, List.mem_map] at hm
  obtain ⟨x, hx, rfl⟩ := hm
  exact ⟨x, hx, by rw [← ht, ← k1]; rfl⟩

theorem fileEntries_mem {w : World} {extra : Bytes} {ps : List Bytes} {x : Entry} (h : x ∈ fileEntries w extra ps) :
    ∃ p ∈ ps, x.1 = .specified ∨ (x.1 = .found ∧ w.probe p = true) ∨ (x.1 = .fileNotFound ∧ w.probe p = false) := by
  simp only [fileEntries, List.mem_flatMap] at h
  obtain ⟨p, hp, hx⟩ := h
  refine ⟨p, hp, ?_⟩
  simp only [List.mem_cons, List.not_mem_nil, or_false] at hx
  rcases hx with rfl | rfl
  · exact .inl rfl
  · cases hpr : w.probe p <;> simp

/-- Failures recorded while locating. -/
theorem locate_reason {cfg : Config} {w : World} {caller : Option Caller} {hint : Option LicenseLocation} {f : Bytes} {K : Nat}
    {l : Locator} (hl : l ∈ activeStrategies cfg hint) {x : Entry} (hx : x ∈ locateEntries w l) :
    IsFailure x.1 → Reason cfg w caller hint f K x.1 := by
  have files : ∀ {extra : Bytes} {ps : List Bytes}, (∀ p ∈ ps, Searched cfg w hint p) → x ∈ fileEntries w extra ps →
      IsFailure x.1 → Reason cfg w caller hint f K x.1 := by
    intro extra ps hs hx hf
    obtain ⟨p, hp, h⟩ := fileEntries_mem hx
    rcases h with h | ⟨h, _⟩ | ⟨h, hpr⟩
    · rw [h] at hf; simp [IsFailure, stage] at hf
    · rw [h] at hf; simp [IsFailure, stage] at hf
    · rw [h]; exact .noFile (hs p hp) hpr
  intro hf
  rw [mem_activeStrategies] at hl
  rcases hl with ⟨hn, rfl⟩ | ⟨he, rfl | rfl⟩ | ⟨loc, hh, rfl⟩
  · simp only [locateEntries] at hx
    cases hm : w.moduleName with
    | none => simp [hm] at hx
    | some m =>
      simp only [hm, List.mem_singleton] at hx
      subst hx
      cases hp : w.probe (removeExtension m ++ licenseExt)
      · simp only [hp]; exact .noFile (.nearModule hn hm) hp
      · simp only [hp, if_true] at hf; simp [IsFailure, stage] at hf
  · simp only [locateEntries] at hx
    rcases hv : w.getenv locationVar with _ | ⟨_ | ⟨c, v⟩⟩ <;> simp only [hv] at hx
    · simp only [List.mem_singleton] at hx; subst hx; exact .noLocationVar he (.inl hv)
    · simp only [List.mem_singleton] at hx; subst hx; exact .noLocationVar he (.inr hv)
    · exact files (fun p hp => .envLocation he hv hp) hx hf
  · simp only [locateEntries] at hx
    rcases hv : w.getenv dataVar with _ | ⟨_ | ⟨c, v⟩⟩ <;> simp only [hv] at hx
    · simp only [List.mem_singleton] at hx; subst hx; exact .noDataVar he (.inl hv)
    · simp only [List.mem_singleton] at hx; subst hx; exact .noDataVar he (.inr hv)
    · rcases List.mem_cons.mp hx with rfl | hx
      · simp [IsFailure, stage] at hf
      · split at hx
        · rename_i hid
          simp only [List.mem_singleton] at hx; subst hx; exact .unknownData he hv hid
        · simp at hx
  · obtain ⟨kind, data⟩ := loc
    cases data with
    | nil => simp [locateEntries] at hx
    | cons c data =>
      simp only [locateEntries] at hx
      split at hx
      · simp at hx
      · rcases List.mem_cons.mp hx with rfl | hx
        · simp [IsFailure, stage] at hf
        · split at hx
          · rename_i hk
            cases hd : boundedString (c :: data) maxLicenseData with
            | ok d =>
              simp only [hd] at hx
              exact files (fun p hp => .hintPath hh hk (boundedString_iff.mp hd) hp) hx hf
            | throw e => simp [hd] at hx
            | ub => simp [hd] at hx
          · simp at hx

theorem readEntries_mem {w : World} {f : Bytes} {l : Locator} {b : Bool} {locs : List Bytes} {es : List Entry} {lics : List FullLicense}
    (h : ReadEntries w f l b locs es lics) {x : Entry} (hx : x ∈ es) :
    ∃ src ∈ locs, ∃ text isl ts, retrieveContent w l b src = .ok text ∧ readTypes f text isl ts ∧ x.1 ∈ ts := by
  induction h with
  | nil => simp at hx
  | @cons src srcs text ts es lic lics h1 h2 h3 h4 ih =>
    rcases List.mem_append.mp hx with hx | hx
    · obtain ⟨t, ht, rfl⟩ := List.mem_map.mp hx
      exact ⟨src, by simp, text, _, ts, h1, h2, ht⟩
    · obtain ⟨s, hs, r⟩ := ih hx
      exact ⟨s, by simp [hs], r⟩

theorem searchEntries_mem {w : World} {f : Bytes} {ls : List Locator} {es : List Entry} {lics : List FullLicense}
    (h : SearchEntries w f ls es lics) :
    (∀ l ∈ ls, ∃ r1 r2 locs b, licenseLocations w l r1 = .ok (r2, locs, b))
    ∧ ∀ x ∈ es, (∃ l ∈ ls, x ∈ locateEntries w l)
      ∨ ∃ l ∈ ls, ∃ r1 r2 locs b src text isl ts, licenseLocations w l r1 = .ok (r2, locs, b) ∧ src ∈ locs
        ∧ retrieveContent w l b src = .ok text ∧ readTypes f text isl ts ∧ x.1 ∈ ts := by
  induction h with
  | nil => simp
  | @cons l ls r r' locs b es es' lics lics' h1 h2 h3 ih =>
    constructor
    · intro x hx
      rcases List.mem_cons.mp hx with rfl | hx
      · exact ⟨r, r', locs, b, h1⟩
      · exact ih.1 x hx
    · intro x hx
      rcases List.mem_append.mp hx with hx | hx
      · rcases List.mem_append.mp hx with hx | hx
        · exact .inl ⟨l, by simp, hx⟩
        · obtain ⟨src, hs, text, isl, ts, g⟩ := readEntries_mem h2 hx
          exact .inr ⟨l, by simp, r, r', locs, b, src, text, isl, ts, h1, hs, g⟩
      · rcases ih.2 x hx with ⟨l', hl, g⟩ | ⟨l', hl, g⟩
        · exact .inl ⟨l', by simp [hl], g⟩
        · exact .inr ⟨l', by simp [hl], g⟩

/-- Failures recorded while searching. -/
theorem search_reason {cfg : Config} {w : World} {caller : Option Caller} {hint : Option LicenseLocation} {f : Bytes} {K : Nat}
    {es : List Entry} {lics : List FullLicense} (h : SearchEntries w f (activeStrategies cfg hint) es lics)
    {x : Entry} (hx : x ∈ es) (hf : IsFailure x.1) : Reason cfg w caller hint f K x.1 := by
  obtain ⟨hok, hm⟩ := searchEntries_mem h
  rcases hm x hx with ⟨l, hl, hxl⟩ | ⟨l, hl, r1, r2, locs, b, src, text, isl, ts, h1, h2, h3, h4, h5⟩
  · exact locate_reason hl hxl hf
  · have ho : Offers cfg w hint src text := (located_iff hok src text).mp ⟨l, hl, r1, r2, locs, b, h1, h2, h3⟩
    rcases h4 with ⟨g1, _, rfl⟩ | ⟨g1, g2, _, rfl⟩ | ⟨_, _, rfl⟩
    · simp only [List.mem_singleton] at h5; rw [h5]; exact .noSection ho g1
    · simp only [List.mem_cons, List.not_mem_nil, or_false] at h5
      rcases h5 with h5 | h5
      · rw [h5] at hf; simp [IsFailure, stage] at hf
      · rw [h5]; exact .incomplete ho g1 g2
    · simp only [List.mem_singleton] at h5; rw [h5] at hf; simp [IsFailure, stage] at hf

theorem judgeEntries_mem {cfg : Config} {w : World} {K : Nat} {ls : List FullLicense} {vs : List Bool} {es : List Entry}
    (h : JudgeEntries cfg w K ls vs es) {x : Entry} (hx : x ∈ es) :
    ∃ l ∈ ls, (w.verify l.printForSign l.signature = .ok false ∧ x = (.corrupted, some l.source, none))
      ∨ (w.verify l.printForSign l.signature = .ok true ∧ (x = (.signatureVerified, some l.source, none)
          ∨ ∃ j v les, j < K ∧ LimitEntries cfg w l (w.clock j) v les ∧ x ∈ les)) := by
  induction h with
  | nil => simp at hx
  | @unsigned l ls vs es h1 _ ih =>
    rcases List.mem_cons.mp hx with rfl | hx
    · exact ⟨l, by simp, .inl ⟨h1, rfl⟩⟩
    · obtain ⟨l', hl, g⟩ := ih hx; exact ⟨l', by simp [hl], g⟩
  | @signed l ls v vs es es' j h1 h2 h3 _ ih =>
    rcases List.mem_append.mp hx with hx | hx
    · rcases List.mem_cons.mp hx with rfl | hx
      · exact ⟨l, by simp, .inr ⟨h1, .inl rfl⟩⟩
      · exact ⟨l, by simp, .inr ⟨h1, .inr ⟨j, v, es, h2, h3, hx⟩⟩⟩
    · obtain ⟨l', hl, g⟩ := ih hx; exact ⟨l', by simp [hl], g⟩

theorem complete_of_licence {f src text : Bytes} {l : FullLicense} (h : IsLicence f src text l) : Complete f text :=
  ⟨⟨_, h.signature⟩, (Ini.toLong_200 _).mp h.version⟩

theorem signed_iff {w : World} {f src text : Bytes} {l : FullLicense} (hl : IsLicence f src text l) :
    Signed w f text ↔ w.verify l.printForSign l.signature = .ok true := by
  constructor
  · rintro ⟨s, data, hs, hd, hv⟩
    have e1 : s = l.signature := by have := hl.signature; rw [show lastValue kSig _ = _ from hs] at this; simpa using this
    have e2 : data = l.printForSign := signingData_unique hd (signingData_of_licence hl)
    subst e1; subst e2; exact hv
  · intro h
    exact ⟨_, _, hl.signature, signingData_of_licence hl, h⟩

/-- Failures recorded while judging. -/
theorem judge_reason {cfg : Config} {w : World} {caller : Option Caller} {hint : Option LicenseLocation} {f : Bytes} {K : Nat}
    {r : Registry} {lics : List FullLicense} {vs : List Bool} {es : List Entry} (hr : readLicenses cfg w hint f = .ok (r, lics))
    (h : JudgeEntries cfg w K (lics.map (withMagic caller)) vs es)
    {x : Entry} (hx : x ∈ es) (hf : IsFailure x.1) : Reason cfg w caller hint f K x.1 := by
  obtain ⟨l', hl', hc⟩ := judgeEntries_mem h hx
  obtain ⟨l, hl, rfl⟩ := List.mem_map.mp hl'
  obtain ⟨src, text, ho, hlic⟩ := (mem_readLicenses hr l).mp hl
  have hcomp := complete_of_licence hlic
  have hm : (withMagic caller l).magic = magicOf caller := by
    cases caller <;> simp [withMagic, magicOf, hlic.magic]
  rcases hc with ⟨hv, rfl⟩ | ⟨hv, rfl | ⟨j, v, les, hj, hle, hxl⟩⟩
  · refine .badSignature ho hcomp ?_
    rw [signed_iff hlic]
    intro hv'
    rw [show w.verify l.printForSign l.signature = .ok false from hv] at hv'
    simp at hv'
  · simp [IsFailure, stage] at hf
  · have hs : Signed w f text := (signed_iff hlic).mpr hv
    cases hle with
    | magic hne => simp only [List.mem_singleton] at hxl; subst hxl; rw [hm] at hne; exact .badMagic ho hcomp hs hne
    | expired h1 h2 h3 =>
      simp only [List.mem_singleton] at hxl; subst hxl
      exact .expired ho hcomp hs ((hlic.limits _ _).mp h1) h2 hj h3
    | early h1 h2 h3 =>
      simp only [List.mem_singleton] at hxl; subst hxl
      exact .early ho hcomp hs ((hlic.limits _ _).mp h1) h2 hj h3
    | @client s ev h1 h2 =>
      simp only [List.mem_singleton] at hxl; subst hxl
      rcases C28_two_answers _ _ _ h2 with rfl | rfl
      · simp [IsFailure, stage] at hf
      · refine .otherHardware ho hcomp hs ?_
        intro hon
        have := (C27_validate_iff w.machine s).mpr (hon s ((hlic.limits _ _).mp h1))
        rw [h2] at this; simp at this
    | nothing _ => simp at hxl

end Licensecc
