import Verif.Spec.Located
import Verif.Lemmas.Reasons
/-!
# The licences are read from the located texts, in order
-/
namespace Licensecc
open Licensecc.Spec

/-- The located texts of one locator. -/
def locatedBy (w : World) : Locator → List (Bytes × Bytes)
  | .applicationFolder => (w.moduleName.toList.map (fun m => removeExtension m ++ licenseExt)).filterMap (fileText w)
  | .environmentVarLocation => (splitString ((w.getenv locationVar).getD []) 59).filterMap (fileText w)
  | .environmentVarData => (dataText w).toList
  | .externalDefinition l => hintTexts w l

theorem located_flatMap (cfg : Config) (w : World) (hint : Option LicenseLocation) :
    located cfg w hint = (activeStrategies cfg hint).flatMap (locatedBy w) := by
  unfold located activeStrategies
  rw [List.flatMap_append, List.flatMap_append]
  cases cfg.nearModule <;> cases cfg.withEnvVar <;> cases hint <;> simp [locatedBy, List.append_assoc]

/-- The text at a location. -/
def textOf (w : World) (l : Locator) (b : Bool) (src : Bytes) : Bytes := match retrieveContent w l b src with
  | .ok t => t
  | _ => []

theorem takeWhile_all {d : Bytes} (h0 : 0 ∉ d) : d.takeWhile (· ≠ 0) = d := by
  induction d with
  | nil => rfl
  | cons c d ih =>
    simp only [List.mem_cons, not_or] at h0
    rw [List.takeWhile_cons, if_pos (by simpa using fun h => h0.1 h.symm), ih h0.2]

theorem textIn_eq {mem d : Bytes} {n : Nat} (h : TextIn mem n d) : d = (mem.take n).takeWhile (· ≠ 0) := by
  obtain ⟨h0, ⟨rest, rfl, hl⟩ | ⟨c, rest, rfl, hl⟩⟩ := h
  · rw [List.take_append]
    by_cases hn : d.length = n
    · subst hn
      rw [List.take_length, Nat.sub_self, List.take_zero, List.append_nil, takeWhile_all h0]
    · rw [List.take_of_length_le (by omega), show n - d.length = (n - d.length - 1) + 1 by omega, List.take_succ_cons]
      exact (Ini.cut_append_nul h0).symm
  · subst hl
    rw [List.take_left, takeWhile_all h0]

theorem filterMap_files {w : World} {ps : List Bytes} {g : Bytes → Bytes}
    (h : ∀ p ∈ ps, w.probe p = true → ∃ c, w.read p = some c ∧ g p = c.take 4096) :
    ps.filterMap (fileText w) = (ps.filter w.probe).map fun s => (s, g s) := by
  induction ps with
  | nil => rfl
  | cons p ps ih =>
    have ih := ih (fun q hq => h q (by simp [hq]))
    rw [List.filterMap_cons, List.filter_cons]
    unfold fileText
    by_cases hp : w.probe p = true
    · obtain ⟨c, hc, hg⟩ := h p (by simp) hp
      simp only [hp, if_true, hc, Option.map_some, List.map_cons, hg]
      rw [← ih]; rfl
    · simp only [hp, Bool.false_eq_true, if_false]
      exact ih

theorem filterMap_probe {w : World} {ps : List Bytes} {F : Bytes → Option (Bytes × Bytes)} {g : Bytes → Bytes}
    (h : ∀ p ∈ ps, w.probe p = true → F p = some (p, g p)) (h' : ∀ p ∈ ps, ¬ w.probe p = true → F p = none) :
    ps.filterMap F = (ps.filter w.probe).map fun s => (s, g s) := by
  induction ps with
  | nil => rfl
  | cons p ps ih =>
    have ih := ih (fun q hq => h q (by simp [hq])) (fun q hq => h' q (by simp [hq]))
    rw [List.filterMap_cons, List.filter_cons]
    by_cases hp : w.probe p = true
    · rw [h p (by simp) hp, if_pos hp, List.map_cons, ih]
    · rw [h' p (by simp) hp, if_neg hp, ih]

theorem decodedText_of {v d t : Bytes} (h1 : unbase64 v = .ok d) (h2 : stringOfVector d = .ok t) : decodedText v = some t := by
  unfold decodedText
  rw [h1]
  unfold stringOfVector at h2
  split at h2
  · rename_i h0; simp only [Outcome.ok.injEq] at h2; simp [h0, ← h2]
  · simp at h2

theorem locatedBy_eq {w : World} {l : Locator} {r r' : Registry} {locs : List Bytes} {b : Bool}
    (h : licenseLocations w l r = .ok (r', locs, b)) (hr : ∀ src ∈ locs, ∃ t, retrieveContent w l b src = .ok t) :
    locatedBy w l = locs.map fun s => (s, textOf w l b s) := by
  cases l with
  | applicationFolder =>
    simp only [licenseLocations] at h
    simp only [locatedBy]
    cases hm : w.moduleName with
    | none => simp only [hm, logged_ok, Outcome.ok.injEq, Prod.mk.injEq] at h; simp [← h.2.2.1]
    | some m =>
      simp only [hm] at h
      rw [show (some m).toList.map (fun m => removeExtension m ++ licenseExt) = [removeExtension m ++ licenseExt] from rfl]
      rw [filterMap_files (g := textOf w .applicationFolder b)]
      · by_cases hp : w.probe (removeExtension m ++ licenseExt) = true
        · simp only [hp, if_true] at h
          obtain ⟨r1, _, h⟩ := Outcome.bind_eq_ok.mp h
          simp only [Outcome.pure_eq, Outcome.ok.injEq, Prod.mk.injEq] at h
          rw [← h.2.1]; simp [hp]
        · simp only [hp] at h
          obtain ⟨r1, _, h⟩ := Outcome.bind_eq_ok.mp h
          simp only [Outcome.pure_eq, Outcome.ok.injEq, Prod.mk.injEq] at h
          rw [← h.2.1]; simp [hp]
      · intro p hp hpr
        simp only [List.mem_singleton] at hp
        subst hp
        simp only [hpr, if_true] at h
        obtain ⟨r1, _, h⟩ := Outcome.bind_eq_ok.mp h
        simp only [Outcome.pure_eq, Outcome.ok.injEq, Prod.mk.injEq] at h
        obtain ⟨t, ht⟩ := hr (removeExtension m ++ licenseExt) (by rw [← h.2.1]; simp)
        have ht' := ht
        simp only [retrieveContent, getFileContents_iff] at ht
        obtain ⟨x, hx, rfl⟩ := ht
        exact ⟨x, hx, by simp only [textOf, ht']⟩
  | environmentVarLocation =>
    have files : ∀ {v : Bytes} {fs : List Bytes}, fs = (splitString v 59).filter w.probe → locs = fs →
        (splitString v 59).filterMap (fileText w) = locs.map fun s => (s, textOf w .environmentVarLocation b s) := by
      intro v fs h1 h2
      rw [filterMap_files (g := textOf w .environmentVarLocation b), h2, h1]
      intro p hp hpr
      obtain ⟨t, ht⟩ := hr p (by rw [h2, h1]; simp [hp, hpr])
      have ht' := ht
      simp only [retrieveContent, getFileContents_iff] at ht
      obtain ⟨x, hx, rfl⟩ := ht
      exact ⟨x, hx, by simp only [textOf, ht']⟩
    simp only [licenseLocations] at h
    simp only [locatedBy]
    rcases hv : w.getenv locationVar with _ | ⟨_ | ⟨c, v⟩⟩ <;> simp only [hv] at h
    · obtain ⟨r1, _, h⟩ := Outcome.bind_eq_ok.mp h
      simp only [Outcome.pure_eq, Outcome.ok.injEq, Prod.mk.injEq] at h
      rw [← h.2.1]; rfl
    · obtain ⟨r1, _, h⟩ := Outcome.bind_eq_ok.mp h
      simp only [Outcome.pure_eq, Outcome.ok.injEq, Prod.mk.injEq] at h
      rw [← h.2.1]; rfl
    · obtain ⟨⟨r1, fs⟩, h1, h⟩ := Outcome.bind_eq_ok.mp h
      simp only [Outcome.pure_eq, Outcome.ok.injEq, Prod.mk.injEq] at h
      exact files (filterExistingFiles_mem h1) h.2.1.symm
  | environmentVarData =>
    simp only [licenseLocations] at h
    simp only [locatedBy, dataText]
    rcases hv : w.getenv dataVar with _ | ⟨_ | ⟨c, v⟩⟩ <;> simp only [hv] at h
    · obtain ⟨r1, _, h⟩ := Outcome.bind_eq_ok.mp h
      simp only [Outcome.pure_eq, Outcome.ok.injEq, Prod.mk.injEq] at h
      rw [← h.2.1]; rfl
    · obtain ⟨r1, _, h⟩ := Outcome.bind_eq_ok.mp h
      simp only [Outcome.pure_eq, Outcome.ok.injEq, Prod.mk.injEq] at h
      rw [← h.2.1]
      cases w.getenv locationVar <;> rfl
    · obtain ⟨r1, _, h⟩ := Outcome.bind_eq_ok.mp h
      cases hf : identifyFormat (c :: v) <;> simp only [hf] at h
      · simp only [Outcome.pure_eq, Outcome.ok.injEq, Prod.mk.injEq] at h
        rw [← h.2.1, ← h.2.2]
        obtain ⟨t, ht⟩ := hr locationVar (by rw [← h.2.1]; simp)
        have ht' := ht
        rw [← h.2.2] at ht'
        simp only [retrieveContent] at ht
        cases hl : w.getenv locationVar with
        | none => simp [hl] at ht
        | some x =>
          simp only [hl, ← h.2.2, Bool.false_eq_true, if_false, Outcome.ok.injEq] at ht
          simp [hf, textOf, ht', ht]
      · simp only [Outcome.pure_eq, Outcome.ok.injEq, Prod.mk.injEq] at h
        rw [← h.2.1, ← h.2.2]
        obtain ⟨t, ht⟩ := hr locationVar (by rw [← h.2.1]; simp)
        have ht' := ht
        rw [← h.2.2] at ht'
        simp only [retrieveContent] at ht
        cases hl : w.getenv locationVar with
        | none => simp [hl] at ht
        | some x =>
          simp only [hl, ← h.2.2, if_true] at ht
          obtain ⟨u, hu, ht⟩ := Outcome.bind_eq_ok.mp ht
          simp [hf, decodedText_of hu ht, textOf, ht']
      · obtain ⟨r2, _, h⟩ := Outcome.bind_eq_ok.mp h
        simp only [Outcome.pure_eq, Outcome.ok.injEq, Prod.mk.injEq] at h
        rw [← h.2.1]
        cases w.getenv locationVar <;> simp [hf]
  | externalDefinition loc =>
    obtain ⟨kind, data⟩ := loc
    cases data with
    | nil => simp [licenseLocations] at h
    | cons c data =>
      simp only [licenseLocations] at h
      simp only [locatedBy, hintTexts]
      by_cases hc : c = 0
      · simp only [hc, if_true, Outcome.ok.injEq, Prod.mk.injEq] at h
        rw [← h.2.1, hc]; simp
      · simp only [hc, if_false] at h
        have hne : ((c :: data).take 4096).takeWhile (· ≠ 0) ≠ [] := by simp [hc]
        simp only [hne, if_false]
        obtain ⟨r1, h1, h⟩ := Outcome.bind_eq_ok.mp h
        by_cases hk : kind = 0
        · simp only [hk, if_true] at h ⊢
          obtain ⟨d, hd, h⟩ := Outcome.bind_eq_ok.mp h
          obtain ⟨⟨r2, fs⟩, h2, h⟩ := Outcome.bind_eq_ok.mp h
          simp only [Outcome.pure_eq, Outcome.ok.injEq, Prod.mk.injEq] at h
          rw [← textIn_eq (boundedString_iff.mp hd)]
          rw [← h.2.1, filterExistingFiles_mem h2] at hr
          rw [← h.2.1, filterExistingFiles_mem h2]
          subst hk
          apply filterMap_probe
          · intro p hp hpr
            obtain ⟨t, ht⟩ := hr p (List.mem_filter.mpr ⟨hp, hpr⟩)
            have ht' := ht
            simp only [retrieveContent, hd] at ht
            simp only [textOf, ht']
            by_cases he : p = externalName
            · rw [if_pos he, if_pos hpr]
              simp [he] at ht
              rw [ht]
            · rw [if_neg he]
              simp only [he, if_false, getFileContents_iff] at ht
              obtain ⟨x, hx, rfl⟩ := ht
              simp [fileText, hpr, hx]
          · intro p _ hpr
            simp [fileText, hpr]
        · simp only [hk, if_false] at h ⊢
          split at h
          · rename_i hk12
            simp only [Outcome.pure_eq, Outcome.ok.injEq, Prod.mk.injEq] at h
            rw [← h.2.1] at hr ⊢
            obtain ⟨t, ht⟩ := hr externalName (by simp)
            have ht' := ht
            simp only [retrieveContent, if_true] at ht
            obtain ⟨d, hd, ht⟩ := Outcome.bind_eq_ok.mp ht
            rw [← textIn_eq (boundedString_iff.mp hd)]
            simp only [List.map_cons, List.map_nil, textOf, ht']
            by_cases hk1 : kind = 1
            · simp [hk1] at ht ⊢
              exact ht
            · have hk2 : kind = 2 := by omega
              simp only [hk2, if_true] at ht
              obtain ⟨u, hu, ht⟩ := Outcome.bind_eq_ok.mp ht
              simp [hk1, decodedText_of hu ht]
          · simp at h

/-- The licences of a list of texts, in order. -/
inductive LicencesOf (f : Bytes) : List (Bytes × Bytes) → List FullLicense → Prop
  | nil : LicencesOf f [] []
  | skip {src text ps ls} : ¬ Complete f text → LicencesOf f ps ls → LicencesOf f ((src, text) :: ps) ls
  | take {src text ps l ls} : IsLicence f src text l → LicencesOf f ps ls → LicencesOf f ((src, text) :: ps) (l :: ls)

theorem LicencesOf.append {f : Bytes} {ps ps' : List (Bytes × Bytes)} {ls ls' : List FullLicense}
    (h : LicencesOf f ps ls) (h' : LicencesOf f ps' ls') : LicencesOf f (ps ++ ps') (ls ++ ls') := by
  induction h with
  | nil => exact h'
  | skip h1 _ ih => exact .skip h1 ih
  | take h1 _ ih => exact .take h1 ih

/-- References of the events that say a text was read. -/
def readRefs (es : List Entry) : List (Option Bytes) :=
  (es.filter fun x => x.1 = .productFound ∨ x.1 = .productNotLicensed).map fun x => x.2.1

theorem readRefs_append (es es' : List Entry) : readRefs (es ++ es') = readRefs es ++ readRefs es' := by
  simp [readRefs]

theorem readEntries_ordered {w : World} {f : Bytes} {l : Locator} {b : Bool} {locs : List Bytes} {es : List Entry}
    {lics : List FullLicense} (h : ReadEntries w f l b locs es lics) :
    (∀ src ∈ locs, ∃ t, retrieveContent w l b src = .ok t)
    ∧ LicencesOf f (locs.map fun s => (s, textOf w l b s)) lics ∧ readRefs es = locs.map some := by
  induction h with
  | nil => exact ⟨by simp, .nil, rfl⟩
  | @cons src srcs text ts es lic lics h1 h2 h3 h4 ih =>
    obtain ⟨ih1, ih2, ih3⟩ := ih
    refine ⟨?_, ?_, ?_⟩
    · intro s hs
      rcases List.mem_cons.mp hs with rfl | hs
      · exact ⟨text, h1⟩
      · exact ih1 s hs
    · have ht : textOf w l b src = text := by simp [textOf, h1]
      rw [List.map_cons, ht]
      cases lic with
      | none =>
        refine .skip ?_ ih2
        intro hc
        obtain ⟨x, hx⟩ := exists_licence (src := src) hc
        have := (h3 x).mpr hx
        simp at this
      | some x => exact .take ((h3 x).mp rfl) ih2
    · rw [readRefs_append, ih3]
      rcases h2 with ⟨_, _, rfl⟩ | ⟨_, _, _, rfl⟩ | ⟨_, _, rfl⟩ <;> simp [readRefs]

theorem locateEntries_no_read (w : World) (l : Locator) : readRefs (locateEntries w l) = [] := by
  have files : ∀ {extra : Bytes} {ps : List Bytes}, readRefs (fileEntries w extra ps) = [] := by
    intro extra ps
    simp only [readRefs, List.map_eq_nil_iff, List.filter_eq_nil_iff]
    intro x hx
    obtain ⟨p, _, h | ⟨h, _⟩ | ⟨h, _⟩⟩ := fileEntries_mem hx <;> simp [h]
  cases l with
  | applicationFolder =>
    simp only [locateEntries]
    cases w.moduleName with
    | none => rfl
    | some m => dsimp only; split <;> rfl
  | environmentVarLocation =>
    simp only [locateEntries]
    split
    · exact files
    · rfl
  | environmentVarData =>
    simp only [locateEntries]
    split
    · split <;> rfl
    · rfl
  | externalDefinition loc =>
    simp only [locateEntries]
    split
    · rfl
    · split
      · rfl
      · rw [show ∀ (x : Entry) (xs : List Entry), x :: xs = [x] ++ xs from fun _ _ => rfl, readRefs_append]
        split
        · split
          · rw [files]; rfl
          · rfl
        · rfl

theorem searchEntries_ordered {w : World} {f : Bytes} {ls : List Locator} {es : List Entry} {lics : List FullLicense}
    (h : SearchEntries w f ls es lics) :
    LicencesOf f (ls.flatMap (locatedBy w)) lics
    ∧ readRefs es = (ls.flatMap (locatedBy w)).map fun p => some p.1 := by
  induction h with
  | nil => exact ⟨.nil, rfl⟩
  | @cons l ls r r' locs b es es' lics lics' h1 h2 h3 ih =>
    obtain ⟨g1, g2, g3⟩ := readEntries_ordered h2
    have he := locatedBy_eq h1 g1
    rw [List.flatMap_cons]
    refine ⟨?_, ?_⟩
    · rw [he]; exact g2.append ih.1
    · rw [readRefs_append, readRefs_append, locateEntries_no_read, g3, ih.2, he]
      simp

theorem licencesOf_located {cfg : Config} {w : World} {hint : Option LicenseLocation} {f : Bytes} {es : List Entry}
    {lics : List FullLicense} (h : (activeStrategies cfg hint = [] ∧ lics = [] ∧ es = [(.fileNotFound, none, none)])
         ∨ SearchEntries w f (activeStrategies cfg hint) es lics) :
    LicencesOf f (located cfg w hint) lics ∧ readRefs es = (located cfg w hint).map fun p => some p.1 := by
  rw [located_flatMap]
  rcases h with ⟨h1, h2, h3⟩ | h
  · rw [h1, h2, h3]; exact ⟨.nil, rfl⟩
  · exact searchEntries_ordered h

end Licensecc
