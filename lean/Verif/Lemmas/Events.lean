import Verif.Lemmas.Verifier
import Verif.Props.EventRegistryOrder
/-!
# The events recorded during a call
-/
namespace Licensecc
open Licensecc.Spec

/-- Arguments of a call of `addEvent`. -/
abbrev Entry := EventType × Option Bytes × Option Bytes

/-- The event recorded for such a call. -/
def Entry.event (p : Platform) (x : Entry) : Event := Registry.mkEvent p x.1 x.2.1 x.2.2

/-- `r'` results from `r` by recording the entries in order. -/
inductive Adds : Registry → List Entry → Registry → Prop
  | nil {r} : Adds r [] r
  | cons {r r1 r' t a b es} : r.addEvent t a b = .ok r1 → Adds r1 es r' → Adds r ((t, a, b) :: es) r'

theorem Adds.one {r r' : Registry} {t : EventType} {a b : Option Bytes} (h : r.addEvent t a b = .ok r') :
    Adds r [(t, a, b)] r' := .cons h .nil

theorem Adds.trans {r r1 r2 : Registry} {es es' : List Entry} (h : Adds r es r1) (h' : Adds r1 es' r2) :
    Adds r (es ++ es') r2 := by
  induction h with
  | nil => exact h'
  | cons h1 _ ih => exact .cons h1 (ih h')

theorem Adds.logs {r r' : Registry} {es : List Entry} (h : Adds r es r') : r'.logs = r.logs ++ es.map (Entry.event r.platform) := by
  induction h with
  | nil => simp
  | cons h1 _ ih => rw [ih, (addEvent_cases h1).1, addEvent_platform h1]; simp [Entry.event]

theorem Adds.history {r r' : Registry} {es : List Entry} (h : Adds r es r') (hr : AddHistory r) : AddHistory r' := by
  induction h with
  | nil => exact hr
  | cons h1 _ ih => exact ih (.add hr h1)

theorem addHistory_history {r : Registry} (h : AddHistory r) : ∃ l, History l r := by
  induction h with
  | empty p => exact ⟨[], .empty p⟩
  | add _ h ih => obtain ⟨l, hl⟩ := ih; exact ⟨_, .add hl h⟩

/-! ## Locating -/

/-- Events of the search through a list of files. -/
def fileEntries (w : World) (extra : Bytes) (ps : List Bytes) : List Entry :=
  ps.flatMap fun p => [(.specified, some p, some extra), (if w.probe p then .found else .fileNotFound, some p, some extra)]

theorem filterExistingFiles_adds {w : World} {extra : Bytes} {ps : List Bytes} : ∀ {r r' : Registry} {fs : List Bytes},
    filterExistingFiles w extra r ps = .ok (r', fs) → Adds r (fileEntries w extra ps) r' := by
  induction ps with
  | nil => intro r r' fs h; simp [filterExistingFiles] at h; obtain ⟨rfl, _⟩ := h; exact .nil
  | cons p ps ih =>
    intro r r' fs h
    rw [filterExistingFiles] at h
    obtain ⟨r1, h1, h⟩ := Outcome.bind_eq_ok.mp h
    simp only [fileEntries, List.flatMap_cons]
    split at h
    · rename_i hp
      obtain ⟨r2, h2, h⟩ := Outcome.bind_eq_ok.mp h
      obtain ⟨⟨r3, fs'⟩, h3, h⟩ := Outcome.bind_eq_ok.mp h
      simp only [Outcome.pure_eq, Outcome.ok.injEq, Prod.mk.injEq] at h
      obtain ⟨rfl, _⟩ := h
      simp only [hp, if_true]
      exact .cons h1 (.cons h2 (ih h3))
    · rename_i hp
      obtain ⟨r2, h2, h⟩ := Outcome.bind_eq_ok.mp h
      simp only [hp]
      exact .cons h1 (.cons h2 (ih h))

/-- Events of a locator. -/
def locateEntries (w : World) : Locator → List Entry
  | .applicationFolder => match w.moduleName with
    | none => []
    | some m => [(if w.probe (removeExtension m ++ licenseExt) then .found else .fileNotFound, some (removeExtension m ++ licenseExt), none)]
  | .environmentVarLocation => match w.getenv locationVar with
    | some (c :: v) => fileEntries w locationVar (splitString (c :: v) 59)
    | _ => [(.envVarNotDefined, none, none)]
  | .environmentVarData => match w.getenv dataVar with
    | some (c :: v) => (.specified, some locationVar, none) ::
        (if identifyFormat (c :: v) = .unknown then [(.malformed, some locationVar, none)] else [])
    | _ => [(.envVarNotDefined, some locationVar, none)]
  | .externalDefinition loc => match loc.data with
    | [] => []
    | c :: _ => if c = 0 then [] else (.specified, some externalName, none) ::
        (if loc.kind = 0 then match boundedString loc.data maxLicenseData with
          | .ok d => fileEntries w externalName (splitString d 59)
          | _ => []
        else [])

theorem licenseLocations_adds {w : World} {l : Locator} {r r' : Registry} {locs : List Bytes} {b : Bool}
    (h : licenseLocations w l r = .ok (r', locs, b)) : Adds r (locateEntries w l) r' := by
  cases l with
  | applicationFolder =>
    simp only [licenseLocations, locateEntries] at h ⊢
    cases hm : w.moduleName with
    | none => simp only [hm, logged_ok, Outcome.ok.injEq, Prod.mk.injEq] at h ⊢; obtain ⟨_, rfl, _⟩ := h; exact .nil
    | some m =>
      simp only [hm] at h ⊢
      by_cases hp : w.probe (removeExtension m ++ licenseExt) = true
      · simp only [hp, if_true] at h ⊢
        obtain ⟨r1, h1, h⟩ := Outcome.bind_eq_ok.mp h
        simp only [Outcome.pure_eq, Outcome.ok.injEq, Prod.mk.injEq] at h; obtain ⟨rfl, _⟩ := h
        exact .one h1
      · simp only [hp] at h ⊢
        obtain ⟨r1, h1, h⟩ := Outcome.bind_eq_ok.mp h
        simp only [Outcome.pure_eq, Outcome.ok.injEq, Prod.mk.injEq] at h; obtain ⟨rfl, _⟩ := h
        exact .one h1
  | environmentVarLocation =>
    simp only [licenseLocations, locateEntries] at h ⊢
    rcases hv : w.getenv locationVar with _ | ⟨_ | ⟨c, v⟩⟩ <;> simp only [hv] at h ⊢
    · obtain ⟨r1, h1, h⟩ := Outcome.bind_eq_ok.mp h
      simp only [Outcome.pure_eq, Outcome.ok.injEq, Prod.mk.injEq] at h; obtain ⟨rfl, _⟩ := h
      exact .one h1
    · obtain ⟨r1, h1, h⟩ := Outcome.bind_eq_ok.mp h
      simp only [Outcome.pure_eq, Outcome.ok.injEq, Prod.mk.injEq] at h; obtain ⟨rfl, _⟩ := h
      exact .one h1
    · obtain ⟨⟨r1, fs⟩, h1, h⟩ := Outcome.bind_eq_ok.mp h
      simp only [Outcome.pure_eq, Outcome.ok.injEq, Prod.mk.injEq] at h; obtain ⟨rfl, _⟩ := h
      exact filterExistingFiles_adds h1
  | environmentVarData =>
    simp only [licenseLocations, locateEntries] at h ⊢
    rcases hv : w.getenv dataVar with _ | ⟨_ | ⟨c, v⟩⟩ <;> simp only [hv] at h ⊢
    · obtain ⟨r1, h1, h⟩ := Outcome.bind_eq_ok.mp h
      simp only [Outcome.pure_eq, Outcome.ok.injEq, Prod.mk.injEq] at h; obtain ⟨rfl, _⟩ := h
      exact .one h1
    · obtain ⟨r1, h1, h⟩ := Outcome.bind_eq_ok.mp h
      simp only [Outcome.pure_eq, Outcome.ok.injEq, Prod.mk.injEq] at h; obtain ⟨rfl, _⟩ := h
      exact .one h1
    · obtain ⟨r1, h1, h⟩ := Outcome.bind_eq_ok.mp h
      cases hf : identifyFormat (c :: v) <;> simp only [hf, reduceCtorEq, if_true, if_false] at h ⊢
      · simp only [Outcome.pure_eq, Outcome.ok.injEq, Prod.mk.injEq] at h; obtain ⟨rfl, _⟩ := h
        exact .one h1
      · simp only [Outcome.pure_eq, Outcome.ok.injEq, Prod.mk.injEq] at h; obtain ⟨rfl, _⟩ := h
        exact .one h1
      · obtain ⟨r2, h2, h⟩ := Outcome.bind_eq_ok.mp h
        simp only [Outcome.pure_eq, Outcome.ok.injEq, Prod.mk.injEq] at h; obtain ⟨rfl, _⟩ := h
        exact .cons h1 (.one h2)
  | externalDefinition loc =>
    obtain ⟨kind, data⟩ := loc
    cases data with
    | nil => simp [licenseLocations] at h
    | cons c data =>
      simp only [licenseLocations, locateEntries] at h ⊢
      by_cases hc : c = 0
      · simp only [hc, if_true, Outcome.ok.injEq, Prod.mk.injEq] at h ⊢; obtain ⟨rfl, _⟩ := h; exact .nil
      · simp only [hc, if_false] at h ⊢
        obtain ⟨r1, h1, h⟩ := Outcome.bind_eq_ok.mp h
        by_cases hk : kind = 0
        · simp only [hk, if_true] at h ⊢
          obtain ⟨d, hd, h⟩ := Outcome.bind_eq_ok.mp h
          obtain ⟨⟨r2, fs⟩, h2, h⟩ := Outcome.bind_eq_ok.mp h
          simp only [Outcome.pure_eq, Outcome.ok.injEq, Prod.mk.injEq] at h; obtain ⟨rfl, _⟩ := h
          rw [hd]
          exact .cons h1 (filterExistingFiles_adds h2)
        · simp only [hk, if_false] at h ⊢
          split at h
          · simp only [Outcome.pure_eq, Outcome.ok.injEq, Prod.mk.injEq] at h; obtain ⟨rfl, _⟩ := h
            exact .one h1
          · simp at h

/-! ## Reading -/

/-- Event types recorded for a located text, and whether it is a licence. -/
def readTypes (feature text : Bytes) (isLicence : Bool) : List EventType → Prop := fun ts =>
  (entriesFor feature text = [] ∧ isLicence = false ∧ ts = [.productNotLicensed])
  ∨ (entriesFor feature text ≠ [] ∧ ¬ Complete feature text ∧ isLicence = false ∧ ts = [.productFound, .malformed])
  ∨ (Complete feature text ∧ isLicence = true ∧ ts = [.productFound])

theorem readOne_adds {feature src text : Bytes} {r r' : Registry} {o : Option FullLicense}
    (h : readOne feature r src text = .ok (r', o)) :
    ∃ ts, readTypes feature text o.isSome ts ∧ Adds r (ts.map fun t => (t, some src, none)) r' := by
  have hsize := Ini.C18_section_size text (toUpperCopy feature)
  have hv : ∀ k, Ini.getValue (Ini.load text) (toUpperCopy feature) k = lastValue k (entriesFor feature text) := fun k =>
    Ini.C18_last_value text (toUpperCopy feature) k
  simp only [readOne, hv] at h
  split at h
  · rename_i hz
    obtain ⟨r1, h1, h⟩ := Outcome.bind_eq_ok.mp h
    simp only [Outcome.pure_eq, Outcome.ok.injEq, Prod.mk.injEq] at h; obtain ⟨rfl, rfl⟩ := h
    refine ⟨[.productNotLicensed], .inl ⟨?_, rfl, rfl⟩, .one h1⟩
    unfold entriesFor
    apply Classical.byContradiction
    intro hne
    have := hsize.mpr hne
    omega
  · rename_i hz
    have hne : entriesFor feature text ≠ [] := hsize.mp (by omega)
    obtain ⟨r1, h1, h⟩ := Outcome.bind_eq_ok.mp h
    split at h
    · rename_i s hs
      split at h
      · rename_i hver
        obtain ⟨m, _, h⟩ := Outcome.bind_eq_ok.mp h
        simp only [Outcome.pure_eq, Outcome.ok.injEq, Prod.mk.injEq] at h; obtain ⟨rfl, rfl⟩ := h
        exact ⟨[.productFound], .inr (.inr ⟨⟨⟨s, hs⟩, (Ini.toLong_200 _).mp hver⟩, rfl, rfl⟩), .one h1⟩
      · rename_i hver
        obtain ⟨r2, h2, h⟩ := Outcome.bind_eq_ok.mp h
        simp only [Outcome.pure_eq, Outcome.ok.injEq, Prod.mk.injEq] at h; obtain ⟨rfl, rfl⟩ := h
        exact ⟨[.productFound, .malformed], .inr (.inl ⟨hne, fun hc => hver ((Ini.toLong_200 _).mpr hc.2), rfl, rfl⟩), .cons h1 (.one h2)⟩
    · rename_i hs
      obtain ⟨r2, h2, h⟩ := Outcome.bind_eq_ok.mp h
      simp only [Outcome.pure_eq, Outcome.ok.injEq, Prod.mk.injEq] at h; obtain ⟨rfl, rfl⟩ := h
      refine ⟨[.productFound, .malformed], .inr (.inl ⟨hne, ?_, rfl, rfl⟩), .cons h1 (.one h2)⟩
      rintro ⟨⟨s, hs'⟩, _⟩
      rw [hs] at hs'; simp at hs'

/-- The entries recorded for the texts found by one locator. -/
inductive ReadEntries (w : World) (feature : Bytes) (l : Locator) (b : Bool) :
    List Bytes → List Entry → List FullLicense → Prop
  | nil : ReadEntries w feature l b [] [] []
  | cons {src srcs text ts es lic lics} : retrieveContent w l b src = .ok text → readTypes feature text (Option.isSome lic) ts →
      (∀ x, lic = some x ↔ IsLicence feature src text x) → ReadEntries w feature l b srcs es lics →
      ReadEntries w feature l b (src :: srcs) (ts.map (fun t => (t, some src, none)) ++ es) (lic.toList ++ lics)

theorem readLocations_adds {w : World} {feature : Bytes} {l : Locator} {b : Bool} {locs : List Bytes} :
    ∀ {r r' : Registry} {lics : List FullLicense}, readLocations w feature l b r locs = .ok (r', lics) →
    ∃ es, ReadEntries w feature l b locs es lics ∧ Adds r es r' := by
  induction locs with
  | nil => intro r r' lics h; simp [readLocations] at h; obtain ⟨rfl, rfl⟩ := h; exact ⟨[], .nil, .nil⟩
  | cons s locs ih =>
    intro r r' lics h
    rw [readLocations] at h
    obtain ⟨c, hc, h⟩ := Outcome.bind_eq_ok.mp h
    obtain ⟨⟨r1, o⟩, ho, h⟩ := Outcome.bind_eq_ok.mp h
    obtain ⟨⟨r2, lics'⟩, hl, h⟩ := Outcome.bind_eq_ok.mp h
    simp only [Outcome.pure_eq, Outcome.ok.injEq, Prod.mk.injEq] at h
    obtain ⟨rfl, rfl⟩ := h
    obtain ⟨ts, h1, h2⟩ := readOne_adds ho
    obtain ⟨es, h3, h4⟩ := ih hl
    exact ⟨_, .cons hc h1 (fun x => readOne_spec ho x) h3, h2.trans h4⟩

/-- The entries recorded by all locators. -/
inductive SearchEntries (w : World) (feature : Bytes) : List Locator → List Entry → List FullLicense → Prop
  | nil : SearchEntries w feature [] [] []
  | cons {l ls r r' locs b es es' lics lics'} : licenseLocations w l r = .ok (r', locs, b) → ReadEntries w feature l b locs es lics →
      SearchEntries w feature ls es' lics' → SearchEntries w feature (l :: ls) (locateEntries w l ++ es ++ es') (lics ++ lics')

theorem readLocators_adds {w : World} {feature : Bytes} {ls : List Locator} :
    ∀ {r r' : Registry} {lics : List FullLicense}, readLocators w feature r ls = .ok (r', lics) →
    ∃ es, SearchEntries w feature ls es lics ∧ Adds r es r' := by
  induction ls with
  | nil => intro r r' lics h; simp [readLocators] at h; obtain ⟨rfl, rfl⟩ := h; exact ⟨[], .nil, .nil⟩
  | cons l ls ih =>
    intro r r' lics h
    rw [readLocators] at h
    obtain ⟨⟨r1, locs, b⟩, hloc, h⟩ := Outcome.bind_eq_ok.mp h
    obtain ⟨⟨r2, lics1⟩, hr, h⟩ := Outcome.bind_eq_ok.mp h
    obtain ⟨⟨r3, lics2⟩, hl, h⟩ := Outcome.bind_eq_ok.mp h
    simp only [Outcome.pure_eq, Outcome.ok.injEq, Prod.mk.injEq] at h
    obtain ⟨rfl, rfl⟩ := h
    obtain ⟨es, h1, h2⟩ := readLocations_adds hr
    obtain ⟨es', h3, h4⟩ := ih hl
    exact ⟨_, .cons hloc h1 h3, ((licenseLocations_adds hloc).trans h2).trans h4⟩

/-- Reading: the registry before warnings are turned into errors. -/
theorem readLicenses_adds {cfg : Config} {w : World} {hint : Option LicenseLocation} {feature : Bytes} {r : Registry}
    {lics : List FullLicense} (h : readLicenses cfg w hint feature = .ok (r, lics)) :
    ∃ es r0, Adds (Registry.empty w.platform) es r0
      ∧ ((activeStrategies cfg hint = [] ∧ lics = [] ∧ es = [(.fileNotFound, none, none)])
         ∨ SearchEntries w feature (activeStrategies cfg hint) es lics)
      ∧ ((lics = [] ∧ ∃ b, r0.turnWarningsIntoErrors = .ok (r, b)) ∨ (lics ≠ [] ∧ r = r0)) := by
  simp only [readLicenses] at h
  split at h
  · rename_i he
    obtain ⟨r1, h1, h⟩ := Outcome.bind_eq_ok.mp h
    obtain ⟨⟨r2, b2⟩, h2, h⟩ := Outcome.bind_eq_ok.mp h
    simp only [Outcome.pure_eq, Outcome.ok.injEq, Prod.mk.injEq] at h
    obtain ⟨rfl, rfl⟩ := h
    exact ⟨_, r1, .one h1, .inl ⟨by simpa using he, rfl, rfl⟩, .inl ⟨rfl, b2, h2⟩⟩
  · obtain ⟨⟨r1, lics'⟩, h1, h⟩ := Outcome.bind_eq_ok.mp h
    obtain ⟨es, h3, h4⟩ := readLocators_adds h1
    simp only at h
    split at h
    · rename_i he
      obtain ⟨⟨r2, b2⟩, h2, h⟩ := Outcome.bind_eq_ok.mp h
      simp only [Outcome.pure_eq, Outcome.ok.injEq, Prod.mk.injEq] at h
      obtain ⟨rfl, rfl⟩ := h
      exact ⟨es, r1, h4, .inr h3, .inl ⟨by simpa using he, b2, h2⟩⟩
    · rename_i he
      simp only [Outcome.pure_eq, Outcome.ok.injEq, Prod.mk.injEq] at h
      obtain ⟨rfl, rfl⟩ := h
      exact ⟨es, r1, h4, .inr h3, .inr ⟨by simpa using he, rfl⟩⟩

/-! ## Judging -/

theorem verifySignature_adds {w : World} {l : FullLicense} {r r' : Registry} {g : Bool}
    (h : verifySignature w l r = .ok (r', g)) :
    Adds r [(if g then .signatureVerified else .corrupted, some l.source, none)] r' := by
  unfold verifySignature at h
  obtain ⟨g', h1, h⟩ := Outcome.bind_eq_ok.mp h
  obtain ⟨r1, h2, h⟩ := Outcome.bind_eq_ok.mp h
  simp only [Outcome.pure_eq, Outcome.ok.injEq, Prod.mk.injEq] at h
  obtain ⟨rfl, rfl⟩ := h
  exact .one h2

/-- Entries of the check of the limits at time `now`, with the verdict. -/
inductive LimitEntries (cfg : Config) (w : World) (l : FullLicense) (now : Int) : Bool → List Entry → Prop
  | magic : l.magic ≠ cfg.magic → LimitEntries cfg w l now false [(.corrupted, some l.source, none)]
  | expired {d t} : SMap.find? kExpiry l.limits = some d → secondsFromEpoch w.mktime d = .ok t → t < now →
      LimitEntries cfg w l now false [(.productExpired, some l.source, some (b!"Expired " ++ d))]
  | early {d t} : SMap.find? kBegin l.limits = some d → secondsFromEpoch w.mktime d = .ok t → now < t →
      LimitEntries cfg w l now false [(.productExpired, some l.source, some (b!"Valid from " ++ d))]
  | client {s ev} : SMap.find? kClient l.limits = some s → validatePcSignature w.machine s = .ok ev →
      LimitEntries cfg w l now (ev = .licenseOk) [(ev, some l.source, none)]
  | nothing : SMap.find? kClient l.limits = none → LimitEntries cfg w l now true []

theorem checkExpiry_adds {cfg : Config} {w : World} {now : Int} {l : FullLicense} {r r' : Registry} {v : Bool}
    (h : checkExpiry w now l r = .ok (r', v)) :
    (v = true ∧ r' = r) ∨ (v = false ∧ ∃ es, LimitEntries cfg w l now false es ∧ Adds r es r') := by
  unfold checkExpiry at h
  split at h
  · simp only [Outcome.ok.injEq, Prod.mk.injEq] at h; exact .inl ⟨h.2.symm, h.1.symm⟩
  · rename_i d hf
    obtain ⟨t, ht, h⟩ := Outcome.bind_eq_ok.mp h
    split at h
    · rename_i hlt
      obtain ⟨r1, h1, h⟩ := Outcome.bind_eq_ok.mp h
      simp only [Outcome.pure_eq, Outcome.ok.injEq, Prod.mk.injEq] at h
      obtain ⟨rfl, rfl⟩ := h
      exact .inr ⟨rfl, _, .expired hf ht hlt, .one h1⟩
    · simp only [Outcome.pure_eq, Outcome.ok.injEq, Prod.mk.injEq] at h; exact .inl ⟨h.2.symm, h.1.symm⟩

theorem checkBegin_adds {cfg : Config} {w : World} {now : Int} {l : FullLicense} {r r' : Registry} {v : Bool}
    (h : checkBegin w now l r = .ok (r', v)) :
    (v = true ∧ r' = r) ∨ (v = false ∧ ∃ es, LimitEntries cfg w l now false es ∧ Adds r es r') := by
  unfold checkBegin at h
  split at h
  · simp only [Outcome.ok.injEq, Prod.mk.injEq] at h; exact .inl ⟨h.2.symm, h.1.symm⟩
  · rename_i d hf
    obtain ⟨t, ht, h⟩ := Outcome.bind_eq_ok.mp h
    split at h
    · rename_i hlt
      obtain ⟨r1, h1, h⟩ := Outcome.bind_eq_ok.mp h
      simp only [Outcome.pure_eq, Outcome.ok.injEq, Prod.mk.injEq] at h
      obtain ⟨rfl, rfl⟩ := h
      exact .inr ⟨rfl, _, .early hf ht hlt, .one h1⟩
    · simp only [Outcome.pure_eq, Outcome.ok.injEq, Prod.mk.injEq] at h; exact .inl ⟨h.2.symm, h.1.symm⟩

theorem checkClient_adds {cfg : Config} {now : Int} {w : World} {l : FullLicense} {r r' : Registry} {v : Bool}
    (h : checkClient w l r = .ok (r', v)) : ∃ es, LimitEntries cfg w l now v es ∧ Adds r es r' := by
  unfold checkClient at h
  split at h
  · rename_i hf
    simp only [Outcome.ok.injEq, Prod.mk.injEq] at h; obtain ⟨rfl, rfl⟩ := h; exact ⟨[], .nothing hf, .nil⟩
  · rename_i s hf
    obtain ⟨ev, hev, h⟩ := Outcome.bind_eq_ok.mp h
    obtain ⟨r1, h1, h⟩ := Outcome.bind_eq_ok.mp h
    simp only [Outcome.pure_eq, Outcome.ok.injEq, Prod.mk.injEq] at h
    obtain ⟨rfl, rfl⟩ := h
    exact ⟨_, .client hf hev, .one h1⟩

theorem verifyLimits_adds {cfg : Config} {w : World} {l : FullLicense} {r r' : Registry} {k k' : Nat} {v : Bool}
    (h : verifyLimits cfg w l r k = .ok (r', k', v)) : ∃ es, LimitEntries cfg w l (w.clock k) v es ∧ Adds r es r' := by
  simp only [verifyLimits] at h
  split at h
  · obtain ⟨⟨r1, v1⟩, h1, h⟩ := Outcome.bind_eq_ok.mp h
    simp only at h
    rcases checkExpiry_adds (cfg := cfg) h1 with ⟨hv, hr⟩ | ⟨hv, es, h3, h4⟩
    · rw [if_pos hv] at h
      obtain ⟨⟨r2, v2⟩, h2, h⟩ := Outcome.bind_eq_ok.mp h
      simp only at h
      rcases checkBegin_adds (cfg := cfg) h2 with ⟨hv2, hr2⟩ | ⟨hv2, es, h3, h4⟩
      · rw [if_pos hv2] at h
        obtain ⟨⟨r3, v3⟩, h3, h⟩ := Outcome.bind_eq_ok.mp h
        simp only [Outcome.pure_eq, Outcome.ok.injEq, Prod.mk.injEq] at h
        obtain ⟨e1, _, e2⟩ := h
        rw [hr2, hr] at h3
        rw [← e1, ← e2]
        exact checkClient_adds h3
      · simp only [hv2, Bool.false_eq_true, if_false, Outcome.pure_eq, Outcome.ok.injEq, Prod.mk.injEq] at h
        obtain ⟨e1, _, e2⟩ := h
        rw [hr] at h4
        rw [← e1, ← e2]
        exact ⟨es, h3, h4⟩
    · simp only [hv, Bool.false_eq_true, if_false, Outcome.pure_eq, Outcome.ok.injEq, Prod.mk.injEq] at h
      obtain ⟨e1, _, e2⟩ := h
      rw [← e1, ← e2]
      exact ⟨es, h3, h4⟩
  · rename_i hm
    obtain ⟨r1, h1, h⟩ := Outcome.bind_eq_ok.mp h
    simp only [Outcome.pure_eq, Outcome.ok.injEq, Prod.mk.injEq] at h
    obtain ⟨e1, _, e2⟩ := h
    rw [← e1, ← e2]
    exact ⟨_, .magic hm, .one h1⟩

/-- Entries of the judgement of the licences; the booleans are the verdicts, `K` bounds the clock readings. -/
inductive JudgeEntries (cfg : Config) (w : World) (K : Nat) : List FullLicense → List Bool → List Entry → Prop
  | nil : JudgeEntries cfg w K [] [] []
  | unsigned {l ls vs es} : w.verify l.printForSign l.signature = .ok false → JudgeEntries cfg w K ls vs es →
      JudgeEntries cfg w K (l :: ls) (false :: vs) ((.corrupted, some l.source, none) :: es)
  | signed {l ls v vs es es' j} : w.verify l.printForSign l.signature = .ok true → j < K →
      LimitEntries cfg w l (w.clock j) v es → JudgeEntries cfg w K ls vs es' →
      JudgeEntries cfg w K (l :: ls) (v :: vs) ((.signatureVerified, some l.source, none) :: es ++ es')

theorem judgeLoop_adds {cfg : Config} {w : World} {caller : Option Caller} {ls : List FullLicense} :
    ∀ {r r' : Registry} {k k' : Nat} {oks errs : List LicInfo},
    judgeLoop cfg w caller r k ls = .ok (r', k', oks, errs) →
    ∃ vs es, JudgeEntries cfg w k' (ls.map (withMagic caller)) vs es ∧ (true ∈ vs ↔ oks ≠ []) ∧ Adds r es r' := by
  induction ls with
  | nil =>
    intro r r' k k' oks errs h
    simp only [judgeLoop, Outcome.ok.injEq, Prod.mk.injEq] at h
    obtain ⟨rfl, _, rfl, _⟩ := h
    exact ⟨[], [], .nil, by simp, .nil⟩
  | cons l ls ih =>
    intro r r' k k' oks errs h
    simp only [judgeLoop] at h
    obtain ⟨⟨r1, g⟩, h1, h⟩ := Outcome.bind_eq_ok.mp h
    obtain ⟨⟨i, k1⟩, h2, h⟩ := Outcome.bind_eq_ok.mp h
    have ha := verifySignature_adds h1
    have hs := verifySignature_ok h1
    simp only at h
    cases g with
    | true =>
      simp only [if_true] at h ha
      obtain ⟨⟨r2, k2, v⟩, h3, h⟩ := Outcome.bind_eq_ok.mp h
      obtain ⟨⟨r3, k3, oks', errs'⟩, h4, h⟩ := Outcome.bind_eq_ok.mp h
      simp only [Outcome.pure_eq, Outcome.ok.injEq, Prod.mk.injEq] at h
      obtain ⟨e1, e2, ho, _⟩ := h
      obtain ⟨es, h5, h6⟩ := verifyLimits_adds h3
      obtain ⟨vs, es', h7, h8, h9⟩ := ih h4
      have hk2 : k2 = k1 + 1 := (verifyLimits_ok h3).1
      have hk3 : k2 ≤ k3 := judged_mono (judgeLoop_judged h4)
      rw [← e1, ← e2]
      refine ⟨v :: vs, _, .signed hs (by omega) h5 h7, ?_, (ha.trans h6).trans h9⟩
      rw [← ho]
      cases v
      · simp [h8]
      · simp
    | false =>
      simp only [Bool.false_eq_true, if_false] at h ha
      obtain ⟨⟨r3, k3, oks', errs'⟩, h4, h⟩ := Outcome.bind_eq_ok.mp h
      simp only [Outcome.pure_eq, Outcome.ok.injEq, Prod.mk.injEq] at h
      obtain ⟨e1, e2, ho, _⟩ := h
      obtain ⟨vs, es', h7, h8, h9⟩ := ih h4
      rw [← e1, ← e2]
      refine ⟨false :: vs, _, .unsigned hs h7, ?_, ha.trans h9⟩
      rw [← ho]; simp [h8]

end Licensecc
